import Verif.Lemmas.PieceOutline
import Verif.Props.FileOutline
/-! # C100: the outlines of files with their sections in another order -/
namespace Metatab
open Py _root_.Spec

/-- The rows of pieces in any order. -/
theorem pieces_plain {head : List (List Str)} {pieces : List (List (List Str))} (h0 : plainFile head = true)
    (h : ∀ rows ∈ pieces, plainFile rows = true) : plainFile (head ++ pieces.flatten) = true :=
  plainFrom_join List.mem_cons_self h0 (plainFile_flatten h)

theorem pieces_tree {head : List (List Str)} {pieces : List (List (List Str))} (h0 : treeFile head = true)
    (h : ∀ rows ∈ pieces, startsSection rows = true ∧ treeFile rows = true) : treeFile (head ++ pieces.flatten) = true :=
  tree_append head h0 (tree_flatten h)

/-- **C100** (outlines). The outline of a file with its pieces in another order has the same parts.

Missing for the full claim: as for `C100_order_partial`. -/
theorem C100_outline_partial {head : List (List Str)} {pieces pieces' : List (List (List Str))} (hp : pieces'.Perm pieces)
    (h0 : plainFile head = true ∧ treeFile head = true)
    (h : ∀ rows ∈ pieces, plainFile rows = true ∧ treeFile rows = true ∧ startsSection rows = true)
    (hd : ((head :: pieces).map sectionNames).Pairwise List.Disjoint) :
    (fileOutline (head ++ pieces'.flatten)).Perm (fileOutline (head ++ pieces.flatten)) := by
  have h' : ∀ rows ∈ pieces', plainFile rows = true ∧ treeFile rows = true ∧ startsSection rows = true := fun rows hr => h rows (hp.mem_iff.1 hr)
  obtain ⟨s, s', e1, e2, e3⟩ := C100_order_partial (env := exEnv) plainClasses_init hp h0.1 (fun rows hr => ⟨(h rows hr).1, (h rows hr).2.2⟩) hd noFiles 0 []
  have p1 := pieces_plain h0.1 fun rows hr => (h rows hr).1
  have p2 := pieces_plain h0.1 fun rows hr => (h' rows hr).1
  have t1 := pieces_tree h0.2 fun rows hr => ⟨(h rows hr).2.2, (h rows hr).2.1⟩
  have t2 := pieces_tree h0.2 fun rows hr => ⟨(h' rows hr).2.2, (h' rows hr).2.1⟩
  have key : ∀ {rows : List (List Str)} {s : St}, plainFile rows = true → treeFile rows = true →
      parseRows noFiles (0 + 1) [] rows (newDoc exEnv) = .ok () s → Shows s (fileOutline rows) ∧ NoHeaders s ∧ s.sections.keys.Nodup := by
    intro rows s a b e
    obtain ⟨s1, x1, x2⟩ := tree_shown (env := exEnv) plainClasses_init a b noFiles 0 []
    rw [e] at x1
    cases x1
    obtain ⟨s1, ids, y1, -, -, y2, -⟩ := plain_shown (env := exEnv) plainClasses_init a (tree_kinds b) noFiles 0 []
    rw [e] at y1
    cases y1
    exact ⟨x2, y2, ((reach_read e).wf fun _ _ ha => ha : WF True s).secsNodup⟩
  obtain ⟨a1, a2, a3⟩ := key p1 t1 e1
  obtain ⟨b1, b2, b3⟩ := key p2 t2 e2
  exact outline_sections e3 a1 b1 a3 b3 a2 b2

/-- **C100** (searches). In the files with the pieces in the one and in the other order every search finds terms that are the same items,
up to the order.

Missing for the full claim: as for `C100_order_partial`. -/
theorem C100_search_partial {env : Env} {classes : Dict Cls} (hcl : PlainClasses classes) {head : List (List Str)}
    {pieces pieces' : List (List (List Str))} (hp : pieces'.Perm pieces) (h0 : plainFile head = true ∧ treeFile head = true)
    (h : ∀ rows ∈ pieces, plainFile rows = true ∧ treeFile rows = true ∧ startsSection rows = true)
    (hd : ((head :: pieces).map sectionNames).Pairwise List.Disjoint) (files : Files) (fuel : Nat) (path : Str) :
    ∃ s s', parseRows files (fuel + 1) path (head ++ pieces.flatten) (newDoc env classes) = .ok () s ∧
      parseRows files (fuel + 1) path (head ++ pieces'.flatten) (newDoc env classes) = .ok () s' ∧
      ∀ A B, PlainPart A → PlainPart B → A ≠ py!"*" → ∀ value secs, ∃ l l' m m' items, find s (dotJoin A B) value secs = .ok l ∧
        find s' (dotJoin A B) value secs = .ok l' ∧ m.Perm l ∧ m'.Perm l' ∧ List.Forall₂ (FoundAs s) items m ∧ List.Forall₂ (FoundAs s') items m' := by
  have h' : ∀ rows ∈ pieces', plainFile rows = true ∧ treeFile rows = true ∧ startsSection rows = true := fun rows hr => h rows (hp.mem_iff.1 hr)
  have p1 := pieces_plain h0.1 fun rows hr => (h rows hr).1
  have p2 := pieces_plain h0.1 fun rows hr => (h' rows hr).1
  have t1 := pieces_tree h0.2 fun rows hr => ⟨(h rows hr).2.2, (h rows hr).2.1⟩
  have t2 := pieces_tree h0.2 fun rows hr => ⟨(h' rows hr).2.2, (h' rows hr).2.1⟩
  obtain ⟨s, e1, f1⟩ := C101_search (env := env) hcl p1 t1 files fuel path
  obtain ⟨s', e2, f2⟩ := C101_search (env := env) hcl p2 t2 files fuel path
  refine ⟨s, s', e1, e2, fun A B hA hB hst value secs => ?_⟩
  obtain ⟨l, m, x1, x2, x3⟩ := f1 A B hA hB hst value secs
  obtain ⟨l', m', y1, y2, y3⟩ := f2 A B hA hB hst value secs
  have hperm : (outlineFind (fileOutline (head ++ pieces.flatten)) (A, B) value secs).Perm
      (outlineFind (fileOutline (head ++ pieces'.flatten)) (A, B) value secs) := (C100_outline_partial hp h0 h hd).symm.flatMap_right _
  obtain ⟨m2, g1, g2⟩ := List.perm_comp_forall₂ hperm y3
  exact ⟨l, l', m, m2, _, x1, y1, x2, g2.trans y2, x3, g1⟩

/-! ## Examples -/

theorem po_ok : (plainFile pcHead = true ∧ treeFile pcHead = true) ∧
    ∀ rows ∈ [pcData, pcSchema], plainFile rows = true ∧ treeFile rows = true ∧ startsSection rows = true := by decide +kernel

example : (fileOutline (pcHead ++ [pcSchema, pcData].flatten)).Perm (fileOutline (pcHead ++ [pcData, pcSchema].flatten)) :=
  C100_outline_partial (.swap _ _ _) po_ok.1 po_ok.2 pc_disjoint

example : (fileOutline (pcHead ++ [pcSchema, pcData].flatten)).map (·.name) = [py!"Root", py!"Schema", py!"Data"] ∧
    (fileOutline (pcHead ++ [pcData, pcSchema].flatten)).map (·.name) = [py!"Root", py!"Data", py!"Schema"] := by decide +kernel

/-- The columns of the table are found in both files. -/
example : ∃ s s', parseRows noFiles 3 (py!"doc.csv") (pcHead ++ [pcData, pcSchema].flatten) exDoc = .ok () s ∧
      parseRows noFiles 3 (py!"doc.csv") (pcHead ++ [pcSchema, pcData].flatten) exDoc = .ok () s' ∧
      ∃ l l' m m' items, find s (py!"Table.Column") .fls none = .ok l ∧ find s' (py!"Table.Column") .fls none = .ok l' ∧ m.Perm l ∧ m'.Perm l' ∧
        List.Forall₂ (FoundAs s) items m ∧ List.Forall₂ (FoundAs s') items m' := by
  obtain ⟨s, s', h1, h2, h3⟩ := C100_search_partial (env := exEnv) plainClasses_init (.swap _ _ _) po_ok.1 po_ok.2 pc_disjoint noFiles 2 (py!"doc.csv")
  exact ⟨s, s', h1, h2, h3 (py!"Table") (py!"Column") (fe_plain (by decide)) (fe_plain (by decide)) (by decide) .fls none⟩

end Metatab
