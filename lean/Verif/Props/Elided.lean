import Verif.Lemmas.PlainDoc
import Verif.Lemmas.Examples
/-! # Rows with an elided parent (C29)

The term of a row is identified by reading the rows before it alone: its number is the next free one. -/
namespace Metatab
open Py Spec

/-- The row names no term: a comment, a header or a row `.X`. -/
def Quiet (row : List Str) : Prop := kind row = .noise ∨ (∃ x, kind row = .elided x) ∨ ∃ n cols, kind row = .header n cols

theorem quiet_p {s s' : St} {rows : List (List Str)} (h : PlainRows s rows s') (hq : ∀ row ∈ rows, Quiet row) :
    s'.p.lastParent = s.p.lastParent ∧ s'.p.lastMap = s.p.lastMap ∧ s'.p.lastSec = s.p.lastSec := by
  induction h with
  | nil => exact ⟨rfl, rfl, rfl⟩
  | cons hr _ ih =>
    obtain ⟨i1, i2, i3⟩ := ih fun row hm => hq row (List.mem_cons_of_mem _ hm)
    rw [i1, i2, i3]
    rcases hq _ List.mem_cons_self with hk | ⟨x, hk⟩ | ⟨n, cols, hk⟩
    · rw [hr.of_noise hk]; exact ⟨rfl, rfl, rfl⟩
    · obtain ⟨c, rest, -, -, e⟩ := hr.of_elided hk
      rw [e, termEffect_p, if_pos rfl]; exact ⟨rfl, rfl, rfl⟩
    · obtain ⟨c, rest, -, -, -, -, e⟩ := hr.of_header hk
      rw [e]; exact ⟨rfl, rfl, rfl⟩

/-- The number the term of the next row will get after these rows. -/
def nextTerm (files : Files) (fuel : Nat) (path : Str) (rows : List (List Str)) (doc : St) : Nat :=
  (after (parseRows files fuel path rows) doc).next

theorem nextTerm_plain {env : Env} {classes : Dict Cls} (hcl : PlainClasses classes) {rows : List (List Str)} {s' : St}
    (h : PlainRows (newDoc env classes) rows s') (files : Files) (fuel : Nat) (path : Str) :
    nextTerm files (fuel + 1) path rows (newDoc env classes) = s'.next := by
  unfold nextTerm
  unfold after
  rw [parse_plain hcl h]
  rfl

/-- **C29** (below the latest named term). In a file of ordinary rows, a row `.X` becomes a child of the term of the latest row before
it that names a term, if there is no section row in between: its parent part is that term's name, it is among that term's children and
it has the row's value. Reading never fails. -/
theorem C29_below_latest {env : Env} {classes : Dict Cls} (hcl : PlainClasses classes) {before between after_ : List (List Str)}
    {c c' p r x : Str} {cells cells' : List Str}
    (h : plainFile (before ++ (c :: cells) :: (between ++ (c' :: cells') :: after_)) = true) (hn : kind (c :: cells) = .named p r)
    (hq : ∀ row ∈ between, Quiet row) (he : kind (c' :: cells') = .elided x) (files : Files) (fuel : Nat) (path : Str) :
    ∃ s, parseRows files (fuel + 1) path (before ++ (c :: cells) :: (between ++ (c' :: cells') :: after_)) (newDoc env classes) = .ok () s ∧
      let i := nextTerm files (fuel + 1) path before (newDoc env classes)
      let j := nextTerm files (fuel + 1) path (before ++ (c :: cells) :: between) (newDoc env classes)
      (s.heap i).rt = r ∧ (s.heap i).value = (Val.str (cells.headD [])).mk ∧
      (s.heap j).pt = r ∧ (s.heap j).rt = x ∧ (s.heap j).value = (Val.str (cells'.headD [])).mk ∧
      (s.heap j).parent = some i ∧ j ∈ (s.heap i).children ∧ (s.heap j).sec = (s.heap i).sec := by
  obtain ⟨s0, s1, s4, h0, i0, r0, i1, h4, i4⟩ := plainFile_split (env := env) hcl h
  obtain ⟨s2, h2, h3⟩ := h4.split
  have i2 := h2.inv i1
  cases h3 with
  | @cons _ s3 _ _ _ r3 h5 =>
  have i3 := r3.inv i2
  obtain ⟨_, _, e, hc, hne, e1⟩ := r0.of_named hn
  cases e
  obtain ⟨_, _, e, hc', e3⟩ := r3.of_elided he
  cases e
  have hrun := parse_plain hcl (h0.append (.cons r0 (h2.append (.cons r3 h5)))) files fuel path
  refine ⟨_, hrun, ?_⟩
  rw [nextTerm_plain hcl h0, nextTerm_plain hcl (h0.append (.cons r0 h2))]
  have l14 : Later s1 (after finishLoad s4) := ((h2.later i1).trans ((r3.later i2).trans (h5.later i3))).trans (later_finish s4)
  have l34 : Later s3 (after finishLoad s4) := (h5.later i3).trans (later_finish s4)
  obtain ⟨q1, q2, q3⟩ := quiet_p h2 hq
  have n1 := termEffect_new i0 hc cells
  rw [← e1] at n1
  have n3 := termEffect_new i2 hc' cells'
  rw [← e3] at n3
  simp only at n1 n3
  obtain ⟨a1, a2, a3, a4, a5, a6, a7⟩ := n1
  obtain ⟨b1, b2, b3, b4, b5, b6, b7⟩ := n3
  have hlt0 : s0.next < s1.next := by rw [e1]; exact termEffect_lt
  have hlt2 : s2.next < s3.next := by rw [e3]; exact termEffect_lt
  have hp1 : s1.p.lastParent = r ∧ s1.p.lastMap.get? r = some s0.next ∧ s1.p.lastSec = s0.p.lastSec := by
    rw [e1, termEffect_p, if_neg hne]
    refine ⟨rfl, ?_, rfl⟩
    show Dict.get? (Dict.set _ _ _) _ = _
    rw [Dict.get?_set, if_pos rfl]
  have hpar : parentOf s2 ELIDED = s0.next := by
    unfold parentOf lastTerm; rw [if_pos rfl, q1, q2, hp1.1, hp1.2.1]; rfl
  have hfp : finalPt s2.p ELIDED = r := by rw [show finalPt s2.p ELIDED = s2.p.lastParent from if_pos rfl, q1, hp1.1]
  rw [hpar] at b4 b6
  obtain ⟨f1, f2, f3, f4, f5, f6, f7⟩ := l14.obj _ hlt0
  obtain ⟨g1, g2, g3, g4, g5, g6, g7⟩ := l34.obj _ hlt2
  have hlt03 : s0.next < s3.next := Nat.lt_of_lt_of_le hlt0 (Nat.le_trans (h2.later i1).next (Nat.le_of_lt (Nat.lt_of_le_of_lt (Nat.le_refl _) hlt2)))
  refine ⟨by rw [f2, a2], by rw [f3, a3], by rw [g1, b1, hfp], by rw [g2, b2], by rw [g3, b3], by rw [g4, b4], ?_, ?_⟩
  · exact (l34.children _ hlt03).subset b6
  · rw [l34.sec _ hlt2 ?_, l14.sec _ hlt0 ?_, b5, a5, q3, hp1.2.2]
    · rw [e1]; exact termEffect_cls i0 hc cells
    · rw [e3]; exact termEffect_cls i2 hc' cells'

/-- **C29** (no named term yet). A row `.X` with no row naming a term since the last section row, or since the start of the file, is a
root-level term of that section: its parent part is `root`, its parent is the root section and it is listed with the section's terms
and with the document's. -/
theorem C29_root_level {env : Env} {classes : Dict Cls} (hcl : PlainClasses classes) {before between after_ : List (List Str)}
    {c' x : Str} {cells' : List Str} (h : plainFile (before ++ (between ++ (c' :: cells') :: after_)) = true)
    (hb : before = [] ∨ ∃ before' row n cols, before = before' ++ [row] ∧ kind row = .section n cols)
    (hq : ∀ row ∈ between, Quiet row) (he : kind (c' :: cells') = .elided x) (files : Files) (fuel : Nat) (path : Str) :
    ∃ s, parseRows files (fuel + 1) path (before ++ (between ++ (c' :: cells') :: after_)) (newDoc env classes) = .ok () s ∧
      let j := nextTerm files (fuel + 1) path (before ++ between) (newDoc env classes)
      (s.heap j).pt = py!"root" ∧ (s.heap j).rt = x ∧ (s.heap j).value = (Val.str (cells'.headD [])).mk ∧
      (s.heap j).parent = some s.root ∧ j ∈ (s.heap s.root).children ∧ j ∈ s.terms ∧
      ∃ y, (s.heap j).sec = some y ∧ j ∈ (s.heap y).terms := by
  obtain ⟨s4, h4⟩ := plainFile_rows (env := env) hcl h
  obtain ⟨s1, h1, h5⟩ := h4.split
  obtain ⟨s2, h2, h3⟩ := h5.split
  have i1 := h1.inv (F := True) (pinv_new hcl)
  have i2 := h2.inv i1
  cases h3 with
  | @cons _ s3 _ _ _ r3 h5 =>
  have i3 := r3.inv i2
  obtain ⟨_, _, e, hc', e3⟩ := r3.of_elided he
  cases e
  have hrun := parse_plain hcl h4 files fuel path
  refine ⟨_, hrun, ?_⟩
  rw [nextTerm_plain hcl (h1.append h2)]
  have l34 : Later s3 (after finishLoad s4) := (h5.later i3).trans (later_finish s4)
  obtain ⟨q1, q2, q3⟩ := quiet_p h2 hq
  have n3 := termEffect_new i2 hc' cells'
  rw [← e3] at n3
  simp only at n3
  obtain ⟨b1, b2, b3, b4, b5, b6, b7⟩ := n3
  have hlt2 : s2.next < s3.next := by rw [e3]; exact termEffect_lt
  have hp1 : s1.p.lastParent = ROOT := by
    rcases hb with rfl | ⟨before', row, n, cols, rfl, hk⟩
    · cases h1; rfl
    · obtain ⟨s0, h0, h0'⟩ := h1.split
      cases h0' with
      | cons hr ht =>
        cases ht
        obtain ⟨_, _, _, _, _, _, e⟩ := hr.of_section hk
        rw [e]; rfl
  have hlast : s2.p.lastParent = ROOT := q1.trans hp1
  have hroot : s2.root = (after finishLoad s4).root := by
    rw [l34.root, (r3.later i2).root]
  have hpar : parentOf s2 ELIDED = s2.root := by
    unfold parentOf lastTerm; rw [if_pos rfl, hlast, i2.rootKey]; rfl
  have hfp : finalPt s2.p ELIDED = ROOT := by rw [show finalPt s2.p ELIDED = s2.p.lastParent from if_pos rfl, hlast]
  rw [hpar] at b4 b6
  rw [hfp] at b1 b7
  obtain ⟨b8, b9⟩ := b7 (by decide)
  obtain ⟨g1, g2, g3, g4, g5, g6, g7⟩ := l34.obj _ hlt2
  have hltr : s2.root < s3.next := Nat.lt_trans i2.wf.rootLt hlt2
  refine ⟨by rw [g1, b1]; rfl, by rw [g2, b2], by rw [g3, b3], by rw [g4, b4, hroot], ?_, l34.terms.subset b8, ?_⟩
  · rw [← hroot]; exact (l34.children _ hltr).subset b6
  · refine ⟨s2.p.lastSec, ?_, (l34.secTerms _ (Nat.lt_trans i2.wf.pSec.1 hlt2)).subset b9⟩
    rw [l34.sec _ hlt2, b5]
    rw [e3]; exact termEffect_cls i2 hc' cells'

/-- A file meeting the hypotheses: `.Y` belongs to the table although `.X` and a comment come in between. -/
example : plainFile ([[py!"Section", py!"S", py!"A"]] ++ [py!"Table", py!"t", py!"1"] ::
      ([[py!".X", py!"x"], [py!"# note"]] ++ [py!".Y", py!"y"] :: [[py!"Table.Z", py!"z"]])) = true ∧
    kind [py!"Table", py!"t", py!"1"] = .named (py!"root") (py!"table") ∧ kind [py!".Y", py!"y"] = .elided (py!"y") ∧
    (∀ row ∈ [[py!".X", py!"x"], [py!"# note"]], Quiet row) := by
  refine ⟨by decide, by decide, by decide, ?_⟩
  intro row hr
  rcases List.mem_cons.1 hr with rfl | hr
  · exact .inr (.inl ⟨py!"x", by decide⟩)
  · rw [List.mem_singleton.1 hr]; exact .inl (by decide)

/-- The names `Root` and `Section` are not ordinary: after a row `X.Root` the parser takes that term for the root section, so that an
elided row after a section row is put below it. -/
theorem C29_root_name_witness :
    let s := exParse [[py!"X", py!"1"], [py!"X.Root", py!"2"], [py!"Section", py!"S"], [py!".Y", py!"3"]]
    (s.heap 4).rt = py!"y" ∧ (s.heap 4).parent = some 2 ∧ (s.heap 2).rt = py!"root" ∧ s.root = 0 := by decide +kernel

end Metatab
