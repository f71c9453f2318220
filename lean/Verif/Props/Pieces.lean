import Verif.Lemmas.PieceDoc
import Verif.Props.Atomic
/-! # C100: the sections of a file do not depend on each other -/
namespace Metatab
open Py _root_.Spec

/-- What is read from pieces. -/
theorem pieces_read {env : Env} {classes : Dict Cls} (hcl : PlainClasses classes) {head : List (List Str)} {pieces : List (List (List Str))}
    (h0 : plainFile head = true) (h : ∀ rows ∈ pieces, plainFile rows = true ∧ startsSection rows = true)
    (hd : ((head :: pieces).map sectionNames).Pairwise List.Disjoint) (files : Files) (fuel : Nat) (path : Str) :
    ∃ s ps, parseRows files (fuel + 1) path (head ++ pieces.flatten) (newDoc env classes) = .ok () s ∧ (s.heap s.root).cls.isSection = true ∧
      Holding s ps ∧ ps.map (·.1) = headBk head :: pieces.map pieceBk := by
  have refs : ∀ rows, plainFile rows = true → ∀ n ∈ (readAll rows).nodes, RefOk (readAll rows).nodes.length n.parent := by
    intro rows hr
    obtain ⟨s, ids, -, hh, -, hok⟩ := plain_holds (env := env) hcl hr files fuel path
    rw [← hh.count]; exact hok
  have hh : (headBk head).Ok := headBk_ok (refs head h0)
  have hp : ∀ rows ∈ pieces, plainFile rows = true ∧ startsSection rows = true ∧ (pieceBk rows).Ok := fun rows hr =>
    ⟨(h rows hr).1, (h rows hr).2, pieceBk_ok (h rows hr).2 (refs rows (h rows hr).1)⟩
  have hroot : ∀ rows, plainFile rows = true → py!"root" ∉ sectionNames rows := by
    intro rows _ hm
    unfold sectionNames at hm
    obtain ⟨row, -, hk⟩ := List.mem_filterMap.1 hm
    cases hkd : kind row <;> rw [hkd] at hk <;> try cases hk
    next n cols =>
      injection hk with hk
      exact section_not_root hkd hk
  have hd' : ((headBk head).names :: pieces.map sectionNames).Pairwise List.Disjoint := by
    rw [List.map_cons, List.pairwise_cons] at hd
    refine List.pairwise_cons.2 ⟨?_, hd.2⟩
    intro ns hns k hk hin
    obtain ⟨rows, hr, rfl⟩ := List.mem_map.1 hns
    rcases List.mem_cons.1 hk with rfl | hk
    · exact hroot rows (h rows hr).1 hin
    · exact hd.1 _ hns hk hin
  obtain ⟨e1, e2⟩ := readAll_pieces hh hp hd'
  have hpl : plainFile (head ++ pieces.flatten) = true :=
    plainFrom_join List.mem_cons_self h0 (plainFile_flatten fun rows hr => (h rows hr).1)
  obtain ⟨s, ids, r1, r2, r3, -⟩ := plain_holds (env := env) hcl hpl files fuel path
  obtain ⟨ps, q1, q2⟩ := holding_of r2 (bs := headBk head :: pieces.map pieceBk) (by
    intro b hb
    rcases List.mem_cons.1 hb with rfl | hb
    · exact hh
    · obtain ⟨rows, hr, rfl⟩ := List.mem_map.1 hb
      exact (hp rows hr).2.2) (by rw [List.map_cons, List.map_map]; exact hd') e1 e2
  exact ⟨s, ps, r1, r3, q2, q1⟩

/-- **C100** (order). Pieces of a file that are ordinary files by themselves, start with a section row and share no section can come in any
order: the document has the same sections with the same columns, each with the same terms in the same order, and every term has the same name,
value, parent, section and children. Only the order of the sections changes.

Missing for the full claim: pieces with rows that refer to a row of another section; see the witnesses. -/
theorem C100_order_partial {env : Env} {classes : Dict Cls} (hcl : PlainClasses classes) {head : List (List Str)}
    {pieces pieces' : List (List (List Str))} (hp : pieces'.Perm pieces) (h0 : plainFile head = true)
    (h : ∀ rows ∈ pieces, plainFile rows = true ∧ startsSection rows = true)
    (hd : ((head :: pieces).map sectionNames).Pairwise List.Disjoint) (files : Files) (fuel : Nat) (path : Str) :
    ∃ s s', parseRows files (fuel + 1) path (head ++ pieces.flatten) (newDoc env classes) = .ok () s ∧
      parseRows files (fuel + 1) path (head ++ pieces'.flatten) (newDoc env classes) = .ok () s' ∧ SameSections s s' := by
  have hd' : ((head :: pieces').map sectionNames).Pairwise List.Disjoint :=
    ((hp.cons head).map sectionNames).pairwise_iff (by intro x y h a h1 h2; exact h h2 h1) |>.2 hd
  obtain ⟨s, ps, r1, r2, r3, r4⟩ := pieces_read (env := env) hcl h0 h hd files fuel path
  obtain ⟨s', ps', q1, q2, q3, q4⟩ := pieces_read (env := env) hcl h0 (fun rows hr => h rows (hp.mem_iff.1 hr)) hd' files fuel path
  refine ⟨s, s', r1, q1, same_pieces r3 q3 ?_ r2 q2⟩
  rw [r4, q4]
  exact (hp.map pieceBk).cons _

/-- **C100** (parents). When the rows of each section are an ordinary file by themselves, every term is in the section of its parent.

Missing for the full claim: as for `C100_order_partial`. -/
theorem C100_parents_partial {env : Env} {classes : Dict Cls} (hcl : PlainClasses classes) {head : List (List Str)}
    {pieces : List (List (List Str))} (h0 : plainFile head = true) (hs0 : sectionNames head = [])
    (h : ∀ rows ∈ pieces, plainFile rows = true ∧ startsSection rows = true ∧ ∃ k, sectionNames rows = [k])
    (hd : (pieces.map sectionNames).Pairwise List.Disjoint) (files : Files) (fuel : Nat) (path : Str) :
    ∃ s, parseRows files (fuel + 1) path (head ++ pieces.flatten) (newDoc env classes) = .ok () s ∧
      ∀ t, InDoc s t → ∃ q, (s.heap t).parent = some q ∧ (q = s.root ∨ t ∈ (s.heap q).children ∧ (s.heap q).sec = (s.heap t).sec) := by
  obtain ⟨s, ps, r1, r2, r3, r4⟩ := pieces_read (env := env) hcl h0 (fun rows hr => ⟨(h rows hr).1, (h rows hr).2.1⟩) (by
    rw [List.map_cons, hs0]
    exact List.pairwise_cons.2 ⟨fun _ _ => List.disjoint_nil_left _, hd⟩) files fuel path
  refine ⟨s, r1, ?_⟩
  intro t ht
  obtain ⟨p, hp, hin⟩ := r3.mem ht
  have hL := r3.each p hp
  have hO := r3.ok p hp
  obtain ⟨k, hk⟩ : ∃ k, p.1.names = [k] := by
    have hm : p.1 ∈ headBk head :: pieces.map pieceBk := by rw [← r4]; exact List.mem_map_of_mem hp
    rcases List.mem_cons.1 hm with e | hm
    · rw [e]; exact ⟨py!"root", by show _ :: sectionNames head = _; rw [hs0]⟩
    · obtain ⟨rows, hr, e⟩ := List.mem_map.1 hm
      rw [← e]; exact (h rows hr).2.2
  obtain ⟨i, hi, rfl⟩ := List.getElem_of_mem hin
  have hzip : ∀ j (hj : j < p.2.length), ∃ n ∈ p.1.nodes, (n, p.2[j]) ∈ p.1.nodes.zip p.2 ∧ n.sec = k := by
    intro j hj
    have hj' : j < p.1.nodes.length := by rw [← hL.count]; exact hj
    refine ⟨p.1.nodes[j], List.getElem_mem hj', ?_, ?_⟩
    · rw [List.mem_iff_getElem]
      exact ⟨j, by rw [List.length_zip]; omega, by simp⟩
    · have := hO.secs _ (List.getElem_mem hj')
      rw [hk] at this
      exact List.mem_singleton.1 this
  obtain ⟨n, hn, m1, k1⟩ := hzip i hi
  obtain ⟨-, -, -, -, -, a6, a7⟩ := hL.term _ _ m1
  refine ⟨_, a6, ?_⟩
  have hr := hO.refs n hn
  cases hpar : n.parent with
  | none => exact .inl rfl
  | some j =>
    rw [hpar] at hr
    have hj : j < p.2.length := by rw [hL.count]; exact hr
    right
    constructor
    · rw [hL.children j hj]
      unfold pick
      refine List.mem_map.2 ⟨(n, p.2[i]), List.mem_filter.2 ⟨m1, ?_⟩, rfl⟩
      simp [hpar]
    · obtain ⟨m, -, m2, k2⟩ := hzip j hj
      obtain ⟨-, -, -, -, -, -, b7⟩ := hL.term _ _ m2
      rw [ref_some hj, a7, b7, k1, k2]

/-! ## Examples -/

def pcHead : List (List Str) := [[py!"Title", py!"T"], [py!"Title.Note", py!"n"]]
def pcData : List (List Str) := [[py!"Section", py!"Data", py!"Url"], [py!"Datafile", py!"x", py!"u"], [py!".Note", py!"m"]]
def pcSchema : List (List Str) := [[py!"Section", py!"Schema"], [py!"Table", py!"t"], [py!"Table.Column", py!"c"], [py!"Table.Column", py!"d"]]

theorem pc_ok : plainFile pcHead = true ∧ (∀ rows ∈ [pcData, pcSchema], plainFile rows = true ∧ startsSection rows = true) ∧
    ([pcHead, pcData, pcSchema].map sectionNames) = [[], [py!"data"], [py!"schema"]] := by decide +kernel

theorem pc_disjoint : ([pcHead, pcData, pcSchema].map sectionNames).Pairwise List.Disjoint := by
  rw [pc_ok.2.2]
  refine List.pairwise_cons.2 ⟨fun _ _ => List.disjoint_nil_left _, List.pairwise_cons.2 ⟨?_, List.pairwise_singleton _ _⟩⟩
  intro l hl
  rw [List.mem_singleton.1 hl]
  intro k h1 h2
  rw [List.mem_singleton.1 h1] at h2
  revert h2
  decide

/-- A file with two sections, and the file with the sections exchanged. -/
example : ∃ s s', parseRows noFiles 3 (py!"doc.csv") (pcHead ++ [pcData, pcSchema].flatten) exDoc = .ok () s ∧
    parseRows noFiles 3 (py!"doc.csv") (pcHead ++ [pcSchema, pcData].flatten) exDoc = .ok () s' ∧ SameSections s s' :=
  C100_order_partial (env := exEnv) plainClasses_init (.swap _ _ _) pc_ok.1 pc_ok.2.1 pc_disjoint noFiles 2 (py!"doc.csv")

/-- The documents differ in the order of the sections. -/
example : (exParse (pcHead ++ [pcData, pcSchema].flatten)).sections.keys = [py!"root", py!"data", py!"schema"] ∧
    (exParse (pcHead ++ [pcSchema, pcData].flatten)).sections.keys = [py!"root", py!"schema", py!"data"] := by decide +kernel

example : ∃ s, parseRows noFiles 3 (py!"doc.csv") (pcHead ++ [pcData, pcSchema].flatten) exDoc = .ok () s ∧
    ∀ t, InDoc s t → ∃ q, (s.heap t).parent = some q ∧ (q = s.root ∨ t ∈ (s.heap q).children ∧ (s.heap q).sec = (s.heap t).sec) := by
  refine C100_parents_partial (env := exEnv) plainClasses_init pc_ok.1 (by decide +kernel) ?_ (List.pairwise_cons.1 pc_disjoint).2 noFiles 2 (py!"doc.csv")
  intro rows hr
  refine ⟨(pc_ok.2.1 rows hr).1, (pc_ok.2.1 rows hr).2, ?_⟩
  rcases List.mem_cons.1 hr with rfl | hr
  · exact ⟨py!"data", by decide +kernel⟩
  · rw [List.mem_singleton.1 hr]; exact ⟨py!"schema", by decide +kernel⟩

/-- A section with a row that refers to a row of another section. -/
def pcStray : List (List Str) := [[py!"Section", py!"Other"], [py!"Table.Column", py!"c"]]
def pcTable : List (List Str) := [[py!"Section", py!"Schema"], [py!"Table", py!"t"]]

/-- **C100.** "Parentage should not persist across sections" (metatab/parser.py:459), but it does: the term of the row `Table.Column` in one
section becomes a child of the table in another. -/
theorem C100_parent_witness : plainFile (pcTable ++ pcStray) = true ∧
    ((exParse (pcTable ++ pcStray)).heap 4).joinLc = py!"table.column" ∧ ((exParse (pcTable ++ pcStray)).heap 4).parent = some 2 ∧
    ((exParse (pcTable ++ pcStray)).heap 2).children = [4] ∧
    ((exParse (pcTable ++ pcStray)).heap 2).sec = (exParse (pcTable ++ pcStray)).sections.get? (py!"schema") ∧
    ((exParse (pcTable ++ pcStray)).heap 4).sec = (exParse (pcTable ++ pcStray)).sections.get? (py!"other") ∧
    (exParse (pcTable ++ pcStray)).sections.get? (py!"schema") ≠ (exParse (pcTable ++ pcStray)).sections.get? (py!"other") := by
  decide +kernel

/-- **C100.** With the two sections exchanged the file cannot be read. -/
theorem C100_order_witness : ∃ s', parseRows noFiles 3 (py!"doc.csv") (pcStray ++ pcTable) exDoc = .err .parserError s' :=
  ⟨_, err_after (by decide +kernel)⟩

end Metatab
