import Verif.Lemmas.TreeFile
import Verif.Props.FindEdit
import Verif.Props.OutlineDict
import Verif.Props.Diff
import Verif.Props.Pieces
/-! # C101: a file is read as its outline -/
namespace Metatab
open Py _root_.Spec

theorem tree_names {rows : List (List Str)} (ht : treeFile rows = true) : ∀ n ∈ (readAll rows).nodes, n.valueName = py!"@value" := by
  intro n hn
  obtain ⟨i, hi⟩ := List.getElem?_of_mem hn
  exact (tree_nodes ht i n hi).vname

/-- **C101.** A file of ordinary rows whose sections are trees of their own is read as the outline of the file: the sections in the order in
which they come first, with the columns given there, and below each root-level term the terms that refer to it. The document can be edited
(C97) and its lists of terms agree (C98). -/
theorem C101_read {env : Env} {classes : Dict Cls} (hcl : PlainClasses classes) {rows : List (List Str)} (h : plainFile rows = true)
    (ht : treeFile rows = true) (files : Files) (fuel : Nat) (path : Str) :
    ∃ s, parseRows files (fuel + 1) path rows (newDoc env classes) = .ok () s ∧ Shows s (fileOutline rows) ∧ Editable s ∧ Indexed s ∧ PlainTvn s := by
  obtain ⟨s, h1, h2⟩ := tree_shown (env := env) hcl h ht files fuel path
  obtain ⟨s', h3, h4, h5⟩ := read_editable_rows (env := env) h (tree_names ht) hcl files fuel path
  rw [h1] at h3
  cases h3
  exact ⟨s, h1, h2, h4, C98_read h hcl files fuel path h1, h5⟩

/-- **C101** (searches). A search of the document finds exactly the items of the outline of the file that are asked for. -/
theorem C101_search {env : Env} {classes : Dict Cls} (hcl : PlainClasses classes) {rows : List (List Str)} (h : plainFile rows = true)
    (ht : treeFile rows = true) (files : Files) (fuel : Nat) (path : Str) :
    ∃ s, parseRows files (fuel + 1) path rows (newDoc env classes) = .ok () s ∧
      ∀ A B, PlainPart A → PlainPart B → A ≠ py!"*" → ∀ value secs, ∃ l m, find s (dotJoin A B) value secs = .ok l ∧ m.Perm l ∧
        List.Forall₂ (FoundAs s) (outlineFind (fileOutline rows) (A, B) value secs) m := by
  obtain ⟨s, h1, h2, h3, h4, -⟩ := C101_read (env := env) hcl h ht files fuel path
  exact ⟨s, h1, fun A B hA hB hst value secs => find_outline h3.reach h2 h4 hA hB hst value secs⟩

/-- **C101** (dict). The dict of the document is that of the outline of the file. -/
theorem C101_dict {env : Env} {classes : Dict Cls} (hcl : PlainClasses classes) {rows : List (List Str)} (h : plainFile rows = true)
    (ht : treeFile rows = true) (files : Files) (fuel : Nat) (path : Str) :
    ∃ s, parseRows files (fuel + 1) path rows (newDoc env classes) = .ok () s ∧
      ∀ rvn, (docAsDict rvn s).val = .ok (outlineDict rvn (fileOutline rows)) := by
  obtain ⟨s, h1, h2, h3, -⟩ := C101_read (env := env) hcl h ht files fuel path
  obtain ⟨s', ids, h5, h6, -⟩ := plain_holds (env := env) hcl h files fuel path
  rw [h1] at h5
  cases h5
  exact ⟨s, h1, fun rvn => C96_outline h3.reach h2 (plainTerms_holds h6 (tree_names ht)) rvn⟩

/-- **C101** (edits). Edits of the document that was read do on the outline of the file what they say, and searches of the edited document
find what the edited outline says. -/
theorem C101_edits {env : Env} {classes : Dict Cls} (hcl : PlainClasses classes) (hrr : classes.get? (py!"root.root") ≠ some .section)
    {rows : List (List Str)} (h : plainFile rows = true) (ht : treeFile rows = true) (files : Files) (fuel : Nat) (path : Str) {es : List Edit}
    (hok : okEdits (fileOutline rows) es) :
    ∃ s s', parseRows files (fuel + 1) path rows (newDoc env classes) = .ok () s ∧ runEdits es s = .ok () s' ∧
      Shows s' (applyEdits (fileOutline rows) es) ∧
      ∀ A B, PlainPart A → PlainPart B → A ≠ py!"*" → ∀ value secs, ∃ l m, find s' (dotJoin A B) value secs = .ok l ∧ m.Perm l ∧
        List.Forall₂ (FoundAs s') (outlineFind (applyEdits (fileOutline rows) es) (A, B) value secs) m := by
  obtain ⟨s, h1, h2, h3, -, -⟩ := C101_read (env := env) hcl h ht files fuel path
  obtain ⟨s', e, g1, g2, -⟩ := C97_edits es h3 h2 hok
  have w := indexed_inv (inv_edits es h3 h2 hok (plain_inv h hcl hrr files fuel path h1) e)
  exact ⟨s, s', h1, e, g1, fun A B hA hB hst value secs => find_outline g2.reach g1 w hA hB hst value secs⟩

/-- **C101** (files). The document is edited and written. The text has the rows of the edited outline of the file, and it is read as this
outline, up to the order of the children of a term. Without edits this says what becomes of a file that is loaded and saved. -/
theorem C101_saved {env : Env} {classes : Dict Cls} (hcl : PlainClasses classes) {rows : List (List Str)} (h : plainFile rows = true)
    (ht : treeFile rows = true) (files : Files) (fuel : Nat) (path : Str) {es : List Edit} (hok : okEdits (fileOutline rows) es)
    (hw : writable (applyEdits (fileOutline rows) es) = true) :
    ∃ s s1 s2 D2, parseRows files (fuel + 1) path rows (newDoc env classes) = .ok () s ∧ runEdits es s = .ok () s1 ∧
      docCsv s1 = .ok (asCsv ((applyEdits (fileOutline rows) es).flatMap partRows)) ∧
      parseRows files (fuel + 1) path (readCsv (asCsv ((applyEdits (fileOutline rows) es).flatMap partRows))) (newDoc env classes) = .ok () s2 ∧
      Shows s2 D2 ∧ List.Forall₂ PartReordered (applyEdits (fileOutline rows) es) D2 := by
  obtain ⟨s, h1, h2, h3, -, h5⟩ := C101_read (env := env) hcl h ht files fuel path
  obtain ⟨s1, text, s2, D2, e1, e2, e3, e4, e5⟩ := C97_saved h3 h2 h5 hok hw (env := env) hcl files fuel path
  obtain ⟨s1', g1, g2, g3, g4⟩ := C97_edits es h3 h2 hok
  rw [e1] at g1
  cases g1
  have hp1 : PlainTvn s1 := fun p n a b => by
    have := h5 p n a b
    unfold writtenTvn at this ⊢
    rw [g4]
    exact this
  have := csv_rows g3 g2 hp1 hw
  rw [e2] at this
  injection this with this
  subst this
  exact ⟨s, s1, s2, D2, h1, e1, e2, e3, e4, e5⟩

/-- **C101** (a value in a file). A file that has the rows of its outline is loaded and saved as it is. When a term gets another value in
between, at any depth, the file saved differs from the file loaded in one cell, which had the old value and has the new one. -/
theorem C101_one_cell {env : Env} {classes : Dict Cls} (hcl : PlainClasses classes) {rows : List (List Str)} (h : plainFile rows = true)
    (ht : treeFile rows = true) (hc : (fileOutline rows).flatMap partRows = rows) (hw : writable (fileOutline rows) = true) (files : Files) (fuel : Nat)
    (path : Str) {i j : Nat} {p : List Nat} {n : Str} {u v : Option Str} {ks : List Item}
    (hk : outlineAt (fileOutline rows) i j p = some (.mk n u ks)) (hw' : writable ((Edit.value i j p v).apply (fileOutline rows)) = true) :
    ∃ s s' R', parseRows files (fuel + 1) path rows (newDoc env classes) = .ok () s ∧ docCsv s = .ok (asCsv rows) ∧
      (Edit.value i j p v).run s = .ok () s' ∧ docCsv s' = .ok (asCsv R') ∧ OneCell (u.getD []) (v.getD []) rows R' := by
  obtain ⟨s, h1, h2, h3, -, h5⟩ := C101_read (env := env) hcl h ht files fuel path
  obtain ⟨s', e1, e2, e3⟩ := edit_files h3 h2 h5 hw (e := .value i j p v) (by show (outlineAt _ i j p).isSome = true; rw [hk]; rfl) hw'
  have hone := value_cell hw (v := v) hk
  rw [hc] at e2 hone
  exact ⟨s, s', _, h1, e2, e1, e3, hone⟩

/-! ## Examples -/

/-- A file with a section that is left and resumed, and with rows that refer to a term before the last one. -/
def foRows : List (List Str) :=
  [[py!"Title", py!"T"], [py!"Note", py!"n"], [py!"Title.Alt", py!"U"], [py!"Section", py!"Schema", py!"Type"], [py!"Table", py!"t"],
   [py!"Table.Column", py!"c", py!"int"], [py!"Column.Width", py!"3"], [py!"Section", py!"Data"], [py!"Datafile", py!"x"], [py!".Url", py!"u"],
   [py!"Section", py!"Schema"], [py!"Table.Column", py!"d", py!"text"]]

theorem fo_ok : plainFile foRows = true ∧ treeFile foRows = true := by decide +kernel

def foOutline : List Part :=
  [⟨py!"Root", [], [.mk (py!"title") (some (py!"T")) [.mk (py!"alt") (some (py!"U")) []], .mk (py!"note") (some (py!"n")) []]⟩,
   ⟨py!"Schema", [py!"Type"], [.mk (py!"table") (some (py!"t"))
     [.mk (py!"column") (some (py!"c")) [.mk (py!"type") (some (py!"int")) [], .mk (py!"width") (some (py!"3")) []],
      .mk (py!"column") (some (py!"d")) [.mk (py!"type") (some (py!"text")) []]]]⟩,
   ⟨py!"Data", [], [.mk (py!"datafile") (some (py!"x")) [.mk (py!"url") (some (py!"u")) []]]⟩]

theorem fo_outline : fileOutline foRows = foOutline := by rfl

example : ∃ s, parseRows noFiles 3 (py!"doc.csv") foRows exDoc = .ok () s ∧ Shows s foOutline := by
  obtain ⟨s, h1, h2, -⟩ := C101_read (env := exEnv) plainClasses_init fo_ok.1 fo_ok.2 noFiles 2 (py!"doc.csv")
  rw [fo_outline] at h2
  exact ⟨s, h1, h2⟩

/-- The file loaded and saved: the resumed section and the late child are in their places. -/
example : ∃ s, parseRows noFiles 3 (py!"doc.csv") foRows exDoc = .ok () s ∧ docCsv s = .ok (asCsv (foOutline.flatMap partRows)) := by
  obtain ⟨s, s1, -, -, h1, h2, h3, -⟩ := C101_saved (env := exEnv) plainClasses_init fo_ok.1 fo_ok.2 noFiles 2 (py!"doc.csv") (es := []) trivial
    (by rw [fo_outline]; decide +kernel)
  cases h2
  rw [fo_outline] at h3
  exact ⟨s, h1, h3⟩

/-- The columns of the table, in the order of the file. -/
example : ∃ s l m, parseRows noFiles 3 (py!"doc.csv") foRows exDoc = .ok () s ∧ find s (py!"Table.Column") .fls none = .ok l ∧ m.Perm l ∧
    List.Forall₂ (FoundAs s) [.mk (py!"column") (some (py!"c")) [.mk (py!"type") (some (py!"int")) [], .mk (py!"width") (some (py!"3")) []],
      .mk (py!"column") (some (py!"d")) [.mk (py!"type") (some (py!"text")) []]] m := by
  obtain ⟨s, h1, h2⟩ := C101_search (env := exEnv) plainClasses_init fo_ok.1 fo_ok.2 noFiles 2 (py!"doc.csv")
  obtain ⟨l, m, h3, h4, h5⟩ := h2 (py!"Table") (py!"Column") (fe_plain (by decide)) (fe_plain (by decide)) (by decide) .fls none
  have e : outlineFind (fileOutline foRows) (py!"Table", py!"Column") .fls none =
    [.mk (py!"column") (some (py!"c")) [.mk (py!"type") (some (py!"int")) [], .mk (py!"width") (some (py!"3")) []],
      .mk (py!"column") (some (py!"d")) [.mk (py!"type") (some (py!"text")) []]] := by rfl
  rw [e] at h5
  exact ⟨s, l, m, h1, h3, h4, h5⟩

/-- Edits of the document that was read: another name for the second column, no width for the first, no note. -/
def foEdits : List Edit := [.value 1 0 [1] (some (py!"e")), .dropChild 1 0 [0] 1, .dropTerm 0 1]

theorem fo_edits : okEdits (fileOutline foRows) foEdits := by
  rw [fo_outline]
  unfold foEdits
  simp only [okEdits]
  exact ⟨by simp only [Edit.ok]; decide, ⟨_, _, _, rfl, by decide, by decide⟩, ⟨⟨_, rfl, by decide⟩, _, _, _, rfl, by decide⟩, trivial⟩

example : ∃ s s', parseRows noFiles 3 (py!"doc.csv") foRows exDoc = .ok () s ∧ runEdits foEdits s = .ok () s' ∧
    docCsv s' = .ok (asCsv ((applyEdits foOutline foEdits).flatMap partRows)) ∧ find s' (py!"Root.Note") .fls none = .ok [] := by
  obtain ⟨s, s1, -, -, h1, h2, h3, -⟩ := C101_saved (env := exEnv) plainClasses_init fo_ok.1 fo_ok.2 noFiles 2 (py!"doc.csv") fo_edits
    (by rw [fo_outline]; decide +kernel)
  obtain ⟨s', s1', g1, g2, -, g3⟩ := C101_edits (env := exEnv) plainClasses_init (by decide) fo_ok.1 fo_ok.2 noFiles 2 (py!"doc.csv") fo_edits
  rw [h1] at g1
  cases g1
  rw [h2] at g2
  cases g2
  rw [fo_outline] at h3 g3
  refine ⟨s, s1, h1, h2, h3, ?_⟩
  obtain ⟨l, m, x1, x2, x3⟩ := g3 (py!"Root") (py!"Note") (fe_plain (by decide)) (fe_plain (by decide)) (by decide) .fls none
  have e : outlineFind (applyEdits foOutline foEdits) (py!"Root", py!"Note") .fls none = [] := by rfl
  rw [e] at x3
  cases x3
  rw [List.nil_perm.1 x2] at x1
  exact x1

/-- The file as it was saved. Saved once more it stays as it is, and with another value for a column one cell changes. -/
def foSaved : List (List Str) := foOutline.flatMap partRows

example : ∃ s s' R', parseRows noFiles 3 (py!"doc.csv") foSaved exDoc = .ok () s ∧ docCsv s = .ok (asCsv foSaved) ∧
    (Edit.value 1 0 [1] (some (py!"e"))).run s = .ok () s' ∧ docCsv s' = .ok (asCsv R') ∧ OneCell (py!"d") (py!"e") foSaved R' :=
  C101_one_cell (env := exEnv) plainClasses_init (by decide +kernel) (by decide +kernel) (by decide +kernel) (by decide +kernel) noFiles 2 (py!"doc.csv")
    (u := some (py!"d")) (v := some (py!"e")) (by rfl) (by decide +kernel)

/-! ## Files that are no outlines -/

/-- In an outline a child of a root-level term is in the section of the term and says its parent's name. -/
theorem shows_child {s : St} {D : List Part} (h : Shows s D) {kv : Str × Nat} (hk : kv ∈ s.sections) {t c : Nat} (ht : t ∈ (s.heap kv.2).terms)
    (hc : c ∈ (s.heap t).children) : (s.heap c).sec = some kv.2 ∧ (s.heap c).pt = (s.heap t).rt := by
  have aux : ∀ {l : List Nat} {its : List Item}, ShowsItems s kv.2 its l → ∀ u ∈ l, ∃ it, ShowsItem s kv.2 it u := by
    intro l its
    induction its generalizing l with
    | nil =>
      intro hl u hu
      unfold ShowsItems at hl
      rw [hl] at hu
      cases hu
    | cons it its ih =>
      intro hl u hu
      unfold ShowsItems at hl
      obtain ⟨v, r, rfl, h1, h2⟩ := hl
      rcases List.mem_cons.1 hu with rfl | hu
      · exact ⟨it, h1⟩
      · exact ih h2 u hu
  obtain ⟨i, hi, rfl⟩ := List.getElem_of_mem hk
  have hp := h.parts.get hi (by rw [← h.parts.length_eq]; exact hi)
  obtain ⟨⟨n, v, ks⟩, h1⟩ := aux hp.items t ht
  unfold ShowsItem at h1
  obtain ⟨a1, -, -, a4, a5⟩ := h1
  obtain ⟨⟨n', v', ks'⟩, h2⟩ := aux a5 c hc
  unfold ShowsItem at h2
  exact ⟨h2.2.2.1, by rw [a1]; exact (a4 c hc).2⟩

/-- **C101.** A row that refers to a term of another section: the document that is read is no outline. -/
theorem C101_stray_witness : plainFile (pcTable ++ pcStray) = true ∧ treeFile (pcTable ++ pcStray) = false ∧
    ¬ ∃ D, Shows (exParse (pcTable ++ pcStray)) D := by
  refine ⟨by decide +kernel, by decide +kernel, ?_⟩
  rintro ⟨D, h⟩
  have := (shows_child h (kv := (py!"schema", 1)) (t := 2) (c := 4) (by decide +kernel) (by decide +kernel) (by decide +kernel)).1
  revert this
  decide +kernel

/-- An elided row with an argument cell. -/
def foElided : List (List Str) := [[py!"Table", py!"t"], [py!".Column", py!"c", py!"3"]]

/-- **C101.** The argument cell of an elided row becomes a child of the term above, but says that its parent is the term of the elided row:
the document that is read is no outline. -/
theorem C101_elided_witness : plainFile foElided = true ∧ treeFile foElided = false ∧ ¬ ∃ D, Shows (exParse foElided) D := by
  refine ⟨by decide +kernel, by decide +kernel, ?_⟩
  rintro ⟨D, h⟩
  have := (shows_child h (kv := (py!"root", 0)) (t := 1) (c := 3) (by decide +kernel) (by decide +kernel) (by decide +kernel)).2
  revert this
  decide +kernel

end Metatab
