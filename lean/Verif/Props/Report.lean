import Verif.Lemmas.Report
import Verif.Lemmas.Examples
import Verif.Props.Where
/-! # C90: what an `IncludeError` tells -/
namespace Metatab
open Py _root_.Spec

/-- **C90.** Keeping the reports changes nothing: the document and the objects built are those of `parseRows`. Parsing raises `IncludeError`
exactly if there is a report. -/
theorem C90_same (os : Str → Str) (files : Files) (nm : Naming) (fuel : Nat) (path : Str) (rows : List (List Str)) (s s' : St) :
    (parseRowsE os files nm fuel path rows s).2.toRes = parseRows files fuel path rows s ∧
    builds (parseRowsE os files nm fuel path rows s).1 = (parseRowsL files nm fuel path rows s).1 ∧
    (parseRows files fuel path rows s = .err .includeError s' ↔ ∃ l r, parseRowsE os files nm fuel path rows s = (l, .failed r s')) := by
  obtain ⟨h1, h2⟩ := (parseRowsE_run os files nm fuel path rows).run s
  rw [C89_same] at h1
  refine ⟨h1, h2, ?_⟩
  rw [← h1]
  rcases hm : parseRowsE os files nm fuel path rows s with ⟨l, ⟨a, s1⟩ | ⟨r, s1⟩ | ⟨e, s1⟩⟩
  · constructor
    · intro h; cases h
    · rintro ⟨_, _, h⟩; cases h
  · constructor
    · intro h; cases h; exact ⟨l, r, rfl⟩
    · rintro ⟨_, _, h⟩; cases h; rfl
  · constructor
    · intro h; cases h; exact absurd hm (parseRowsE_reported _ _ _ _ _ _ _ _ _)
    · rintro ⟨_, _, h⟩; cases h

variable {os : Str → Str} {files : Files} {nm : Naming} {fuel : Nat} {path : Str} {rows : List (List Str)} {s s' : St} {l : List Ev} {r : Report}

/-- The file `f0` in the directory `dir0` has the rows `rows0`: it is the file that is loaded, or it is an included one, whose name is the
class of its row generator and whose directory is not known. -/
def IsFile (files : Files) (nm : Naming) (path : Str) (rows : List (List Str)) (f0 : Source) (dir0 : Str) (rows0 : List (List Str)) : Prop :=
  f0 = (nm.top path) ∧ dir0 = dirname path ∧ rows0 = rows ∨ f0 = nm.source f0.ref ∧ dir0 = [] ∧ files.rows f0.ref = some rows0

/-- **C90.** An `IncludeError` comes from a row that cannot be followed, for the reason that the message begins with. The message goes on
with the names of the files that were being read, from the one with the row to the one that was loaded. -/
theorem C90_message (h : parseRowsE os files nm fuel path rows s = (l, .failed r s')) :
    r.msg = r.why.text os ++ passed (r.within.map (·.name)) ∧ r.within.getLast? = some (nm.top path) ∧
    ∃ f0 dir0 rows0 row, r.within.head? = some f0 ∧ IsFile files nm path rows f0 dir0 rows0 ∧ 1 ≤ r.line ∧ rows0[r.line - 1]? = some row ∧
      Hinders files.rows files.decl dir0 f0.ref row r.why := by
  have t := parseRowsE_tells _ _ _ _ _ _ _ _ _ _ h
  obtain ⟨f0, dir0, rows0, row, h1, h2, h3, h4, h5, h6⟩ := t.spot
  refine ⟨t.msg, t.last, f0, dir0, rows0, row, h1, ?_, h4, h5, h6⟩
  have hl := t.last
  rcases hw : r.within with _ | ⟨a, _ | ⟨b, m⟩⟩
  · rw [hw] at h1; cases h1
  · rw [hw] at h1 hl h2
    cases h1; cases hl
    obtain ⟨g1, g2⟩ := h2 rfl
    exact .inl ⟨rfl, g1, g2⟩
  · have hc := t.chain f0 (by
      rw [hw] at h1 ⊢
      cases h1
      exact List.mem_cons_self)
    obtain ⟨g1, g2⟩ := h3 (by rw [hw]; simp)
    exact .inr ⟨hc.1, g1, g2⟩

/-- **C90.** If the file named by a row cannot be read, however deep in included files the row is: the error names the object of just that
row. Its file name, row number and column are those of the row, the row leads to the file and the file cannot be read. -/
theorem C90_unreadable_partial (h : parseRowsE os files nm fuel path rows s = (l, .failed r s')) {u : Str} (hu : r.why = .unreadable u) :
    ∃ t f0 dir0 rows0 row n, r.term = some t ∧ (∃ b ∈ builds l, b.id = t) ∧
      (∀ b ∈ builds l, b.id = t → b.place = ⟨f0.file, n, 1⟩ ∧ b.src = f0.ref) ∧ IsFile files nm path rows f0 dir0 rows0 ∧
      1 ≤ n ∧ rows0[n - 1]? = some row ∧ leads files.decl dir0 row = some u ∧ files.rows u = none := by
  obtain ⟨-, -, f0, dir0, rows0, row, h1, h2, h3, h4, h5⟩ := C90_message h
  rw [hu] at h5
  rcases (parseRowsE_tells _ _ _ _ _ _ _ _ _ _ h).term with ⟨-, -, hx⟩ | ⟨t, e1, -, -, e2⟩
  · exact absurd hu (hx u)
  · obtain ⟨f1, e3, e4⟩ := e2 u hu
    rw [h1] at e3
    cases e3
    have run := (parseRowsE_run os files nm fuel path rows).run s
    rw [h] at run
    obtain ⟨r1, r2⟩ := run
    have hL : parseRowsL files nm fuel path rows s = (builds l, .err .includeError s') := Prod.ext r2.symm r1.symm
    obtain ⟨ord, -, -⟩ := C89_rows hL rfl
    have uniq : ∀ b ∈ builds l, b.id = t → b = ⟨t, ⟨f0.file, r.line, 1⟩, f0.ref⟩ := by
      intro b hb e
      obtain ⟨i, hi, rfl⟩ := List.mem_iff_getElem.1 hb
      obtain ⟨j, hj, ej⟩ := List.mem_iff_getElem.1 e4
      rw [List.pairwise_iff_getElem] at ord
      have e' : ((builds l)[i]).id = ((builds l)[j]).id := by rw [e, ej]
      rcases Nat.lt_trichotomy i j with h | h | h
      · exact absurd (ord i j hi hj h) (by rw [e']; exact Nat.lt_irrefl _)
      · subst h; exact ej
      · exact absurd (ord j i hj hi h) (by rw [e']; exact Nat.lt_irrefl _)
    refine ⟨t, f0, dir0, rows0, row, r.line, e1, ⟨_, e4, rfl⟩, fun b hb e => by rw [uniq b hb e]; exact ⟨rfl, rfl⟩, h2, h3, h4, h5.1, h5.2.2⟩

/-- **C90.** If the row cannot be followed for another reason, the error names no term if the row stands in the file that was loaded, and
otherwise the term that was yielded last. In any case a term that is named is the one that was yielded last. -/
theorem C90_term (h : parseRowsE os files nm fuel path rows s = (l, .failed r s')) :
    (r.term = none ↔ r.within = [nm.top path] ∧ ∀ u, r.why ≠ .unreadable u) ∧ ∀ t, r.term = some t → lastYield l = some t := by
  have t := parseRowsE_tells _ _ _ _ _ _ _ _ _ _ h
  have one : r.within.length = 1 ↔ r.within = [nm.top path] := by
    have hl := t.last
    rcases hw : r.within with _ | ⟨a, _ | ⟨b, m⟩⟩
    · simp
    · rw [hw] at hl; cases hl; simp [Naming.top]
    · simp
  rw [← one]
  rcases t.term with ⟨h1, h2, h3⟩ | ⟨i, h1, h2, h3, -⟩
  · exact ⟨⟨fun _ => ⟨h2, h3⟩, fun _ => h1⟩, fun i hi => by rw [h1] at hi; cases hi⟩
  · refine ⟨⟨(fun e => by rw [h1] at e; cases e), fun ⟨e1, e2⟩ => ?_⟩, fun j hj => by rw [h1] at hj; cases hj; exact h2⟩
    rcases h3 with h3 | ⟨u, h3⟩
    · omega
    · exact absurd h3 (e2 u)

/-- **C90.** The list of errors for a file that cannot be read gives the place of the row and the message. -/
theorem C90_dict_partial (h : parseRowsE os files nm fuel path rows s = (l, .failed r s')) (place : Nat → Place)
    (hp : ∀ b ∈ builds l, place b.id = b.place) :
    (∀ u, r.why = .unreadable u → ∃ f0 e, r.within.head? = some f0 ∧ errorsAsDict place s' r = .ok [e] ∧
      e.file = f0.file ∧ e.row = r.line ∧ e.col = 1 ∧ e.error = r.msg) ∧
    (errorsAsDict place s' r = .error .attributeError ↔ r.within = [nm.top path] ∧ ∀ u, r.why ≠ .unreadable u) := by
  constructor
  · intro u hu
    rcases (parseRowsE_tells _ _ _ _ _ _ _ _ _ _ h).term with ⟨-, -, hx⟩ | ⟨t, e1, -, -, e2⟩
    · exact absurd hu (hx u)
    · obtain ⟨f1, e3, e4⟩ := e2 u hu
      refine ⟨f1, _, e3, by unfold errorsAsDict; rw [e1], ?_⟩
      have := hp _ e4
      dsimp only at this ⊢
      rw [this]
      exact ⟨rfl, rfl, rfl, rfl⟩
  · rw [← (C90_term h).1]
    unfold errorsAsDict
    cases r.term with
    | none => exact ⟨fun _ => rfl, fun _ => rfl⟩
    | some t => exact ⟨(fun h => by cases h), fun h => by cases h⟩

/-! ## Cases -/

/-- The report, if parsing ends with one. -/
def Out.report {α : Type} : Out α → Option Report
  | .failed r _ => some r
  | _ => none

def osText (_ : Str) : Str := py!"No such file"

/-- `/d/part.csv` includes a web address that cannot be read, in its second row; `/d/rel.csv` a file by its name. -/
def deepFiles : Files := ⟨fun t =>
  if t = py!"/d/part.csv" then some [[py!"Part", py!"p"], [py!"Include", py!"http://x.org/gone.csv"]]
  else if t = py!"/d/rel.csv" then some [[py!"Part", py!"p", py!"x"], [py!"Include", py!"part.csv"]]
  else none, fun _ _ => none⟩

def deepRun (name : Str) : List Ev × Out Unit :=
  parseRowsE osText deepFiles ⟨id, fun _ => py!"CsvSource"⟩ 5 (py!"/d/m.csv") [[py!"Title", py!"T"], [], [py!"Include", name]] exDoc

/-- A file that cannot be read: the error names the row in the included file. -/
example : ((deepRun (py!"part.csv")).2.report.map fun r => (r.term, r.why, r.line)) = some (some 4, .unreadable (py!"http://x.org/gone.csv"), 2) ∧
    (⟨4, ⟨py!"csvsource", 2, 1⟩, py!"/d/part.csv"⟩ : Built) ∈ builds (deepRun (py!"part.csv")).1 ∧
    ((deepRun (py!"part.csv")).2.report.map fun r => r.msg) = some (py!"Failed to Include; No such file; in 'CsvSource' ; in '/d/m.csv' ") := by
  decide +kernel

/-- The same in the file that is loaded. -/
example : ((deepRun (py!"gone.csv")).2.report.map fun r => (r.term, r.why, r.line)) = some (some 2, .unreadable (py!"/d/gone.csv"), 3) ∧
    (⟨2, ⟨py!"m.csv", 3, 1⟩, py!"/d/m.csv"⟩ : Built) ∈ builds (deepRun (py!"gone.csv")).1 := by
  decide +kernel

/-- **C90.** An included file cannot include a file by its name. The error that tells so names the row before, here the cell `x` of the first
row (object 4), and not the row at fault, the second (object 5). -/
theorem C90_other_row_witness : ((deepRun (py!"rel.csv")).2.report.map fun r => (r.term, r.why, r.line)) = some (some 4, .noPath (py!"part.csv"), 2) ∧
    (builds (deepRun (py!"rel.csv")).1).drop 2 = [⟨3, ⟨py!"csvsource", 1, 1⟩, py!"/d/rel.csv"⟩, ⟨4, ⟨py!"csvsource", 1, 2⟩, py!"/d/rel.csv"⟩,
      ⟨5, ⟨py!"csvsource", 2, 1⟩, py!"/d/rel.csv"⟩] := by
  decide +kernel

/-- **C90.** A file that includes itself: the error names no term, and listing the errors raises. -/
theorem C90_no_term_witness : ((deepRun (py!"m.csv")).2.report.map fun r => (r.term, r.why, r.msg)) =
      some (none, .loop (py!"/d/m.csv"), py!"Include loop for '/d/m.csv' ; in '/d/m.csv' ") ∧
    ∃ r, (deepRun (py!"m.csv")).2.report = some r ∧ ∀ place s, errorsAsDict place s r = .error .attributeError := by
  have h : ((deepRun (py!"m.csv")).2.report.map fun r => (r.term, r.why, r.msg)) =
      some (none, .loop (py!"/d/m.csv"), py!"Include loop for '/d/m.csv' ; in '/d/m.csv' ") := by decide +kernel
  refine ⟨h, ?_⟩
  cases hr : (deepRun (py!"m.csv")).2.report with
  | none => rw [hr] at h; cases h
  | some r =>
    rw [hr] at h
    refine ⟨r, rfl, fun place s => ?_⟩
    have : r.term = none := by
      have := Option.some.inj h
      exact (Prod.mk.inj this).1
    unfold errorsAsDict
    rw [this]

end Metatab
