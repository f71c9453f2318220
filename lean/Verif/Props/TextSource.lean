import Verif.Model.TextSource
/-! # C80: what the Lines reader reads -/
namespace Metatab
open Py

variable {files : Str → Option Str}

/-- C80. A path or a URL gives the lines of its file, a handle the lines of its text. -/
theorem C80_file {p t : Str} (h : files p = some t) :
    textSource files (.path p) = .ok (textRows t) ∧ textSource files (.url p) = .ok (textRows t) ∧
      textSource files (.handle (some t)) = .ok (textRows t) := by
  simp [textSource, sourceText, readPath, readHandle, readUrl, h, List.findSome?, bind, pure, Except.bind, Except.pure]

/-- C80. A path or URL whose file cannot be read, a handle that cannot be read and any other object raise; nothing is read instead. -/
theorem C80_refused (ref : TextRef) (e : Err) :
    textSource files ref = .error e ↔ e = .generateError ∧
      ((∃ p, (ref = .path p ∨ ref = .url p) ∧ files p = none) ∨ ref = .handle none ∨ ref = .other) := by
  cases ref with
  | path p => cases h : files p <;> simp [textSource, sourceText, readPath, readHandle, readUrl, readName, readSelf, h, List.findSome?, bind, pure, Except.bind, Except.pure, eq_comm]
  | handle t => cases t <;> simp [textSource, sourceText, readPath, readHandle, readUrl, readName, readSelf, List.findSome?, bind, pure, Except.bind, Except.pure, eq_comm]
  | url p => cases h : files p <;> simp [textSource, sourceText, readPath, readHandle, readUrl, readName, readSelf, h, List.findSome?, bind, pure, Except.bind, Except.pure, eq_comm]
  | str x => cases h : files x <;> simp [textSource, sourceText, readPath, readHandle, readUrl, readName, readSelf, h, List.findSome?, bind, pure, Except.bind, Except.pure]
  | other => simp [textSource, sourceText, readPath, readHandle, readUrl, readName, readSelf, List.findSome?, bind, pure, Except.bind, Except.pure, eq_comm]

/-- C80, partial: a string gives its own lines. Missing: strings that are also the name of a readable file, see `C80_text_witness`. -/
theorem C80_text_partial {x : Str} (h : files x = none) : textSource files (.str x) = .ok (textRows x) := by
  simp [textSource, sourceText, readPath, readHandle, readUrl, readName, readSelf, h, List.findSome?, bind, pure, Except.bind, Except.pure]

/-- C80. A string that names a readable file gives the lines of the file. -/
theorem C80_name {x t : Str} (h : files x = some t) : textSource files (.str x) = .ok (textRows t) := by
  simp [textSource, sourceText, readPath, readHandle, readUrl, readName, h, List.findSome?, bind, pure, Except.bind, Except.pure]

/-- A directory with one file. -/
def oneFile (x : Str) : Option Str := if x = py!"Title" then some (py!"Name: other\n") else none

/-- C80 fails for text that happens to be the name of a file. -/
theorem C80_text_witness : textRows (py!"Title") = [[py!"Title"]] ∧
    textSource oneFile (.str (py!"Title")) = .ok [[py!"Name", py!"other"]] := by decide +kernel

/-- The name of a file that cannot be read is taken as text: instead of an error there is one row, with the name as the term. -/
theorem C80_missing_witness : oneFile (py!"metadata.txt") = none ∧
    textSource oneFile (.str (py!"metadata.txt")) = .ok [[py!"metadata.txt"]] := by decide +kernel

/-- The hypotheses are met. -/
example : textSource oneFile (.path (py!"Title")) = .ok [[py!"Name", py!"other"]] ∧ textSource oneFile (.path (py!"x")) = .error .generateError ∧
    textSource oneFile (.str (py!"A: b|c\n# no\n==== S")) = .ok [[py!"A", py!"b", py!"c"], [py!"Section", py!"S"]] := by decide +kernel

end Metatab
