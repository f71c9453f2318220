import Verif.Model.TextRows
import Verif.Model.Err
/-! # Where the Lines reader gets its text: `TextRowGenerator.__init__` (metatab/rowgen.py:122-171)

The constructor tries one way of reading after the other and takes the first that does not raise. `files` tells the decoded text of
the files that can be opened and read; a file that is missing, unreadable or not decodable is absent. Byte strings and numbers, which
`open` would also accept, are not modelled. -/
namespace Metatab
open Py

/-- The kinds of references that the constructor distinguishes. -/
inductive TextRef
  /-- a `pathlib.Path` -/
  | path (p : Str)
  /-- an object with `read`; `none` when `read` raises -/
  | handle (text : Option Str)
  /-- a URL whose `inner.fspath` is a path -/
  | url (p : Str)
  /-- a string -/
  | str (x : Str)
  /-- an object with none of the methods -/
  | other
deriving DecidableEq

section
variable (files : Str → Option Str)

/-- `ref.open()` and `read`, metatab/rowgen.py:127-133: only paths have `open`. -/
def readPath : TextRef → Option Str
  | .path p => files p
  | _ => none

/-- `ref.read()`, metatab/rowgen.py:135-140. -/
def readHandle : TextRef → Option Str
  | .handle t => t
  | _ => none

/-- `ref.inner.fspath.open()` and `read`, metatab/rowgen.py:142-149. -/
def readUrl : TextRef → Option Str
  | .url p => files p
  | _ => none

/-- `open(ref)` and `read`, metatab/rowgen.py:151-157: accepts strings and paths. -/
def readName : TextRef → Option Str
  | .str x => files x
  | .path p => files p
  | _ => none

/-- `text = ref; text.splitlines()`, metatab/rowgen.py:159-164. -/
def readSelf : TextRef → Option Str
  | .str x => some x
  | _ => none

/-- The loop of the constructor, metatab/rowgen.py:125-167. `SourceError` of the `rowgenerators` package is shown as `generateError`. -/
def sourceText (ref : TextRef) : Except Err Str :=
  match [readPath files, readHandle, readUrl files, readName files, readSelf].findSome? (· ref) with
  | some t => .ok t
  | none => .error .generateError

/-- `list(TextRowGenerator(ref))`, metatab/rowgen.py:122-204. -/
def textSource (ref : TextRef) : Except Err (List (List Str)) := do
  let t ← sourceText files ref
  return textRows t
end

end Metatab
