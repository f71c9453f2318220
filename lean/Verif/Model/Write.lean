import Verif.Model.Clean
import Verif.Model.Rows
import Verif.Model.Parser
/-! # Writing a document to a file (metatab/doc.py:863-930), creating one from a template (metatab/cli.py:197-220)

Paths are strings. That `pathlib` rewrites `a//b` and `a/./b` as `a/b` is not modelled. -/
namespace Metatab
open Py

/-- What the code asks of a parsed URL: `scheme == 'file'` and `fspath`. -/
structure Ref where
  isFile : Bool
  fspath : Option Str

/-- The file system and the URL library (`parse_app_url` of the package rowgenerators, not part of this code). -/
structure Disk where
  /-- `parse_app_url` -/
  parse : Str → Ref
  /-- the text of each file -/
  files : Str → Option Str
  /-- `open(path, 'wb')` succeeds -/
  canOpen : Str → Bool

/-- An effect on the file system. -/
inductive FsStep
  /-- `open(path, 'wb')`: the file exists and is empty -/
  | truncate (path : Str)
  /-- `f.write(text)` and closing -/
  | put (path : Str) (text : Str)
deriving DecidableEq, Repr

/-- The file contents after an effect. -/
def FsStep.apply (files : Str → Option Str) : FsStep → Str → Option Str
  | .truncate p => fun q => if q = p then some [] else files q
  | .put p text => fun q => if q = p then some text else files q

/-- The file contents after some effects. -/
def applySteps (files : Str → Option Str) (l : List FsStep) : Str → Option Str := l.foldl FsStep.apply files

/-- The position after the last `.`, and the part from there on, reversed: `name.rfind('.')`. -/
def lastDot (name : Str) : Option (Str × Str) :=
  if '.' ∈ name then some ((name.reverse.dropWhile (· ≠ '.')).tail.reverse, '.' :: (name.reverse.takeWhile (· ≠ '.')).reverse) else none

/-- `pathlib.PurePosixPath(p).name`: the last component that is not empty and not `.`. -/
def pathName (p : Str) : Str := ((splitOn '/' p).filter fun c => c ≠ [] ∧ c ≠ ['.']).getLastD []

/-- `path.suffix` of `pathlib`: from the last dot of the name on, if there is something before and after that dot. -/
def suffix (p : Str) : Str :=
  match lastDot (pathName p) with
  | some (before, ext) => if before ≠ [] ∧ ext ≠ ['.'] then ext else []
  | none => []

/-- `DEFAULT_METATAB_FILE`, metatab/__init__.py. -/
def defaultFile : Str := py!"metadata.csv"

/-- `MetatabDoc._write_path`, metatab/doc.py:863-890, where `ref` is the document's own reference. -/
def writePath (D : Disk) (ref : Option Ref) (path : Option Str) : Except Err Str :=
  let u := match path with
    | some p => if p ≠ [] then some (D.parse p) else ref
    | none => ref
  match u with
  | none => .error .attributeError
  | some u =>
    if !u.isFile then .error .metatabError
    else match u.fspath with
      | some q => .ok q
      | none =>
        match ref with
        | none => .ok defaultFile
        | some r =>
          match r.fspath with
          | some q => .ok q
          | none => .error .typeError

/-- The outcome of a call that may write files: the result with the document's state, and the effects in order. -/
abbrev WRes (α : Type) := Res α × List FsStep

/-- `MetatabDoc._write`, metatab/doc.py:892-901. -/
def writeContent (D : Disk) (content : Str) (path : Str) (s : St) : WRes Str :=
  match cleanse s with
  | .err e s' => (.err e s', [])
  | .ok _ s' => if D.canOpen path then (.ok path s', [.truncate path, .put path content]) else (.err .osError s', [])

/-- `write_csv` and `write_lines`, metatab/doc.py:903-919: the text is made before `_write` cleans the document. -/
def writeAs (ext : Str) (text : St → Except Err Str) (D : Disk) (ref : Option Ref) (path : Option Str) (s : St) : WRes Str :=
  match writePath D ref path with
  | .error e => (.err e s, [])
  | .ok q =>
    if suffix q ≠ ext then (.err .metatabError s, [])
    else match text s with
      | .error e => (.err e s, [])
      | .ok content => writeContent D content q s

/-- `MetatabDoc.write_csv`, metatab/doc.py:903-910. -/
def writeCsv : Disk → Option Ref → Option Str → St → WRes Str := writeAs (py!".csv") docCsv

/-- `MetatabDoc.write_lines`, metatab/doc.py:912-919. -/
def writeLines : Disk → Option Ref → Option Str → St → WRes Str := writeAs (py!".txt") docText

/-- Forget the returned path. -/
def WRes.drop (r : WRes Str) : WRes Unit :=
  match r with
  | (.ok _ s, l) => (.ok () s, l)
  | (.err e s, l) => (.err e s, l)

/-- `MetatabDoc.write`, metatab/doc.py:921-930. The path that has been found is parsed once more. -/
def writeDoc (D : Disk) (ref : Option Ref) (path : Option Str) (s : St) : WRes Unit :=
  match writePath D ref path with
  | .error e => (.err e s, [])
  | .ok q =>
    if suffix q = py!".txt" then (writeLines D ref (some q) s).drop
    else if suffix q = py!".csv" then (writeCsv D ref (some q) s).drop
    else (.err .formatError s, [])

/-- The path of a template, metatab/cli.py:200, where `dir` is the directory of the package `metatab.templates`. -/
def templatePath (dir template : Str) : Str := dir ++ '/' :: template ++ py!".csv"

/-- `make_metatab_file`, metatab/cli.py:197-204: a new document read from the template. -/
def makeMetatabFile (D : Disk) (files : Files) (fuel : Nat) (env : Env) (dir template : Str) : Res Unit :=
  match D.files (templatePath dir template) with
  | none => .err .osError (newDoc env)
  | some text => parseRows files fuel (templatePath dir template) (readCsv text) (newDoc env)

/-- `new_metatab_file`, metatab/cli.py:208-220: `true` if the file has been made. Directories are not modelled. The document's own
reference is the template. -/
def newMetatabFile (D : Disk) (files : Files) (fuel : Nat) (env : Env) (dir mtFile template : Str) : Except Err Bool × List FsStep :=
  let template := if template ≠ [] then template else py!"metatab"
  if (D.files mtFile).isSome then (.ok false, [])
  else match makeMetatabFile D files fuel env dir template with
    | .err e _ => (.error e, [])
    | .ok _ s =>
      match writeCsv D (some (D.parse (templatePath dir template))) (some mtFile) s with
      | (.ok _ _, l) => (.ok true, l)
      | (.err e _, l) => (.error e, l)

end Metatab
