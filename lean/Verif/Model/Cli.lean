import Verif.Model.Write
import Verif.Model.AsDict
import Verif.Model.TextRows
import Verif.Model.Find
import Verif.Model.Stream
import Verif.Model.Where
/-! # The command `metatab` (metatab/cli.py:25-166) and `get_table` (metatab/cli.py:223-236)

The parsing of the command line (`argparse`) is not modelled; it keeps the options of the group exclusive. The URL library, the JSON and
YAML libraries and `pprint` are parameters. -/
namespace Metatab
open Py

/-- `args.out_type`, metatab/cli.py:38-53, 59. -/
inductive OutType
  | terms | json | yaml | line | csv | prety
deriving DecidableEq, Repr

/-- The parsed command line, metatab/cli.py:32-71. -/
structure Args where
  file : Str
  /-- `-C`: `none` without it, `some []` when no template is named -/
  create : Option Str := none
  outType : OutType := .csv
  /-- `-W` -/
  write : Bool := false
  /-- `-f`; the empty name counts as none -/
  findFirst : Str := []
  /-- `-d` -/
  showDecl : Bool := false

/-- What surrounds the command. -/
structure World where
  D : Disk
  /-- `parse_app_url(file, proto='metatab')` -/
  url : Str → Ref
  /-- `.path` of that URL -/
  urlPath : Str → Str
  env : Env
  classes : Dict Cls
  files : Files
  /-- the class of the row generator for a target -/
  cls : Str → Str
  fuel : Nat
  /-- the directory of the package `metatab.templates` -/
  templates : Str
  /-- reading what is neither a local `.csv` file nor a local `.txt` file -/
  other : Str → Res Unit
  /-- `json.dumps`, `yaml.dump`, `pprint` -/
  dump : OutType → DVal → Str
  /-- the declarations of the document with `json.dumps`, `yaml.safe_dump` -/
  dumpDecl : OutType → St → Str
  /-- running `doc._term_parser` again and printing its terms, for what `other` reads -/
  otherTerms : St → List Str × Res Unit

/-- How the program ends: `sys.exit`, or an exception that nobody catches. -/
inductive Exit
  | code (n : Nat)
  | raised (e : Err)
deriving DecidableEq, Repr

/-- What a run of the program does: the texts printed on standard output, the effects on files, the end. -/
structure Outcome where
  out : List Str := []
  fs : List FsStep := []
  exit : Exit
deriving DecidableEq, Repr

/-- `print`. -/
def printed (t : Str) : Str := t ++ py!"\n"

/-- `path.with_suffix(suffix)` of `pathlib`, for a path without a slash at the end. -/
def withSuffix (p suf : Str) : Except Err Str :=
  if pathName p = [] then .error .valueError
  else .ok (p.take (p.length - (suffix p).length) ++ suf)

/-- The file name extension for an output format, metatab/cli.py:99. -/
def OutType.ext : OutType → Str
  | .terms => py!"terms"
  | .json => py!"json"
  | .yaml => py!"yaml"
  | .line => py!"txt"
  | .csv => py!"csv"
  | .prety => py!"prety"

/-- The constructor `MetatabDoc(metadata_url)` as the command uses it, metatab/doc.py:41-90: a `.csv` or `.txt` file is read with the row generator of its format. That
a file that does not exist gives `OSError` is an assumption about the package rowgenerators. -/
def openDoc (W : World) (file : Str) : Res Unit :=
  match (W.url file).isFile, (W.url file).fspath with
  | true, some p =>
    if suffix p = py!".csv" then
      match W.D.files p with
      | some text => parseRows W.files W.fuel p (readCsv text) (newDoc W.env W.classes)
      | none => .err .osError (newDoc W.env W.classes)
    else if suffix p = py!".txt" then
      match W.D.files p with
      | some text => parseRows W.files W.fuel p (textRows text) (newDoc W.env W.classes)
      | none => .err .osError (newDoc W.env W.classes)
    else W.other file
  | _, _ => W.other file

/-- `write_or_print`, metatab/cli.py:92-105, and the `exit(0)` at the end, 166. Writing is opening, which empties the file, and putting the text. -/
def writeOrPrint (W : World) (a : Args) (t : Str) : Outcome :=
  if !(W.url a.file).isFile then { exit := .code 1 }
  else if a.write then
    match (W.url a.file).fspath with
    | none => { exit := .raised .attributeError }
    | some p =>
      match withSuffix p ('.' :: a.outType.ext) with
      | .error e => { exit := .raised e }
      | .ok q =>
        if W.D.canOpen q then { fs := [.truncate q, .put q t], exit := .code 0 }
        else { exit := .raised .osError }
  else { out := [printed t], exit := .code 0 }

/-- Write or print a text that may fail to be made. -/
def writeMade (W : World) (a : Args) : Except Err Str → Outcome
  | .ok t => writeOrPrint W a t
  | .error e => { exit := .raised e }

/-- `doc.as_dict()` rendered, metatab/cli.py:135-136, 138-154, 162-164. -/
def dumpDoc (W : World) (o : OutType) (s : St) : Except Err Str :=
  match docAsDict true s with
  | .ok d _ => .ok (W.dump o d)
  | .err e _ => .error e

/-- `-d`, metatab/cli.py:109-123: a new document with the declarations of the file. Only JSON and YAML are printed. -/
def showDeclaration (W : World) (a : Args) : Outcome :=
  match loadDeclarations W.files W.fuel [W.urlPath a.file] (newDoc W.env W.classes) with
  | .err e _ => { exit := .raised e }
  | .ok _ s =>
    match a.outType with
    | .json => { out := [printed (W.dumpDecl .json s)], exit := .code 0 }
    | .yaml => { out := [printed (W.dumpDecl .yaml s)], exit := .code 0 }
    | _ => { exit := .code 0 }

/-- `-f`, metatab/cli.py:125-128: `t.value` raises when there is no such term. -/
def showFirst (name : Str) (s : St) : Outcome :=
  match findFirst s name with
  | .error e => { exit := .raised e }
  | .ok none => { exit := .raised .attributeError }
  | .ok (some t) =>
    match (s.heap t).value.toStr with
    | some v => { out := [printed v], exit := .code 0 }
    | none => { exit := .raised .unmodelled }

/-- The names terms are given for their files. -/
def World.naming (W : World) : Naming := ⟨W.env.nfkd, W.cls⟩

/-- What opening a document with these rows has built. -/
def World.built (W : World) (p : Str) (rows : List (List Str)) : List Built :=
  (parseRowsL W.files W.naming W.fuel p rows (newDoc W.env W.classes)).1

/-- Run the parser again and print its terms, metatab/cli.py:131-133. The file is read again with the row generator of its format. -/
def termLines (W : World) (file : Str) (s : St) : List Str × Res Unit :=
  match (W.url file).isFile, (W.url file).fspath with
  | true, some p =>
    if suffix p = py!".csv" then
      match W.D.files p with
      | some text => printAgain W.files W.naming (W.built p (readCsv text)) W.fuel p (readCsv text) s
      | none => ([], .err .osError s)
    else if suffix p = py!".txt" then
      match W.D.files p with
      | some text => printAgain W.files W.naming (W.built p (textRows text)) W.fuel p (textRows text) s
      | none => ([], .err .osError s)
    else W.otherTerms s
  | _, _ => W.otherTerms s

/-- `-t`, metatab/cli.py:131-133: what is printed before an exception stays printed. -/
def showTerms (W : World) (file : Str) (s : St) : Outcome :=
  match termLines W file s with
  | (l, .ok _ _) => { out := l.map printed, exit := .code 0 }
  | (l, .err e _) => { out := l.map printed, exit := .raised e }

/-- The output of a document that could be opened, metatab/cli.py:109-166. -/
def showDoc (W : World) (a : Args) (s : St) : Outcome :=
  if a.showDecl then showDeclaration W a
  else if a.findFirst ≠ [] then showFirst a.findFirst s
  else match a.outType with
    | .terms => showTerms W a.file s
    | .json => writeMade W a (dumpDoc W .json s)
    | .yaml => writeMade W a (dumpDoc W .yaml s)
    | .line => writeMade W a (docText s)
    | .csv => writeMade W a (docCsv s)
    | .prety =>
      match dumpDoc W .prety s with
      | .ok t => { out := [t], exit := .code 0 }
      | .error e => { exit := .raised e }

/-- `-C`, metatab/cli.py:77-83. The warning about an existing file goes to standard error. -/
def createFile (W : World) (file template : Str) : Outcome :=
  match newMetatabFile W.D W.files W.fuel W.env W.templates file template with
  | (.ok true, l) => { out := [printed (py!"Created  " ++ file)], fs := l, exit := .code 0 }
  | (.ok false, l) => { fs := l, exit := .code 0 }
  | (.error e, l) => { fs := l, exit := .raised e }

/-- A fragment alone is one of the default file, metatab/cli.py:73-75. -/
def Args.named (a : Args) : Args := if a.file.head? = some '#' then { a with file := defaultFile ++ a.file } else a

/-- `metatab()`, metatab/cli.py:25-166. `IOError` when opening is reported and ends the program with 1; any other exception is not caught. -/
def runCli (W : World) (a : Args) : Outcome :=
  match a.named.create with
  | some template => createFile W a.named.file template
  | none =>
    match openDoc W a.named.file with
    | .err .osError _ => { exit := .code 1 }
    | .err e _ => { exit := .raised e }
    | .ok _ s => showDoc W a.named s

/-- What `get_table` does: the term, or the end of the program with the names it lists. -/
inductive TableRes
  | found (t : Nat)
  /-- `sys.exit(1)`, after a message with these names -/
  | missing (names : List Str)
  | raised (e : Err)
deriving DecidableEq, Repr

/-- The names for the message, metatab/cli.py:228: `"'" + t.value + "'"` raises `TypeError` unless the value is a string. -/
def quotedNames (s : St) : List Nat → Except Err (List Str)
  | [] => .ok []
  | t :: ts =>
    match (s.heap t).value with
    | .str v => do
      let l ← quotedNames s ts
      return ('\'' :: v ++ py!"'") :: l
    | _ => .error .typeError

/-- `get_table`, metatab/cli.py:223-236. -/
def getTable (s : St) (name : Str) : TableRes :=
  match findFirst s (py!"Root.Table") (.str name) with
  | .error e => .raised e
  | .ok (some t) => .found t
  | .ok none =>
    match find s (py!"Root.Table") with
    | .error e => .raised e
    | .ok ts =>
      match quotedNames s ts with
      | .error e => .raised e
      | .ok [] => .missing [py!"<No Tables>"]
      | .ok l => .missing l

end Metatab
