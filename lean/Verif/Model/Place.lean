import Verif.Model.Parser
import Verif.Model.Slug
import Verif.Model.Url
/-! # Code that keeps a list, and the place of a term: `file_name`, `row` and `col` (metatab/terms.py:77-84, 152-165) -/
namespace Metatab
open Py

/-- Code that keeps a list: what was put on it, and how the code ends. -/
def LogM (ε α : Type) := St → List ε × Res α

instance {ε : Type} : Monad (LogM ε) where
  pure a := fun s => ([], .ok a s)
  bind m f := fun s =>
    match m s with
    | (l, .ok a s') => (l ++ (f a s').1, (f a s').2)
    | (l, .err e s') => (l, .err e s')

/-- Code that puts nothing on the list. -/
def silent {ε α : Type} (m : M α) : LogM ε α := fun s => ([], m s)
/-- `file_name`, `row`, `col`. -/
structure Place where
  file : Str
  row : Nat
  col : Nat
deriving DecidableEq, Repr

/-- An object built by the parser. `src` is not an attribute: it is `row_gen.ref`, and tells which file was being read. -/
structure Built where
  id : Nat
  place : Place
  src : Str
deriving DecidableEq, Repr

/-- The attribute `file_name`, metatab/terms.py:77-81: the slug of the last part of what is given to the constructor. `nfkd` is
`unicodedata.normalize('NFKD', ·)`, as in `slugify`. -/
def fileName (nfkd : Str → Str) (name : Str) : Str := if name = [] then py!"<none>" else slugify nfkd (basename name)

/-- How terms come by their `file_name`. `cls` tells the name of the class of the row generator for a target: a nested generator is given a
source object, whose `ref_path` is the name of its class (metatab/parser.py:314-316). -/
structure Naming where
  nfkd : Str → Str
  cls : Str → Str

/-- `file_name` of the terms of the file at a path, metatab/parser.py:317-319. -/
def Naming.main (nm : Naming) (path : Str) : Str := fileName nm.nfkd path
/-- `file_name` of the terms of an included file. -/
def Naming.sub (nm : Naming) (target : Str) : Str := fileName nm.nfkd (nm.cls target)

/-- What is known of the file being read: `ref_path`, the `file_name` of its terms, and `row_gen.ref`. -/
structure Source where
  name : Str
  file : Str
  ref : Str

/-- The file at a path. -/
def Naming.top (nm : Naming) (path : Str) : Source := ⟨path, nm.main path, path⟩
/-- An included file. -/
def Naming.source (nm : Naming) (target : Str) : Source := ⟨nm.cls target, nm.sub target, target⟩

/-- `Term.file_ref`, metatab/terms.py:152-165, for a term that has the three attributes: `os.path.split(...)[-1]` is what follows the last
slash. -/
def fileRef (p : Place) : Str :=
  (p.file.reverse.takeWhile (· ≠ '/')).reverse ++ ' ' :: natStr p.row ++ ':' :: natStr p.col ++ [' ']

/-- `Term.file_ref` of any term: without a row it is empty (metatab/terms.py:158-165). -/
def frontOf : Option Place → Str
  | none => []
  | some p => fileRef p

/-- The place of an object, looked up in the list of what was built. -/
def placeIn (l : List Built) (t : Nat) : Option Place := (l.find? fun b => b.id = t).map (·.place)

/-- The place of the root section, metatab/terms.py:981-982, metatab/doc.py:59. -/
def rootPlace : Place := ⟨py!"<none>", 0, 0⟩

end Metatab
