import Verif.Model.FindDecl
/-! # What finding a declaration means -/
namespace Spec
open Py Metatab

/-- `r` is the first of the candidates that is there. -/
def FirstThere (has : Str → Bool) : List Str → Str → Prop
  | [], _ => False
  | c :: cs, r => (has c = true ∧ r = c) ∨ (has c = false ∧ FirstThere has cs r)

/-- The places named in the documentation of `find_declare_doc` for files next to the document: the name as a path, the name in the
document's directory, the name with `.csv` there. -/
def nearby (d name : Str) : List Str := [name, pathJoin d name, pathJoin d (name ++ py!".csv")]
/-- The places in the package of declarations. -/
def packaged (pkg name : Str) : List Str := [pathJoin pkg name, pathJoin pkg (name ++ py!".csv")]

end Spec
