import Verif.Model.DocOps
/-! # Indexing and iterating a document (metatab/doc.py:279-286, 307-315, 333-336) -/
namespace Metatab
open Py

/-- `MetatabDoc.get_section(name, default)` with a default other than `False`, metatab/doc.py:279-286; `none` stands for the default. -/
def getSectionOr (s : St) (name : Str) : Option Nat := s.sections.get? (lower name)

/-- `doc[names]` for a list of names, metatab/doc.py:311-312. Lists of lists are not modelled. -/
def docItems (s : St) : List Str → Except Err (List Nat)
  | [] => .ok []
  | n :: ns => do
    let x ← getSection s n
    let xs ← docItems s ns
    return x :: xs

/-- `list(doc)`, metatab/doc.py:333-336. -/
def docIter (s : St) : List Nat := s.sections.map (·.2)

end Metatab
