import Verif.Model.Heap
/-! # What editing calls are to do -/
namespace Spec
open Py Metatab

/-- The document without the term: the document's term list, the term list of its section if it is a root-level term, and the children
of its parent lose it; everything else is as it was. -/
def without (s : St) (t : Nat) : St :=
  { s with
    terms := s.terms.filter (· ≠ t)
    heap := fun j => { s.heap j with
      terms := if lower (s.heap t).pt = ROOT ∧ (s.heap t).sec = some j then (s.heap j).terms.filter (· ≠ t) else (s.heap j).terms
      children := if (s.heap t).parent = some j then (s.heap j).children.filter (· ≠ t) else (s.heap j).children } }

end Spec
