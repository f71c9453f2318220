import Verif.Model.Heap
/-! Specification of searches in documents with `Declare` rows. -/
namespace Spec
open Py Metatab

/-- The terms of the declare files: they are in the document's list, but in none of its sections. -/
def fileTerms (s : St) : List Nat := s.terms.filter fun t => decide (t ∉ (s.heap s.root).terms)

/-- The terms of the declare files are in named sections of their own. -/
def OwnSections (s : St) : Prop := ∀ t ∈ fileTerms s, ∃ x n, (s.heap t).sec = some x ∧ x ≠ s.root ∧ (s.heap x).value = .str n

end Spec
