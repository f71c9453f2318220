import Verif.Spec.Outline
import Verif.Model.Decl
/-! Declare files that leave the document to its own rows. -/
namespace Spec
open Py Metatab

/-- The terms for some `Declare` rows. -/
def declItems (decls : List Str) : List Item := decls.map fun v => .mk (py!"declare") (some v) []

/-- The `Declare` rows. -/
def declRows (decls : List Str) : List (List Str) := decls.map fun v => [py!"Declare", v]

/-- The document `s` has read nothing but `Declare` rows, and the files have added nothing but declarations: the only section is the root
section, its only terms are the `Declare` terms, rows that follow go there, and the declarations define no synonyms, no value names that
the terms use for themselves, and no kinds of sections. -/
structure Quiet (s : St) (decls : List Str) : Prop where
  outline : Shows s [⟨py!"Root", [], declItems decls⟩]
  only : s.sections = [(py!"root", s.root)]
  below : ∀ t ∈ (s.heap s.root).terms, (s.heap t).parent = some s.root ∧ (s.heap t).cls.isSection = false
  current : s.p.lastSec = s.root
  rootKey : s.p.lastMap.get? (py!"root") = some s.root
  last : (s.p.lastMap.get? s.p.lastParent).isSome = true
  lastName : s.p.lastParent ≠ [] ∧ strip s.p.lastParent = s.p.lastParent ∧ '.' ∉ s.p.lastParent ∧ lower s.p.lastParent = s.p.lastParent
  synonyms : synonyms s.p.declTerms = []
  valueNames : ∀ d ∈ s.p.declTerms, ∀ v ∈ d.2.props.get? (py!"termvaluename"), lower v ∉ reservedTvn
  valueName : lower s.p.defTvn ∉ reservedTvn
  valueNameOf : ∀ x, x < s.next → lower (s.heap x).defTvn ∉ reservedTvn
  parents : ∀ d ∈ s.p.declTerms, ∀ v ∈ d.2.props.get? (py!"inheritsfrom"), lower v ≠ py!"root.section" ∧ lower v ≠ py!"root.root"

/-- No value name in use or declared is `section`, except that of terms called `DeclareSection`. -/
structure NoSecTvn (s : St) : Prop where
  parser : ∀ kv ∈ s.p.declTerms, kv.1 ≠ py!"root.declaresection" → ∀ v ∈ kv.2.props.get? (py!"termvaluename"), lower v ≠ py!"section"
  doc : ∀ kv ∈ s.declTerms, kv.1 ≠ py!"root.declaresection" → ∀ v ∈ kv.2.props.get? (py!"termvaluename"), lower v ≠ py!"section"
  current : lower s.p.defTvn ≠ py!"section"
  default : ∀ x, x < s.next → lower (s.heap x).defTvn ≠ py!"section"
  objects : ∀ x, x < s.next → (s.heap x).rt ≠ py!"declaresection" → lower (s.heap x).tvn ≠ py!"section"

end Spec
