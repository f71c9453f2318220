import Verif.Model.Heap
import Mathlib.Logic.Relation
/-! # What documents should look like -/
namespace Spec
open Metatab Py

/-- Nothing is listed twice, section names differ ignoring case, and sections are not listed as terms. -/
structure NoDuplicates (s : St) : Prop where
  terms : ∀ i j : Nat, ∀ t, s.terms[i]? = some t → s.terms[j]? = some t → i = j
  sectionTerms : ∀ x, ∀ i j : Nat, ∀ t, (s.heap x).terms[i]? = some t → (s.heap x).terms[j]? = some t → i = j
  names : ∀ i j : Nat, ∀ a b : Str × Nat, s.sections[i]? = some a → s.sections[j]? = some b → lower a.1 = lower b.1 → i = j
  noSections : ∀ t ∈ s.terms, (s.heap t).cls.isSection = false

/-- `d` is reached from `t` by going down to children any number of times. -/
def Below (s : St) (t d : Nat) : Prop := Relation.ReflTransGen (fun a b => b ∈ (s.heap a).children) t d

/-- A term whose own name equals the name of its parent, such as `Foo.Foo`. -/
def SelfNamed (s : St) (t : Nat) : Prop := (s.heap t).pt = (s.heap t).rt

end Spec
