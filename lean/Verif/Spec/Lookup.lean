import Verif.Spec.Find
/-! Specification of looking things up below one term. -/
namespace Spec
open Py Metatab

/-- `c` is the first element of `l` with the property. -/
def FirstIs (l : List Nat) (p : Nat → Prop) (c : Nat) : Prop := ∃ pre post, l = pre ++ c :: post ∧ p c ∧ ∀ x ∈ pre, ¬ p x

/-- What a term shows under a name: itself if that is the name of its value, otherwise its first child of that name, if any. Letter case
does not matter. -/
inductive ItemIs (h : Nat → Obj) (t : Nat) (k : Str) : Option Nat → Prop
  | own (e : lower k = lower (h t).tvn) : ItemIs h t k (some t)
  | child {c : Nat} (e : lower k ≠ lower (h t).tvn) (f : FirstIs (h t).children (fun c => lower (h c).rt = lower k) c) : ItemIs h t k (some c)
  | absent (e : lower k ≠ lower (h t).tvn) (f : ∀ c ∈ (h t).children, lower (h c).rt ≠ lower k) : ItemIs h t k none

end Spec
