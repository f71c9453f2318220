import Verif.Spec.Sort
import Verif.Model.Heap
/-! Specification of searching. -/
namespace Spec
open Py Metatab

/-- The section filter: no filter, or the term's section has one of the names, ignoring case. -/
def SectionIs (h : Nat → Obj) (t : Nat) : Option (List Str) → Prop
  | none => True
  | some names => ∃ x n, (h t).sec = some x ∧ (h x).value = .str n ∧ ∃ e ∈ names, lower e = lower n

/-- The value filter: `False` means no filter. -/
def ValueIs (v : Val) : Val → Prop
  | .fls => True
  | w => Val.pyEq w v = true

/-- A term meets a search for `A.B` with a value and a section filter. The root section itself is never found. -/
def Meets (h : Nat → Obj) (q : Str × Str) (value : Val) (section_ : Option (List Str)) (t : Nat) : Prop :=
  ¬ (lower (h t).pt = py!"root" ∧ lower (h t).rt = py!"root") ∧ NameMatches q (h t).pt (h t).rt ∧ ValueIs (h t).value value ∧
    SectionIs h t section_

/-- Terms a search may look at: a term that is not a section has a section, and sections have names. -/
structure Searchable (h : Nat → Obj) (t : Nat) : Prop where
  hasSection : (h t).sec = none → lower (h t).pt = py!"root" ∧ (lower (h t).rt = py!"root" ∨ lower (h t).rt = py!"section")
  named : ∀ x, (h t).sec = some x → ∃ n, (h x).value = .str n

/-- Terms a search with the given section filter may look at: the names of sections matter only with a filter. -/
structure SearchableBy (h : Nat → Obj) (section_ : Option (List Str)) (t : Nat) : Prop where
  hasSection : (h t).sec = none → lower (h t).pt = py!"root" ∧ (lower (h t).rt = py!"root" ∨ lower (h t).rt = py!"section")
  named : section_ ≠ none → ∀ x, (h t).sec = some x → ∃ n, (h x).value = .str n

theorem Searchable.by_ {h : Nat → Obj} {t : Nat} (k : Searchable h t) (section_ : Option (List Str)) : SearchableBy h section_ t :=
  ⟨k.hasSection, fun _ => k.named⟩

/-- The value of property `k` of a term is `v`: the term's own value if `k` names it, otherwise the value of the first child named `k`,
otherwise `None`. -/
def PropIs (h : Nat → Obj) (t : Nat) (k : Str) (v : Val) : Prop :=
  (lower k = lower (h t).tvn ∧ Val.pyEq (h t).value v = true) ∨
  (¬ lower k = lower (h t).tvn ∧
    ((∃ pre c post, (h t).children = pre ++ c :: post ∧ lower (h c).rt = lower k ∧ (∀ x ∈ pre, lower (h x).rt ≠ lower k) ∧
        Val.pyEq (h c).value v = true) ∨
      ((∀ c ∈ (h t).children, lower (h c).rt ≠ lower k) ∧ Val.pyEq .none v = true)))

end Spec
