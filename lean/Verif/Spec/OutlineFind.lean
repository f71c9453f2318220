import Verif.Spec.Find
import Verif.Spec.Outline
import Verif.Spec.Agree
/-! # Searching an outline -/
namespace Spec
open Py Metatab

mutual
/-- The item and everything below it, each with the name of its parent: first the item, then what is below, child by child. -/
def Item.walk (p : Str) : Item → List (Str × Item)
  | .mk n v ks => (p, .mk n v ks) :: walkL n ks
def walkL (p : Str) : List Item → List (Str × Item)
  | [] => []
  | k :: ks => k.walk p ++ walkL p ks
end

instance (v w : Val) : Decidable (ValueIs v w) := by
  unfold ValueIs
  cases w <;> infer_instance

/-- The section is one of those asked for. -/
def partAsked (secs : Option (List Str)) (d : Part) : Bool :=
  match secs with
  | none => true
  | some names => names.any fun e => decide (lower e = lower d.name)

/-- The item is asked for by its name `A.B` and its value. A term called `root` at root level is never found. -/
def itemAsked (q : Str × Str) (value : Val) (i : Str × Item) : Bool :=
  !(decide (lower i.1 = py!"root") && decide (lower i.2.name = py!"root")) && decide (NameMatches q i.1 i.2.name) &&
    decide (ValueIs (asVal i.2.value) value)

/-- The items of a section that a search looks at: for a name `Root.B` those at root level, otherwise all. -/
def lookedAt (q : Str × Str) (d : Part) : List (Str × Item) :=
  if lower q.1 = py!"root" then d.items.map fun i => (py!"root", i) else walkL (py!"root") d.items

/-- The items of an outline that a search finds, section by section from the top. -/
def outlineFind (D : List Part) (q : Str × Str) (value : Val) (secs : Option (List Str)) : List Item :=
  D.flatMap fun d => if partAsked secs d then ((lookedAt q d).filter (itemAsked q value)).map Prod.snd else []

/-- The object is the item. -/
def FoundAs (s : St) (i : Item) (t : Nat) : Prop := ∃ x, ShowsItem s x i t

/-- The document's lists are in order: sections are called sections, the list of root-level terms and those of the sections agree, and no
terms are declared as derived. -/
structure Indexed (s : St) : Prop where
  secNames : ∀ kv ∈ s.sections, (s.heap kv.2).pt = py!"root" ∧ ((s.heap kv.2).rt = py!"root" ∨ (s.heap kv.2).rt = py!"section")
  agree : ListsAgree s
  derived : ∀ n, s.derived.get? n = none

/-- Two lists of terms of two documents are the same apart from their order and the order of the children of terms. -/
def FoundSame (s s' : St) (l l' : List Nat) : Prop :=
  ∃ m m', m.Perm l ∧ m'.Perm l' ∧ List.Forall₂ (fun t t' => ∃ i i', FoundAs s i t ∧ FoundAs s' i' t' ∧ Reordered i i') m m'

end Spec
