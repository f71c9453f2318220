import Verif.Spec.Names
/-! Specification of sorting by an order list. -/
namespace Spec
open Py

/-- A term with parent part `p` and record part `r` is of the kind `A.B`. -/
def NameMatches (q : Str × Str) (p r : Str) : Prop := PartMatches q.1 p ∧ PartMatches q.2 r

instance (q : Str × Str) (p r : Str) : Decidable (NameMatches q p r) := by unfold NameMatches; infer_instance

/-- Position of the first pattern of the order list that matches; the length of the list if none does. -/
def rank : List (Str × Str) → Str → Str → Nat
  | [], _, _ => 0
  | q :: qs, p, r => if NameMatches q p r then 0 else rank qs p r + 1

/-- Each name at its first mention. -/
def firsts : List Str → List Str
  | [] => []
  | a :: l => a :: (firsts l).filter (· ≠ a)

/-- The entries of a table under the given names, in that order, each once. -/
def named {α : Type} (d : Dict α) (names : List Str) : Dict α :=
  (firsts names).filterMap fun k => (d.get? k).map fun v => (k, v)

end Spec
