import Verif.Model.AsDict
/-! Deciding equality of converted values, for the examples. -/
namespace Metatab
open Py

mutual
def DVal.same : DVal → DVal → Bool
  | .val a, .val b => decide (a = b)
  | .list a, .list b => sameL a b
  | .dict a, .dict b => sameD a b
  | _, _ => false
def sameL : List DVal → List DVal → Bool
  | [], [] => true
  | a :: l, b :: m => a.same b && sameL l m
  | _, _ => false
def sameD : List (Str × DVal) → List (Str × DVal) → Bool
  | [], [] => true
  | (k, a) :: l, (n, b) :: m => decide (k = n) && (a.same b && sameD l m)
  | _, _ => false
end

mutual
theorem DVal.same_eq : ∀ {a b : DVal}, a.same b = true → a = b
  | .val a, .val b, h => by rw [DVal.same] at h; rw [of_decide_eq_true h]
  | .list a, .list b, h => by rw [DVal.same] at h; rw [sameL_eq h]
  | .dict a, .dict b, h => by rw [DVal.same] at h; rw [sameD_eq h]
  | .val _, .list _, h | .val _, .dict _, h | .list _, .val _, h | .list _, .dict _, h | .dict _, .val _, h | .dict _, .list _, h => by
    simp [DVal.same] at h
theorem sameL_eq : ∀ {a b : List DVal}, sameL a b = true → a = b
  | [], [], _ => rfl
  | a :: l, b :: m, h => by
    rw [sameL, Bool.and_eq_true] at h
    rw [DVal.same_eq h.1, sameL_eq h.2]
  | [], _ :: _, h | _ :: _, [], h => by simp [sameL] at h
theorem sameD_eq : ∀ {a b : List (Str × DVal)}, sameD a b = true → a = b
  | [], [], _ => rfl
  | (k, a) :: l, (n, b) :: m, h => by
    rw [sameD, Bool.and_eq_true, Bool.and_eq_true] at h
    rw [of_decide_eq_true h.1, DVal.same_eq h.2.1, sameD_eq h.2.2]
  | [], _ :: _, h | _ :: _, [], h => by simp [sameD] at h
end

/-- The computation returns `v`. -/
def returns (v : DVal) : Res DVal → Bool
  | .ok a _ => a.same v
  | .err _ _ => false

theorem returns_eq {v : DVal} {x : Res DVal} (h : returns v x = true) : ∃ s, x = .ok v s := by
  cases x with
  | ok a s => exact ⟨s, by rw [DVal.same_eq h]⟩
  | err e s => cases h

/-- The computation raises `e`. -/
def raises {α : Type} (e : Err) : Res α → Bool
  | .ok _ _ => false
  | .err e' _ => decide (e' = e)

theorem raises_eq {α : Type} {e : Err} {x : Res α} (h : raises e x = true) : ∃ s, x = .err e s := by
  cases x with
  | ok a s => cases h
  | err e' s => exact ⟨s, by rw [of_decide_eq_true h]⟩

end Metatab
