import Verif.Spec.Outline
import Verif.Lemmas.MapM
/-! A check of outlines, for the examples. -/
namespace Metatab
open Py _root_.Spec

mutual
def showsItemB (s : St) (x : Nat) : Item → Nat → Bool
  | .mk n v ks, t => decide ((s.heap t).rt = n ∧ (s.heap t).value = asVal v ∧ (s.heap t).sec = some x ∧
      ∀ c ∈ (s.heap t).children, (s.heap c).parent = some t ∧ (s.heap c).pt = n) && showsItemsB s x ks (s.heap t).children
def showsItemsB (s : St) (x : Nat) : List Item → List Nat → Bool
  | [], l => l.isEmpty
  | k :: ks, l => match l with
    | [] => false
    | t :: r => showsItemB s x k t && showsItemsB s x ks r
end

mutual
theorem showsItemB_sound {s : St} {x : Nat} : ∀ (i : Item) {t : Nat}, showsItemB s x i t = true → ShowsItem s x i t
  | .mk n v ks, t => by
    intro h
    rw [showsItemB, Bool.and_eq_true, decide_eq_true_eq] at h
    rw [ShowsItem]
    exact ⟨h.1.1, h.1.2.1, h.1.2.2.1, h.1.2.2.2, showsItemsB_sound ks h.2⟩
theorem showsItemsB_sound {s : St} {x : Nat} : ∀ (ks : List Item) {l : List Nat}, showsItemsB s x ks l = true → ShowsItems s x ks l
  | [], l => by
    intro h
    rw [showsItemsB] at h
    rw [ShowsItems]
    simpa using h
  | k :: ks, l => by
    intro h
    cases l with
    | nil => rw [showsItemsB] at h; cases h
    | cons t r =>
      rw [showsItemsB, Bool.and_eq_true] at h
      rw [ShowsItems]
      exact ⟨t, r, rfl, showsItemB_sound k h.1, showsItemsB_sound ks h.2⟩
end

def showsPartB (s : St) (kv : Str × Nat) (d : Part) : Bool :=
  decide (kv.1 = lower d.name) && decide ((s.heap kv.2).value = .str d.name) && decide ((s.heap kv.2).secPropertyNames = d.cols) &&
    showsItemsB s kv.2 d.items (s.heap kv.2).terms &&
    decide (∀ t ∈ (s.heap kv.2).terms, (s.heap t).pt = py!"root" ∧ ((s.heap t).parent = none ∨ (s.heap t).parent = some s.root))

def showsPartsB (s : St) : List (Str × Nat) → List Part → Bool
  | [], [] => true
  | kv :: kvs, d :: ds => showsPartB s kv d && showsPartsB s kvs ds
  | _, _ => false

def showsB (s : St) (D : List Part) : Bool := decide ((s.heap s.root).rt = py!"root") && showsPartsB s s.sections D

theorem showsB_sound {s : St} {D : List Part} (h : showsB s D = true) : Shows s D := by
  unfold showsB at h
  rw [Bool.and_eq_true, decide_eq_true_eq] at h
  refine ⟨h.1, ?_⟩
  replace h := h.2
  generalize s.sections = secs at h
  induction secs generalizing D with
  | nil =>
    cases D with
    | nil => exact .nil
    | cons d ds => cases h
  | cons kv kvs ih =>
    cases D with
    | nil => cases h
    | cons d ds =>
      rw [showsPartsB, Bool.and_eq_true] at h
      refine .cons ?_ (ih h.2)
      have := h.1
      unfold showsPartB at this
      simp only [Bool.and_eq_true, decide_eq_true_eq] at this
      obtain ⟨⟨⟨⟨h1, h2⟩, h3⟩, h4⟩, h5⟩ := this
      exact ⟨h1, h2, h3, showsItemsB_sound _ h4, h5⟩

end Metatab
