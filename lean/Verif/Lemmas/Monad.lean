import Verif.Model.TermOps
/-! Running the state-and-exception monad, and weakest preconditions for it. -/
namespace Metatab
open Py

attribute [ext] St
variable {α β : Type}

@[simp] theorem bind_run (m : M α) (f : α → M β) (s : St) :
    (m >>= f) s = match m s with | .ok a s' => f a s' | .err e s' => .err e s' := rfl
@[simp] theorem pure_run (a : α) (s : St) : (pure a : M α) s = .ok a s := rfl
@[simp] theorem mpure_run (a : α) (s : St) : (M.pure a : M α) s = .ok a s := rfl
@[simp] theorem get_run (s : St) : M.get s = .ok s s := rfl
@[simp] theorem modify_run (f : St → St) (s : St) : M.modify f s = .ok () (f s) := rfl
@[simp] theorem raise_run (e : Err) (s : St) : (M.raise e : M α) s = .err e s := rfl
@[simp] theorem lift_run (f : St → Except Err α) (s : St) :
    M.lift f s = match f s with | .ok a => .ok a s | .error e => .err e s := rfl
@[simp] theorem obj_run (i : Nat) (s : St) : obj i s = .ok (s.heap i) s := rfl
@[simp] theorem upd_run (i : Nat) (f : Obj → Obj) (s : St) : upd i f s = .ok () (s.setObj i (f (s.heap i))) := rfl
@[simp] theorem alloc_run (o : Obj) (s : St) :
    alloc o s = .ok s.next ({ s with next := s.next + 1 }.setObj s.next o) := rfl
@[simp] theorem assert_run (b : Bool) (s : St) :
    M.assert b s = if b then .ok () s else .err .assertionError s := by cases b <;> rfl
@[simp] theorem ite_run (c : Prop) [Decidable c] (m n : M α) (s : St) :
    (if c then m else n) s = if c then m s else n s := by split <;> rfl

@[simp] theorem heap_setObj (s : St) (i : Nat) (o : Obj) (j : Nat) : (s.setObj i o).heap j = if j = i then o else s.heap j := rfl

/-- Weakest precondition: `Q` if the computation returns, `E` if it raises. -/
def wp (m : M α) (Q : α → St → Prop) (E : Err → St → Prop) (s : St) : Prop :=
  match m s with
  | .ok a s' => Q a s'
  | .err e s' => E e s'

section
variable {Q : α → St → Prop} {E : Err → St → Prop} {s : St}

theorem wp_bind {m : M α} {f : α → M β} {Q : β → St → Prop} :
    wp (m >>= f) Q E s ↔ wp m (fun a s' => wp (f a) Q E s') E s := by
  unfold wp; rw [bind_run]; cases m s <;> rfl
@[simp] theorem wp_pure {a : α} : wp (pure a : M α) Q E s ↔ Q a s := Iff.rfl
@[simp] theorem wp_mpure {a : α} : wp (M.pure a : M α) Q E s ↔ Q a s := Iff.rfl
@[simp] theorem wp_get {Q : St → St → Prop} : wp M.get Q E s ↔ Q s s := Iff.rfl
@[simp] theorem wp_modify {f : St → St} {Q : Unit → St → Prop} : wp (M.modify f) Q E s ↔ Q () (f s) := Iff.rfl
@[simp] theorem wp_raise {e : Err} : wp (M.raise e : M α) Q E s ↔ E e s := Iff.rfl
theorem wp_lift {f : St → Except Err α} : wp (M.lift f) Q E s ↔ (∀ a, f s = .ok a → Q a s) ∧ (∀ e, f s = .error e → E e s) := by
  unfold wp; rw [lift_run]; cases h : f s <;> simp
@[simp] theorem wp_obj {i : Nat} {Q : Obj → St → Prop} : wp (obj i) Q E s ↔ Q (s.heap i) s := Iff.rfl
@[simp] theorem wp_upd {i : Nat} {f : Obj → Obj} {Q : Unit → St → Prop} : wp (upd i f) Q E s ↔ Q () (s.setObj i (f (s.heap i))) := Iff.rfl
@[simp] theorem wp_alloc {o : Obj} {Q : Nat → St → Prop} :
    wp (alloc o) Q E s ↔ Q s.next ({ s with next := s.next + 1 }.setObj s.next o) := Iff.rfl
theorem wp_assert {b : Bool} {Q : Unit → St → Prop} :
    wp (M.assert b) Q E s ↔ (b = true → Q () s) ∧ (b = false → E .assertionError s) := by
  unfold wp; rw [assert_run]; cases b <;> simp
theorem wp_ite {c : Prop} [Decidable c] {m n : M α} :
    wp (if c then m else n) Q E s ↔ (c → wp m Q E s) ∧ (¬ c → wp n Q E s) := by
  by_cases h : c <;> simp [h]

/-- Consequence. -/
theorem wp_mono {m : M α} {Q' : α → St → Prop} {E' : Err → St → Prop} (h : wp m Q E s) (hQ : ∀ a s', Q a s' → Q' a s')
    (hE : ∀ e s', E e s' → E' e s') : wp m Q' E' s := by
  unfold wp at *; cases hm : m s <;> rw [hm] at h
  · exact hQ _ _ h
  · exact hE _ _ h

theorem wp_ok {m : M α} {a : α} {s' : St} (h : wp m Q E s) (hm : m s = .ok a s') : Q a s' := by
  unfold wp at h; rw [hm] at h; exact h
theorem wp_err {m : M α} {e : Err} {s' : St} (h : wp m Q E s) (hm : m s = .err e s') : E e s' := by
  unfold wp at h; rw [hm] at h; exact h
end

/-- The state reached by a result. -/
def Res.st : Res α → St
  | .ok _ s => s
  | .err _ s => s

/-- A computation keeps a relation between the state before and the state after, whether it returns or raises. -/
def Pres (R : St → St → Prop) (m : M α) : Prop := ∀ s, R s (m s).st

namespace Pres
variable {R : St → St → Prop}

theorem wp {m : M α} (h : Pres R m) (s : St) : Metatab.wp m (fun _ s' => R s s') (fun _ s' => R s s') s := by
  have := h s
  unfold Metatab.wp; cases hm : m s <;> rw [hm] at this <;> exact this

end Pres

/-- A reflexive and transitive relation on states. -/
class Pre (R : St → St → Prop) : Prop where
  refl : ∀ s, R s s
  trans : ∀ {a b c}, R a b → R b c → R a c

namespace Pres
variable {R : St → St → Prop} [Pre R]

theorem pure (a : α) : Pres R (Pure.pure a : M α) := fun s => Pre.refl s
theorem mpure (a : α) : Pres R (M.pure a : M α) := fun s => Pre.refl s
theorem raise (e : Err) : Pres R (M.raise e : M α) := fun s => Pre.refl s
theorem get : Pres R M.get := fun s => Pre.refl s
theorem obj (i : Nat) : Pres R (obj i) := fun s => Pre.refl s
theorem lift (f : St → Except Err α) : Pres R (M.lift f) := by
  intro s; rw [lift_run]; cases f s <;> exact Pre.refl s
theorem assert (b : Bool) : Pres R (M.assert b) := by
  intro s; rw [assert_run]; cases b <;> exact Pre.refl s
theorem bind {m : M α} {f : α → M β} (hm : Pres R m) (hf : ∀ a, Pres R (f a)) : Pres R (m >>= f) := by
  intro s; rw [bind_run]
  have h1 := hm s
  cases h : m s with
  | ok a s' => rw [h] at h1; exact Pre.trans h1 (hf a s')
  | err e s' => rw [h] at h1; exact h1
omit [Pre R] in
theorem ite {c : Prop} [Decidable c] {m n : M α} (hm : Pres R m) (hn : Pres R n) : Pres R (if c then m else n) := by
  split <;> assumption
theorem forL {f : α → M Unit} (h : ∀ a, Pres R (f a)) (l : List α) : Pres R (forL f l) := by
  induction l with
  | nil => exact Pres.pure ()
  | cons a l ih => exact Pres.bind (h a) fun _ => ih

end Pres
end Metatab
