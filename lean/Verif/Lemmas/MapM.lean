import Verif.Model.Tree
import Mathlib.Data.List.Forall2
/-! Mapping a function that can fail. -/
namespace Metatab
open Py

theorem except_bind_ok {ε α β : Type} {x : Except ε α} {f : α → Except ε β} {b : β} : (x >>= f) = .ok b ↔ ∃ a, x = .ok a ∧ f a = .ok b := by
  cases x with
  | error e => constructor
               · intro h; cases h
               · rintro ⟨a, h, -⟩; cases h
  | ok a => constructor
            · intro h; exact ⟨a, rfl, h⟩
            · rintro ⟨a', h, h'⟩; cases h; exact h'

theorem mapM_iff {α β : Type} {f : α → Except Err β} {l : List α} {r : List β} :
    l.mapM f = .ok r ↔ List.Forall₂ (fun a b => f a = .ok b) l r := by
  induction l generalizing r with
  | nil => constructor
           · intro h; cases h; exact .nil
           · intro h; cases h; rfl
  | cons a l ih =>
    rw [List.mapM_cons, except_bind_ok]
    constructor
    · rintro ⟨b, hb, h⟩
      obtain ⟨bs, hbs, h⟩ := except_bind_ok.1 h
      cases h
      exact .cons hb (ih.1 hbs)
    · intro h
      cases h with
      | cons hb hbs => exact ⟨_, hb, except_bind_ok.2 ⟨_, ih.2 hbs, rfl⟩⟩

theorem treeF_iff {h : Nat → Obj} {f t : Nat} {tr : Tree} :
    treeF h (f + 1) t = .ok tr ↔ ∃ ks, List.Forall₂ (fun c k => treeF h f c = .ok k) (h t).children ks ∧ tr = .node t (h t) ks := by
  have hu : treeF h (f + 1) t = ((h t).children.mapM (treeF h f) >>= fun ks => .ok (.node t (h t) ks)) := rfl
  rw [hu, except_bind_ok]
  constructor
  · rintro ⟨ks, hk, e⟩; cases e; exact ⟨ks, mapM_iff.1 hk, rfl⟩
  · rintro ⟨ks, hk, rfl⟩; exact ⟨ks, mapM_iff.2 hk, rfl⟩

theorem descendentsL_flatMap (ks : List Tree) : descendentsL ks = ks.flatMap fun k => k.id :: k.descendents := by
  induction ks with
  | nil => rfl
  | cons k ks ih => simp [descendentsL, ih]

theorem treeF_id {h : Nat → Obj} {f t : Nat} {tr : Tree} (e : treeF h f t = .ok tr) : tr.id = t := by
  cases f with
  | zero => cases e
  | succ f => obtain ⟨ks, -, rfl⟩ := treeF_iff.1 e; rfl

end Metatab
