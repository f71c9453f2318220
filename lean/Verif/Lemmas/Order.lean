import Verif.Model.DocOps
import Verif.Lemmas.Str
/-! `strLe` is a total order; stability of the sort. -/
namespace Metatab
open Py

theorem char_toNat_inj {a b : Char} (h : a.toNat = b.toNat) : a = b := by
  apply Char.ext; apply UInt32.toNat_inj.1; exact h

theorem strLe_refl (a : Str) : strLe a a = true := by
  induction a with
  | nil => rfl
  | cons c a ih => simp [strLe, ih]

theorem strLe_total (a b : Str) : (strLe a b || strLe b a) = true := by
  induction a generalizing b with
  | nil => simp [strLe]
  | cons c a ih =>
    cases b with
    | nil => simp [strLe]
    | cons d b =>
      have := ih b
      simp only [strLe, Bool.or_eq_true, decide_eq_true_eq, Bool.and_eq_true, beq_iff_eq] at *
      rcases Nat.lt_trichotomy c.toNat d.toNat with h | h | h
      · exact Or.inl (Or.inl h)
      · rcases this with t | t
        · exact Or.inl (Or.inr ⟨h, t⟩)
        · exact Or.inr (Or.inr ⟨h.symm, t⟩)
      · exact Or.inr (Or.inl h)

theorem strLe_trans (a b c : Str) (h1 : strLe a b = true) (h2 : strLe b c = true) : strLe a c = true := by
  induction a generalizing b c with
  | nil => simp [strLe]
  | cons x a ih =>
    cases b with
    | nil => simp [strLe] at h1
    | cons y b =>
      cases c with
      | nil => simp [strLe] at h2
      | cons z c =>
        simp only [strLe, Bool.or_eq_true, decide_eq_true_eq, Bool.and_eq_true, beq_iff_eq] at *
        rcases h1 with h1 | ⟨e1, t1⟩ <;> rcases h2 with h2 | ⟨e2, t2⟩
        · exact Or.inl (by omega)
        · exact Or.inl (by omega)
        · exact Or.inl (by omega)
        · exact Or.inr ⟨by omega, ih b c t1 t2⟩

theorem strLe_antisymm {a b : Str} (h1 : strLe a b = true) (h2 : strLe b a = true) : a = b := by
  induction a generalizing b with
  | nil => cases b <;> simp_all [strLe]
  | cons x a ih =>
    cases b with
    | nil => simp [strLe] at h1
    | cons y b =>
      simp only [strLe, Bool.or_eq_true, decide_eq_true_eq, Bool.and_eq_true, beq_iff_eq] at *
      rcases h1 with h1 | ⟨e1, t1⟩ <;> rcases h2 with h2 | ⟨e2, t2⟩
      · omega
      · omega
      · omega
      · rw [char_toNat_inj e1, ih t1 t2]

theorem insertBy_perm {α : Type} (f : α → Str) (a : α) (l : List α) : (insertBy f a l).Perm (a :: l) := by
  induction l with
  | nil => exact List.Perm.refl _
  | cons b l ih =>
    unfold insertBy; split
    · exact List.Perm.refl _
    · exact (List.Perm.cons b ih).trans (List.Perm.swap a b l)

/-- Sorting rearranges. -/
theorem sortBy_perm {α : Type} (f : α → Str) (l : List α) : (sortBy f l).Perm l := by
  induction l with
  | nil => exact List.Perm.refl _
  | cons a l ih => exact (insertBy_perm f a _).trans (List.Perm.cons a ih)

theorem insertBy_sorted {α : Type} (f : α → Str) (a : α) {l : List α} (h : l.Pairwise fun a b => strLe (f a) (f b) = true) :
    (insertBy f a l).Pairwise fun a b => strLe (f a) (f b) = true := by
  induction l with
  | nil => simp [insertBy]
  | cons b l ih =>
    rw [List.pairwise_cons] at h
    unfold insertBy; split
    · rename_i hab
      rw [List.pairwise_cons, List.pairwise_cons]
      refine ⟨?_, h⟩
      intro c hc
      rcases List.mem_cons.1 hc with rfl | hc
      · exact hab
      · exact strLe_trans _ _ _ hab (h.1 c hc)
    · rename_i hab
      rw [List.pairwise_cons]
      refine ⟨?_, ih h.2⟩
      intro c hc
      rcases List.mem_cons.1 ((insertBy_perm f a l).mem_iff.1 hc) with rfl | hc
      · have := strLe_total (f c) (f b)
        simp only [Bool.or_eq_true] at this
        exact this.resolve_left hab
      · exact h.1 c hc

/-- The result is sorted. -/
theorem sortBy_sorted {α : Type} (f : α → Str) (l : List α) : (sortBy f l).Pairwise fun a b => strLe (f a) (f b) = true := by
  induction l with
  | nil => simp [sortBy]
  | cons a l ih => exact insertBy_sorted f a ih

theorem insertBy_filter {α : Type} (f : α → Str) (a : α) (l : List α) (k : Str) :
    (insertBy f a l).filter (fun t => f t = k) = (a :: l).filter fun t => f t = k := by
  induction l with
  | nil => rfl
  | cons b l ih =>
    unfold insertBy; split
    · rfl
    · rename_i hab
      rw [List.filter_cons, ih]
      by_cases ha : f a = k
      · have hb : f b ≠ k := by intro hb; rw [ha, hb] at hab; exact hab (strLe_refl k)
        simp [ha, hb]
      · simp [ha, List.filter_cons]

/-- Equal keys keep their order. -/
theorem sortBy_stable {α : Type} (f : α → Str) (l : List α) (k : Str) :
    (sortBy f l).filter (fun t => f t = k) = l.filter fun t => f t = k := by
  induction l with
  | nil => rfl
  | cons a l ih =>
    have : sortBy f (a :: l) = insertBy f a (sortBy f l) := rfl
    rw [this, insertBy_filter, List.filter_cons, List.filter_cons, ih]

end Metatab
