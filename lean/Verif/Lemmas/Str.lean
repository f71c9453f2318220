import Mathlib.Tactic.ByContra
import Mathlib.Tactic.Conv
import Verif.Py.Str
/-! Lemmas about the string operations. -/
namespace Py

theorem toNat_ofNat_small {n : Nat} (h : n < 0xd800) : (Char.ofNat n).toNat = n := by
  have : n.isValidChar := Or.inl h
  simp [Char.ofNat, this, Char.toNat, Char.ofNatAux]

theorem lowerC_idem (c : Char) : lowerC (lowerC c) = lowerC c := by
  by_cases h : isUpper c
  · have hn : 65 ≤ c.toNat ∧ c.toNat ≤ 90 := by simpa [isUpper] using h
    have e : lowerC c = Char.ofNat (c.toNat + 32) := by simp [lowerC, h]
    rw [e]
    have : (Char.ofNat (c.toNat + 32)).toNat = c.toNat + 32 := toNat_ofNat_small (by omega)
    have h2 : isUpper (Char.ofNat (c.toNat + 32)) = false := by
      simp [isUpper, this]; omega
    simp [lowerC, h2]
  · simp [lowerC, h]

theorem isSpace_lowerC (c : Char) : isSpace (lowerC c) = isSpace c := by
  by_cases h : isUpper c
  · have hn : 65 ≤ c.toNat ∧ c.toNat ≤ 90 := by simpa [isUpper] using h
    have e : lowerC c = Char.ofNat (c.toNat + 32) := by simp [lowerC, h]
    rw [e]
    have : (Char.ofNat (c.toNat + 32)).toNat = c.toNat + 32 := toNat_ofNat_small (by omega)
    have h1 : isSpace c = false := by simp [isSpace]; omega
    have h2 : isSpace (Char.ofNat (c.toNat + 32)) = false := by simp [isSpace, this]; omega
    rw [h1, h2]
  · simp [lowerC, h]

/-- A character that is not a lower-case letter is only reached from itself by lower-casing. -/
theorem lowerC_eq_iff {c d : Char} (hd : isLower d = false) (hu : isUpper d = false) : lowerC c = d ↔ c = d := by
  by_cases h : isUpper c
  · have hn : 65 ≤ c.toNat ∧ c.toNat ≤ 90 := by simpa [isUpper] using h
    have e : lowerC c = Char.ofNat (c.toNat + 32) := by simp [lowerC, h]
    have : (Char.ofNat (c.toNat + 32)).toNat = c.toNat + 32 := toNat_ofNat_small (by omega)
    constructor
    · intro h'
      rw [← h', e] at hd
      simp [isLower, this] at hd; omega
    · rintro rfl; simp [h] at hu
  · simp [lowerC, h]

@[simp] theorem lower_nil : lower [] = [] := rfl
@[simp] theorem lower_cons (c : Char) (s : Str) : lower (c :: s) = lowerC c :: lower s := rfl
@[simp] theorem lower_append (s t : Str) : lower (s ++ t) = lower s ++ lower t := by simp [lower]
@[simp] theorem lower_eq_nil {s : Str} : lower s = [] ↔ s = [] := by simp [lower]
@[simp] theorem length_lower (s : Str) : (lower s).length = s.length := by simp [lower]

@[simp] theorem lower_lower (s : Str) : lower (lower s) = lower s := by
  simp [lower, lowerC_idem]

theorem mem_lower {d : Char} (hd : isLower d = false) (hu : isUpper d = false) {s : Str} : d ∈ lower s ↔ d ∈ s := by
  simp [lower, lowerC_eq_iff hd hu]

@[simp] theorem dot_mem_lower {s : Str} : '.' ∈ lower s ↔ '.' ∈ s := mem_lower (by decide) (by decide)

theorem dropWhile_lower (s : Str) : (lower s).dropWhile isSpace = lower (s.dropWhile isSpace) := by
  induction s with
  | nil => rfl
  | cons c s ih =>
    simp only [lower_cons, List.dropWhile_cons, isSpace_lowerC]
    split <;> simp [ih]

theorem lower_reverse (s : Str) : lower s.reverse = (lower s).reverse := by simp [lower]

theorem lstrip_lower (s : Str) : lstrip (lower s) = lower (lstrip s) := dropWhile_lower s
theorem rstrip_lower (s : Str) : rstrip (lower s) = lower (rstrip s) := by
  simp [rstrip, ← lower_reverse, dropWhile_lower]
@[simp] theorem strip_lower (s : Str) : strip (lower s) = lower (strip s) := by
  simp [strip, lstrip_lower, rstrip_lower]

/-! ### strip -/

theorem dropWhile_idem {α} (p : α → Bool) (l : List α) : (l.dropWhile p).dropWhile p = l.dropWhile p := by
  induction l with
  | nil => rfl
  | cons a l ih =>
    simp only [List.dropWhile_cons]
    split
    · exact ih
    · rename_i h; simp [h]

/-- A list is fixed by dropping a predicate iff it is empty or starts outside it. -/
theorem dropWhile_eq_self {α} (p : α → Bool) {l : List α} :
    l.dropWhile p = l ↔ ∀ a, l.head? = some a → p a = false := by
  cases l with
  | nil => simp
  | cons a l =>
    simp only [List.dropWhile_cons, List.head?_cons, Option.some.injEq, forall_eq']
    constructor
    · intro h
      by_contra hp
      simp at hp
      rw [if_pos hp] at h
      have := congrArg List.length h
      have h2 := (List.dropWhile_suffix p (l := l)).length_le
      simp at this; omega
    · intro h; simp [h]

theorem head?_rstrip {s : Str} (h : ∀ a, s.head? = some a → isSpace a = false) :
    ∀ a, (rstrip s).head? = some a → isSpace a = false := by
  intro a ha
  have hp : rstrip s <+: s := by
    have := List.dropWhile_suffix isSpace (l := s.reverse)
    rw [← List.reverse_prefix] at this
    simpa [rstrip] using this
  obtain ⟨t, ht⟩ := hp
  cases hr : rstrip s with
  | nil => simp [hr] at ha
  | cons b r =>
    rw [hr] at ha ht
    simp at ha; subst ha
    exact h b (by rw [← ht]; rfl)

theorem lstrip_idem (s : Str) : lstrip (lstrip s) = lstrip s := dropWhile_idem _ _
theorem rstrip_idem (s : Str) : rstrip (rstrip s) = rstrip s := by simp [rstrip, dropWhile_idem]

theorem lstrip_strip (s : Str) : lstrip (strip s) = strip s := by
  apply (dropWhile_eq_self _).2
  exact head?_rstrip ((dropWhile_eq_self _).1 (lstrip_idem s))

@[simp] theorem strip_strip (s : Str) : strip (strip s) = strip s := by
  conv_lhs => rw [strip, lstrip_strip, strip, rstrip_idem]
  rfl

theorem mem_lstrip {c : Char} {s : Str} (h : c ∈ lstrip s) : c ∈ s :=
  (List.dropWhile_suffix _).subset h
theorem mem_rstrip {c : Char} {s : Str} (h : c ∈ rstrip s) : c ∈ s := by
  have := (List.dropWhile_suffix isSpace (l := s.reverse)).subset (a := c)
  simp [rstrip] at h; simpa using this h
theorem mem_strip {c : Char} {s : Str} (h : c ∈ strip s) : c ∈ s := mem_lstrip (mem_rstrip h)

@[simp] theorem strip_nil : strip [] = [] := rfl

/-! ### split and join -/

theorem splitOn_ne_nil (sep : Char) (s : Str) : splitOn sep s ≠ [] := by
  cases s with
  | nil => simp [splitOn]
  | cons c s =>
    simp only [splitOn]
    split
    · simp
    · split <;> simp

theorem splitOn_not_mem {sep : Char} {s : Str} (h : sep ∉ s) : splitOn sep s = [s] := by
  induction s with
  | nil => rfl
  | cons c s ih =>
    simp at h
    simp [splitOn, Ne.symm h.1, ih h.2]

theorem splitOn_append_sep {sep : Char} {p : Str} (h : sep ∉ p) (r : Str) :
    splitOn sep (p ++ sep :: r) = p :: splitOn sep r := by
  induction p with
  | nil => simp [splitOn]
  | cons c p ih =>
    simp at h
    simp [splitOn, Ne.symm h.1, ih h.2]

theorem length_splitOn (sep : Char) (s : Str) : (splitOn sep s).length = s.count sep + 1 := by
  induction s with
  | nil => rfl
  | cons c s ih =>
    simp only [splitOn]
    split
    · rename_i h; subst h; simp [ih]
    · rename_i h
      have h2 := splitOn_ne_nil sep s
      cases hs : splitOn sep s with
      | nil => exact absurd hs h2
      | cons a t =>
        rw [hs] at ih
        simp [h] at ih ⊢
        exact ih

theorem not_mem_of_mem_splitOn {sep : Char} {s p : Str} (h : p ∈ splitOn sep s) : sep ∉ p := by
  induction s generalizing p with
  | nil => simp [splitOn] at h; simp [h]
  | cons c s ih =>
    simp only [splitOn] at h
    split at h
    · rcases List.mem_cons.1 h with rfl | h
      · simp
      · exact ih h
    · rename_i hc
      cases hs : splitOn sep s with
      | nil => exact absurd hs (splitOn_ne_nil _ _)
      | cons a t =>
        rw [hs] at h ih
        rcases List.mem_cons.1 h with rfl | h
        · simp only [List.mem_cons, not_or]
          exact ⟨fun h => hc h.symm, ih (by simp)⟩
        · exact ih (by simp [h])

theorem join_splitOn (sep : Char) (s : Str) : join [sep] (splitOn sep s) = s := by
  induction s with
  | nil => rfl
  | cons c s ih =>
    simp only [splitOn]
    have h2 := splitOn_ne_nil sep s
    cases hs : splitOn sep s with
    | nil => exact absurd hs h2
    | cons a t =>
      rw [hs] at ih
      split
      · rename_i h; subst h
        simp [join, ih]
      · cases t with
        | nil => simp [join] at ih ⊢; exact ih
        | cons b t => simp [join] at ih ⊢; exact ih

theorem split_pair {sep : Char} {s p r : Str} (h : splitOn sep s = [p, r]) :
    s = p ++ sep :: r ∧ sep ∉ p ∧ sep ∉ r := by
  refine ⟨?_, not_mem_of_mem_splitOn (s := s) (by simp [h]), not_mem_of_mem_splitOn (s := s) (by simp [h])⟩
  have := join_splitOn sep s
  rw [h] at this
  simpa [join] using this.symm

end Py
