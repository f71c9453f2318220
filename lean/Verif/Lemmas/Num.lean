import Verif.Py.Str
import Verif.Lemmas.Str
/-! Numbers written as strings and read back. -/
namespace Py

theorem digitC_toNat {d : Nat} (h : d < 10) : (digitC d).toNat = 48 + d := by
  unfold digitC; exact toNat_ofNat_small (by omega)

theorem isDigit_digitC {d : Nat} (h : d < 10) : isDigit (digitC d) = true := by
  unfold isDigit; rw [digitC_toNat h]; simp; omega

theorem natStrGo_digits : ∀ f n, ∀ c ∈ natStrGo f n, isDigit c = true
  | 0, n, c, h => by
    simp only [natStrGo, List.mem_singleton] at h
    subst h; exact isDigit_digitC (Nat.mod_lt _ (by decide))
  | f + 1, n, c, h => by
    unfold natStrGo at h
    split at h
    · next hn => rw [List.mem_singleton] at h; subst h; exact isDigit_digitC hn
    · rcases List.mem_append.1 h with h | h
      · exact natStrGo_digits f _ c h
      · rw [List.mem_singleton] at h; subst h; exact isDigit_digitC (Nat.mod_lt _ (by decide))

theorem natStr_digits (n : Nat) : ∀ c ∈ natStr n, isDigit c = true := natStrGo_digits n n

theorem natStrGo_ne_nil : ∀ f n, natStrGo f n ≠ []
  | 0, n => by simp [natStrGo]
  | f + 1, n => by unfold natStrGo; split <;> simp

theorem natStr_ne_nil (n : Nat) : natStr n ≠ [] := natStrGo_ne_nil n n

theorem isSpace_of_isDigit {c : Char} (h : isDigit c = true) : isSpace c = false := by
  unfold isDigit at h; unfold isSpace
  simp only [Bool.and_eq_true, decide_eq_true_eq] at h
  simp only [Bool.or_eq_false_iff, Bool.and_eq_false_iff, decide_eq_false_iff_not, beq_eq_false_iff_ne]
  omega

theorem lowerC_of_isDigit {c : Char} (h : isDigit c = true) : lowerC c = c := by
  unfold isDigit at h
  simp only [Bool.and_eq_true, decide_eq_true_eq] at h
  unfold lowerC isUpper
  rw [if_neg]; simp; omega

theorem lower_natStr (n : Nat) : lower (natStr n) = natStr n := by
  have : (natStr n).map lowerC = (natStr n).map id := List.map_congr_left fun c hc => lowerC_of_isDigit (natStr_digits n c hc)
  unfold lower
  rw [this]; simp

theorem not_mem_natStr {c : Char} (h : isDigit c = false) (n : Nat) : c ∉ natStr n := fun hm => by
  rw [natStr_digits n c hm] at h; cases h

theorem strip_of_no_space {s : Str} (h : ∀ c ∈ s, isSpace c = false) : strip s = s := by
  have h1 : lstrip s = s := (dropWhile_eq_self _).2 fun a ha => h a (List.mem_of_head? ha)
  unfold strip; rw [h1]; unfold rstrip
  rw [(dropWhile_eq_self _).2 fun a ha => h a (List.mem_reverse.1 (List.mem_of_head? ha))]; simp

theorem strip_natStr (n : Nat) : strip (natStr n) = natStr n :=
  strip_of_no_space fun c hc => isSpace_of_isDigit (natStr_digits n c hc)

theorem digitsVal_append {l : Str} (hl : ∀ c ∈ l, isDigit c = true) {d : Nat} (hd : d < 10) : ∀ acc prev,
    ∃ v, digitsVal true acc (l) = some v ∧ digitsVal prev acc (l ++ [digitC d]) = some (v * 10 + d) := by
  induction l with
  | nil =>
    intro acc prev
    refine ⟨acc, rfl, ?_⟩
    simp [digitsVal, isDigit_digitC hd, digitC_toNat hd]
  | cons c l ih =>
    intro acc prev
    have hc := hl c List.mem_cons_self
    obtain ⟨v, h1, h2⟩ := ih (fun c h => hl c (List.mem_cons_of_mem _ h)) (acc * 10 + (c.toNat - 48)) true
    refine ⟨v, ?_, ?_⟩
    · simp only [digitsVal, hc, if_true]; exact h1
    · simp only [List.cons_append, digitsVal, hc, if_true]; exact h2

theorem digitsVal_natStrGo : ∀ f n, n < 10 ^ (f + 1) → ∀ prev, digitsVal prev 0 (natStrGo f n) = some n
  | 0, n, h, prev => by
    have : n % 10 = n := Nat.mod_eq_of_lt (by simpa using h)
    simp [natStrGo, digitsVal, this, isDigit_digitC (show n < 10 by simpa using h), digitC_toNat (show n < 10 by simpa using h)]
  | f + 1, n, h, prev => by
    unfold natStrGo
    split
    · next hn => simp [digitsVal, isDigit_digitC hn, digitC_toNat hn]
    · have ih := digitsVal_natStrGo f (n / 10) (by rw [Nat.pow_succ] at h; omega) true
      obtain ⟨v, h1, h2⟩ := digitsVal_append (natStrGo_digits f (n / 10)) (Nat.mod_lt n (by decide : 0 < 10)) 0 prev
      rw [ih] at h1; cases h1
      rw [h2]; congr 1; omega

theorem lt_pow10 (n : Nat) : n < 10 ^ (n + 1) := by
  induction n with
  | zero => decide
  | succ n ih => rw [Nat.pow_succ]; omega

theorem pyInt_natStr (n : Nat) : pyInt (natStr n) = some (n : Int) := by
  unfold pyInt
  rw [strip_natStr]
  have hv := digitsVal_natStrGo n n (lt_pow10 n) false
  have : natStrGo n n = natStr n := rfl
  rw [this] at hv
  split
  · next cs h => exact absurd (natStr_digits n '-' (by rw [h]; exact List.mem_cons_self)) (by decide)
  · next cs h => exact absurd (natStr_digits n '+' (by rw [h]; exact List.mem_cons_self)) (by decide)
  · rw [hv]; rfl

end Py
