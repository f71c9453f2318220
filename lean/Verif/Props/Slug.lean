import Verif.Model.Slug
import Verif.Lemmas.Str
/-! # C03: slugify -/
namespace Spec
open Py
/-- The characters a slug may contain. -/
def SlugChar (c : Char) : Prop := isLower c = true ∨ isDigit c = true ∨ c = '_' ∨ c = '.' ∨ c = '-'
/-- No two hyphens next to each other. -/
def NoDoubleHyphen (s : Str) : Prop := ∀ a b, s ≠ a ++ '-' :: '-' :: b
/-- What is assumed of Unicode decomposition: it leaves ASCII text alone. -/
def AsciiStable (nfkd : Str → Str) : Prop := ∀ s : Str, (∀ c ∈ s, c.toNat < 128) → nfkd s = s
end Spec

namespace Metatab
open Py Spec

theorem mem_collapse {c : Char} : ∀ {b : Bool} {s : Str}, c ∈ collapse b s → c = '-' ∨ (c ∈ s ∧ isSpace c = false)
  | _, [], h => by simp [collapse] at h
  | b, d :: s, h => by
    unfold collapse at h
    split at h
    · cases b
      · simp at h
        rcases h with h | h
        · exact .inl h
        · rcases mem_collapse h with h | h
          · exact .inl h
          · exact .inr ⟨by simp [h.1], h.2⟩
      · simp at h
        rcases mem_collapse h with h | h
        · exact .inl h
        · exact .inr ⟨by simp [h.1], h.2⟩
    · rename_i hd
      simp at h
      rcases h with h | h
      · subst h; exact .inr ⟨by simp, by simp at hd; exact hd.2⟩
      · rcases mem_collapse h with h | h
        · exact .inl h
        · exact .inr ⟨by simp [h.1], h.2⟩

/-- **C03** (alphabet). A slug contains only lower-case ASCII letters, digits, `_`, `.` and `-`, whatever `nfkd` does. -/
theorem C03_chars (nfkd : Str → Str) (s : Str) : ∀ c ∈ slugify nfkd s, SlugChar c := by
  intro c hc
  rcases mem_collapse hc with h | ⟨h, hs⟩
  · exact .inr (.inr (.inr (.inr h)))
  · simp only [List.mem_filter, lower, List.mem_map] at h
    obtain ⟨⟨d, hd, rfl⟩, hk⟩ := h
    have hu : isUpper (lowerC d) = false := by
      have h1 := lowerC_idem d
      by_contra hu
      have hu : isUpper (lowerC d) = true := by simpa using hu
      have hr : (lowerC d).toNat ≤ 90 := by simp [isUpper] at hu; omega
      have h1 : Char.ofNat ((lowerC d).toNat + 32) = lowerC d := by
        have e : lowerC (lowerC d) = Char.ofNat ((lowerC d).toNat + 32) := if_pos hu
        rw [← e, h1]
      have := congrArg Char.toNat h1
      rw [toNat_ofNat_small (by omega)] at this
      omega
    simp only [slugKeep, hu, hs, Bool.false_or, Bool.or_false, Bool.or_eq_true, beq_iff_eq] at hk
    unfold SlugChar
    rcases hk with (((h | h) | h) | h) | h <;> simp [h]

/-- In a collapse that starts inside a run the first character is not a hyphen. -/
theorem collapse_true_head (s : Str) : ∀ c, (collapse true s).head? = some c → c ≠ '-' := by
  induction s with
  | nil => simp [collapse]
  | cons d s ih =>
    intro c h
    unfold collapse at h
    split at h
    · simp at h; exact ih c (by simpa using h)
    · rename_i hd
      simp at h hd; subst h; exact hd.1

theorem collapse_noDouble (b : Bool) (s : Str) : NoDoubleHyphen (collapse b s) := by
  induction s generalizing b with
  | nil => intro a c h; simp [collapse] at h
  | cons d s ih =>
    intro x y h
    unfold collapse at h
    split at h
    · cases b
      · simp at h
        cases x with
        | nil =>
          simp at h
          exact collapse_true_head s '-' (by rw [h]; rfl) rfl
        | cons e x => simp at h; exact ih true x y h.2
      · exact ih true x y (by simpa using h)
    · rename_i hd
      cases x with
      | nil => simp at h hd; exact hd.1 h.1
      | cons e x => simp at h; exact ih false x y h.2

/-- **C03** (no double hyphen). -/
theorem C03_noDoubleHyphen (nfkd : Str → Str) (s : Str) : NoDoubleHyphen (slugify nfkd s) := collapse_noDouble _ _

/-- A slug-shaped text is unchanged by `collapse`. -/
theorem collapse_fix (b : Bool) (s : Str) (hs : ∀ c ∈ s, isSpace c = false) (hd : NoDoubleHyphen s)
    (hb : b = true → s.head? ≠ some '-') : collapse b s = s := by
  induction s generalizing b with
  | nil => rfl
  | cons c s ih =>
    have hs' : ∀ c ∈ s, isSpace c = false := fun c h => hs c (by simp [h])
    have hd' : NoDoubleHyphen s := fun a e h => hd (c :: a) e (by simp [h])
    unfold collapse
    by_cases hc : c = '-'
    · subst hc
      have hbf : b = false := by
        cases b
        · rfl
        · exact absurd rfl (hb rfl)
      subst hbf
      simp
      refine ih true hs' hd' (fun _ h => ?_)
      cases s with
      | nil => simp at h
      | cons e s => simp at h; subst h; exact hd [] s rfl
    · have hsp : isSpace c = false := hs c (by simp)
      simp [hc, hsp]
      exact ih false hs' hd' (by simp)

theorem slugChar_space {c : Char} (h : SlugChar c) : isSpace c = false := by
  unfold SlugChar isLower isDigit at h
  rcases h with h | h | h | h | h
  · simp at h
    unfold isSpace; simp; omega
  · simp at h
    unfold isSpace; simp; omega
  all_goals (subst h; decide)

theorem slugChar_ascii {c : Char} (h : SlugChar c) : c.toNat < 128 := by
  unfold SlugChar isLower isDigit at h
  rcases h with h | h | h | h | h
  · simp at h; omega
  · simp at h; omega
  all_goals (subst h; decide)

theorem slugChar_lower {c : Char} (h : SlugChar c) : lowerC c = c := by
  unfold lowerC
  split
  · rename_i hu
    simp only [isUpper, SlugChar, isLower, isDigit] at hu h
    simp at hu
    rcases h with h | h | h | h | h
    · simp at h; omega
    · simp at h; omega
    all_goals (subst h; revert hu; decide)
  · rfl

theorem slugChar_keep {c : Char} (h : SlugChar c) : slugKeep c = true := by
  unfold SlugChar at h
  rcases h with h | h | h | h | h <;> simp [slugKeep, h]

theorem strip_eq_self_of {s : Str} (h : ∀ c ∈ s, isSpace c = false) : strip s = s := by
  unfold strip
  have h1 : lstrip s = s := by
    unfold lstrip
    rw [dropWhile_eq_self]
    intro a ha; exact h a (by cases s <;> simp_all)
  rw [h1]
  unfold rstrip
  have : s.reverse.dropWhile isSpace = s.reverse := by
    rw [dropWhile_eq_self]
    intro a ha
    exact h a (by have := List.mem_of_mem_head? ha; simpa using this)
  rw [this]; simp

/-- Any text made of slug characters without double hyphens is its own slug. -/
theorem slugify_fix {nfkd : Str → Str} (hn : AsciiStable nfkd) {s : Str} (hc : ∀ c ∈ s, SlugChar c) (hd : NoDoubleHyphen s) :
    slugify nfkd s = s := by
  unfold slugify
  rw [hn s (fun c h => slugChar_ascii (hc c h))]
  have h1 : s.filter isAscii = s := List.filter_eq_self.2 (fun c h => by simp [isAscii, slugChar_ascii (hc c h)])
  have h2 : strip s = s := strip_eq_self_of (fun c h => slugChar_space (hc c h))
  have h3 : lower s = s := by
    unfold lower
    exact (List.map_congr_left (g := id) (fun c h => slugChar_lower (hc c h))).trans (by simp)
  have h4 : s.filter slugKeep = s := List.filter_eq_self.2 (fun c h => slugChar_keep (hc c h))
  simp only [h1, h2, h3, h4]
  exact collapse_fix false s (fun c h => slugChar_space (hc c h)) hd (by simp)

/-- **C03** (stability). Slugifying a slug changes nothing. -/
theorem C03_idempotent {nfkd : Str → Str} (hn : AsciiStable nfkd) (s : Str) :
    slugify nfkd (slugify nfkd s) = slugify nfkd s :=
  slugify_fix hn (C03_chars nfkd s) (C03_noDoubleHyphen nfkd s)

/-- **C03** (fixed points). The slugs are exactly the texts of slug characters without double hyphens. -/
theorem C03_fixed_iff {nfkd : Str → Str} (hn : AsciiStable nfkd) (s : Str) :
    slugify nfkd s = s ↔ (∀ c ∈ s, SlugChar c) ∧ NoDoubleHyphen s :=
  ⟨fun h => ⟨h ▸ C03_chars nfkd s, h ▸ C03_noDoubleHyphen nfkd s⟩, fun h => slugify_fix hn h.1 h.2⟩

example : AsciiStable id := fun _ _ => rfl
example : slugify id (py!" Foo  Bar - 2.0!x ") = py!"foo-bar-2.0x" := by decide

end Metatab
