import Verif.Model.Names
import Verif.Spec.Names
import Verif.Lemmas.Str
/-! # C01, C02: term names -/
namespace Metatab
open Py Spec

/-- Splitting a dot-free name. -/
theorem splitTerm_nodot {s : Str} (h : '.' ∉ s) : splitTerm s = .ok (ROOT, strip s) := by simp [splitTerm, h]

/-- Splitting a name with one dot. -/
theorem splitTerm_dot {p r : Str} (hp : '.' ∉ p) (hr : '.' ∉ r) :
    splitTerm (p ++ '.' :: r) = .ok (if strip p = [] then ELIDED else strip p, strip r) := by
  simp [splitTerm, splitOn_append_sep hp, splitOn_not_mem hr]

theorem normalizeTerm_nodot {s : Str} (h : '.' ∉ s) : normalizeTerm s = .ok (ROOT ++ '.' :: lower (strip s)) := by
  simp only [normalizeTerm, splitTermLower, splitTerm_nodot h]
  rfl

theorem normalizeTerm_dot {p r : Str} (hp : '.' ∉ p) (hr : '.' ∉ r) :
    normalizeTerm (p ++ '.' :: r) =
      .ok (lower (if strip p = [] then ELIDED else strip p) ++ '.' :: lower (strip r)) := by
  simp only [normalizeTerm, splitTermLower, splitTerm_dot hp hr]
  rfl

/-- Every string has no dot, exactly one dot, or is not split into two parts. -/
theorem dot_cases (s : Str) :
    ('.' ∉ s ∧ s.count '.' = 0) ∨ (∃ p r, s = p ++ '.' :: r ∧ '.' ∉ p ∧ '.' ∉ r ∧ s.count '.' = 1) ∨
    (2 ≤ s.count '.' ∧ '.' ∈ s ∧ ∀ p r, splitOn '.' s ≠ [p, r]) := by
  by_cases h : '.' ∈ s
  · have hc : 0 < s.count '.' := List.count_pos_iff.2 h
    have hl := length_splitOn '.' s
    match hs : splitOn '.' s with
    | [] => exact absurd hs (splitOn_ne_nil _ _)
    | [a] => rw [hs] at hl; simp at hl; omega
    | [p, r] =>
      rw [hs] at hl; simp at hl
      obtain ⟨e, h1, h2⟩ := split_pair hs
      exact .inr (.inl ⟨p, r, e, h1, h2, by omega⟩)
    | a :: b :: c :: t =>
      rw [hs] at hl; simp at hl
      exact .inr (.inr ⟨by omega, h, by simp⟩)
  · exact .inl ⟨h, List.count_eq_zero.2 h⟩

/-- **C01** (acceptance). A name is accepted exactly when it has at most one dot; otherwise `ValueError` is raised. -/
theorem C01_accepts (s : Str) :
    (s.count '.' ≤ 1 → ∃ n, normalizeTerm s = .ok n) ∧ (2 ≤ s.count '.' → normalizeTerm s = .error .valueError) := by
  rcases dot_cases s with ⟨h, hc⟩ | ⟨p, r, rfl, hp, hr, hc⟩ | ⟨hc, hm, h⟩
  · exact ⟨fun _ => ⟨_, normalizeTerm_nodot h⟩, fun _ => by omega⟩
  · exact ⟨fun _ => ⟨_, normalizeTerm_dot hp hr⟩, fun _ => by omega⟩
  · refine ⟨fun _ => by omega, fun _ => ?_⟩
    have : splitTerm s = .error .valueError := by
      simp only [splitTerm, hm, if_true]
    simp only [normalizeTerm, splitTermLower, this]
    rfl

/-- **C01** (canonical form). A dot-free name `r` means `root.r`; the parts are stripped and lower-cased; an empty parent part
(a row starting with a dot) becomes the elided-parent marker. -/
theorem C01_form {p r : Str} (hp : '.' ∉ p) (hr : '.' ∉ r) :
    normalizeTerm r = .ok (py!"root" ++ '.' :: lower (strip r)) ∧
    (strip p ≠ [] → normalizeTerm (p ++ '.' :: r) = .ok (lower (strip p) ++ '.' :: lower (strip r))) ∧
    (strip p = [] → normalizeTerm (p ++ '.' :: r) = .ok (py!"<elided_term>" ++ '.' :: lower (strip r))) := by
  refine ⟨normalizeTerm_nodot hr, fun h => ?_, fun h => ?_⟩
  · rw [normalizeTerm_dot hp hr]; simp [h]
  · rw [normalizeTerm_dot hp hr]; simp only [h, if_true]; rfl

/-- **C01** (insensitivity). Two spellings whose parts differ only in case and outer blanks normalise to the same name. -/
theorem C01_insensitive {p r p' r' : Str} (hp : '.' ∉ p) (hr : '.' ∉ r) (hp' : '.' ∉ p') (hr' : '.' ∉ r')
    (ep : SamePart p p') (er : SamePart r r') :
    normalizeTerm r = normalizeTerm r' ∧ normalizeTerm (p ++ '.' :: r) = normalizeTerm (p' ++ '.' :: r') := by
  unfold SamePart at ep er
  refine ⟨by rw [normalizeTerm_nodot hr, normalizeTerm_nodot hr', er], ?_⟩
  have hz : strip p = [] ↔ strip p' = [] := by
    rw [← lower_eq_nil, ep, lower_eq_nil]
  rw [normalizeTerm_dot hp hr, normalizeTerm_dot hp' hr', er]
  by_cases h : strip p = []
  · simp [h, hz.1 h]
  · simp [h, (not_congr hz).1 h, ep]

theorem strip_ELIDED : strip (lower ELIDED) = ELIDED ∧ lower ELIDED = ELIDED := by decide
theorem strip_ROOT : strip ROOT = ROOT ∧ lower ROOT = ROOT := by decide

/-- **C01** (idempotence). Normalising a normalised name changes nothing. -/
theorem C01_idempotent {s n : Str} (h : normalizeTerm s = .ok n) : normalizeTerm n = .ok n := by
  have key : ∀ {P R : Str}, '.' ∉ P → '.' ∉ R → strip P = P → lower P = P → P ≠ [] →
      normalizeTerm (P ++ '.' :: lower (strip R)) = .ok (P ++ '.' :: lower (strip R)) := by
    intro P R hP hR h1 h2 h3
    have hR' : '.' ∉ lower (strip R) := fun h => hR (mem_strip (dot_mem_lower.1 h))
    rw [normalizeTerm_dot hP hR', h1, if_neg h3, h2]; simp
  rcases dot_cases s with ⟨hs, hc⟩ | ⟨p, r, rfl, hp, hr, hc⟩ | ⟨hc, hm, hh⟩
  · rw [normalizeTerm_nodot hs] at h
    cases h
    exact key (by decide) hs strip_ROOT.1 strip_ROOT.2 (by decide)
  · rw [normalizeTerm_dot hp hr] at h
    cases h
    by_cases hz : strip p = []
    · rw [if_pos hz]
      exact key (by decide) hr (by decide) (by decide) (by decide)
    · rw [if_neg hz]
      exact key (fun h => hp (mem_strip (dot_mem_lower.1 h))) hr (by simp) (by simp) (by simpa using hz)
  · rw [(C01_accepts s).2 hc] at h; cases h

/-- The hypotheses are met by realistic names, and the result is the expected one. -/
example : normalizeTerm (py!" Table.Column ") = .ok (py!"table.column") ∧
    normalizeTerm (py!"a.b.c") = .error .valueError ∧ normalizeTerm (py!".Name") = .ok (py!"<elided_term>.name") := by decide
example : SamePart (py!" Table") (py!"tABLE ") ∧ '.' ∉ py!" Table" := by unfold SamePart; decide

theorem dotJoin_inj {a b c d : Str} (hc : '.' ∉ c) (hd : '.' ∉ d) :
    dotJoin a b = dotJoin c d ↔ a = c ∧ b = d := by
  constructor
  · intro h
    unfold dotJoin at h
    have hs : splitOn '.' (a ++ '.' :: b) = [c, d] := by
      rw [h, splitOn_append_sep hc, splitOn_not_mem hd]
    by_cases ha : '.' ∈ a
    · have hl := length_splitOn '.' (a ++ '.' :: b)
      rw [hs] at hl
      have := List.count_pos_iff.2 ha
      simp at hl; omega
    · rw [splitOn_append_sep ha] at hs
      simp at hs
      refine ⟨hs.1, ?_⟩
      have hj := join_splitOn '.' b
      rw [hs.2] at hj; simpa [join] using hj.symm
  · rintro ⟨rfl, rfl⟩; rfl

theorem plain_star_lower {A : Str} : lower A = ['*'] ↔ A = ['*'] := by
  constructor
  · intro h
    match A, h with
    | [], h => simp at h
    | [c], h =>
      simp at h
      rw [lowerC_eq_iff (by decide) (by decide)] at h; rw [h]
    | _ :: _ :: _, h => simp at h
  · rintro rfl; decide

/-- **C02** (qualified pattern). `term_is('A.B')` on a term `P.R` is exactly wildcard matching of both parts, ignoring case. -/
theorem C02_qualified (P R : Str) {A B : Str} (hA : PlainPart A) (hB : PlainPart B) :
    termIs P R (A ++ '.' :: B) = .ok (decide (PartMatches A P ∧ PartMatches B R)) := by
  have hsplit : splitTermLower (A ++ '.' :: B) = .ok (lower A, lower B) := by
    simp only [splitTermLower, splitTerm_dot hA.nodot hB.nodot, hA.stripped, hB.stripped, if_neg hA.nonempty]
    rfl
  have hm : ¬ ('.' ∉ (A ++ '.' :: B)) := by simp
  have hinj : (dotJoin (lower P) (lower R) = lower (A ++ '.' :: B)) ↔ lower P = lower A ∧ lower R = lower B := by
    have : lower (A ++ '.' :: B) = dotJoin (lower A) (lower B) := by simp [dotJoin]; decide
    rw [this, dotJoin_inj (by simpa using hA.nodot) (by simpa using hB.nodot)]
  simp only [termIs, hm, if_false, hsplit, bind, Except.bind, hinj, plain_star_lower, PartMatches, pure, Except.pure]
  by_cases h1 : A = ['*'] <;> by_cases h2 : B = ['*'] <;> by_cases h3 : lower P = lower A <;>
    by_cases h4 : lower R = lower B <;> simp_all [eq_comm]

/-- **C02** (unqualified pattern). `term_is('B')` means `term_is('root.B')`. -/
theorem C02_unqualified (P R : Str) {B : Str} (hB : PlainPart B) :
    termIs P R B = .ok (decide (lower P = py!"root" ∧ PartMatches B R)) := by
  have h := C02_qualified P R (A := ROOT) (B := B) ⟨by decide, by decide, by decide⟩ hB
  have e : termIs P R B = termIs P R (ROOT ++ '.' :: B) := by
    simp [termIs, hB.nodot, dotJoin]
  rw [e, h]
  congr 1
  have : PartMatches ROOT P ↔ lower P = py!"root" := by
    unfold PartMatches
    have e1 : lower ROOT = py!"root" := by decide
    have e2 : ¬ (ROOT = ['*']) := by decide
    rw [e1]; simp only [e2, false_or]
    exact eq_comm
  simp [this]

/-- **C02** (list of patterns). A list matches exactly when one of its patterns does. -/
theorem C02_list (P R : Str) (pats : List (Str × Str)) (h : ∀ q ∈ pats, PlainPart q.1 ∧ PlainPart q.2) :
    termIsAny P R (pats.map fun q => q.1 ++ '.' :: q.2) =
      .ok (decide (∃ q ∈ pats, PartMatches q.1 P ∧ PartMatches q.2 R)) := by
  induction pats with
  | nil => simp [termIsAny]
  | cons q pats ih =>
    have hq := h q (by simp)
    have ih := ih (fun q hq => h q (by simp [hq]))
    simp only [List.map_cons, termIsAny, C02_qualified P R hq.1 hq.2, ih, bind, Except.bind, pure, Except.pure]
    by_cases hm : PartMatches q.1 P ∧ PartMatches q.2 R <;> simp [hm]

/-- **C02** (case). Matching ignores the case of the term's own name parts. -/
theorem C02_case (P R v : Str) : termIs (lower P) (lower R) v = termIs P R v := by
  simp [termIs]

example : PlainPart (py!"Table") ∧ PlainPart (py!"*") := ⟨⟨by decide, by decide, by decide⟩, ⟨by decide, by decide, by decide⟩⟩
/-- Outside the hypothesis (blanks around a part) the exact comparison fails although the names are the same. -/
theorem C02_blank_pattern_missed : termIs (py!"root") (py!"name") (py!"Root. Name") = .ok false := by decide

end Metatab
