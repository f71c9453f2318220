import Verif.Model.Rows
import Verif.Props.Columns
import Verif.Lemmas.PlainFile
import Verif.Spec.Outline
/-! The names of written rows, and what they are read as. -/
namespace Metatab
open Py _root_.Spec

theorem replaceGo_nodot {n : Str} (h : '.' ∉ n) : replaceGo (py!"root.") [] 0 n = n := by
  induction n with
  | nil => rfl
  | cons c n ih =>
    unfold replaceGo
    rw [if_neg, ih fun hm => h (List.mem_cons_of_mem _ hm)]
    intro hp
    obtain ⟨u, hu⟩ := List.isPrefixOf_iff_prefix.1 hp
    refine h ?_
    rw [← hu]
    simp

theorem replaceGo_other {p n : Str} (hp : '.' ∉ p) (hn : '.' ∉ n) (hr : (py!"root").isSuffixOf p = false) :
    replaceGo (py!"root.") [] 0 (p ++ '.' :: n) = p ++ '.' :: n := by
  induction p with
  | nil =>
    simp only [List.nil_append]
    unfold replaceGo
    rw [if_neg (by simp), replaceGo_nodot hn]
  | cons c p ih =>
    rw [List.cons_append]
    unfold replaceGo
    rw [if_neg, ih fun hm => hp (List.mem_cons_of_mem _ hm)]
    · rw [Bool.eq_false_iff]
      intro h
      rw [Bool.eq_false_iff] at hr
      refine hr ?_
      rw [List.isSuffixOf_iff_suffix] at *
      exact h.trans (List.suffix_cons _ _)
    · intro h
      obtain ⟨u, hu⟩ := List.isPrefixOf_iff_prefix.1 h
      have : dotJoin (py!"root") u = dotJoin (c :: p) n := by
        unfold dotJoin; exact hu
      have := (dotJoin_left (by decide) hp this).1
      rw [← this] at hr
      revert hr
      decide

theorem titleGo_dot (b : Bool) (p n : Str) : titleGo b (p ++ '.' :: n) = titleGo b p ++ '.' :: titleGo false n := by
  induction p generalizing b with
  | nil => cases b <;> rfl
  | cons c p ih => simp only [List.cons_append, titleGo, ih]

theorem rowName_root {n : Str} (h : '.' ∉ n) : rowName (dotJoin (py!"root") n) = title n := by
  unfold rowName replace dotJoin
  congr 1
  show replaceGo (py!"root.") [] 0 ('r' :: 'o' :: 'o' :: 't' :: '.' :: n) = n
  unfold replaceGo
  rw [if_pos (by simp)]
  show [] ++ replaceGo (py!"root.") [] 4 ('o' :: 'o' :: 't' :: '.' :: n) = n
  simp only [replaceGo, List.nil_append]
  exact replaceGo_nodot h

theorem rowName_other {p n : Str} (hp : '.' ∉ p) (hn : '.' ∉ n) (hr : (py!"root").isSuffixOf p = false) :
    rowName (dotJoin p n) = title p ++ '.' :: title n := by
  unfold rowName replace dotJoin
  rw [replaceGo_other hp hn hr]
  exact titleGo_dot _ _ _

theorem dot_mem_title {n : Str} : '.' ∈ title n ↔ '.' ∈ n := by
  rw [← dot_mem_lower, lower_title, dot_mem_lower]

theorem title_eq_nil {n : Str} : title n = [] ↔ n = [] := by
  rw [← lower_eq_nil, lower_title, lower_eq_nil]

theorem head_title {n : Str} : (title n).head? = some '#' ↔ n.head? = some '#' := by
  cases n with
  | nil => simp [title, titleGo]
  | cons c n =>
    have h1 : lowerC (upperC c) = lowerC c := by
      have := lower_title [c]
      simpa [title, titleGo] using this
    simp only [title, titleGo, List.head?_cons, Option.some.injEq]
    have h2 := lowerC_eq_iff (c := upperC c) (d := '#') (by decide) (by decide)
    have h3 := lowerC_eq_iff (c := c) (d := '#') (by decide) (by decide)
    rw [h1] at h2
    simp only [Bool.false_eq_true, if_false]
    rw [← h2, h3]

theorem strip_head_mem {n : Str} (h : strip n = n) : ∀ a, n.head? = some a → isSpace a = false := by
  intro a ha
  have : lstrip n = n := by rw [← h, lstrip_strip]
  unfold lstrip at this
  cases n with
  | nil => cases ha
  | cons c n =>
    simp only [List.head?_cons, Option.some.injEq] at ha
    subst ha
    by_contra hs
    rw [Bool.not_eq_false] at hs
    rw [List.dropWhile_cons_of_pos hs] at this
    have := congrArg List.length this
    have := (List.dropWhile_suffix isSpace (l := n)).length_le
    simp_all
    omega

theorem strip_dot {p n : Str} (hp : strip p = p) (hn : strip n = n) (p0 : p ≠ []) (n0 : n ≠ []) :
    strip (p ++ '.' :: n) = p ++ '.' :: n := by
  have hl : lstrip (p ++ '.' :: n) = p ++ '.' :: n := by
    unfold lstrip
    rw [dropWhile_eq_self]
    intro a ha
    cases p with
    | nil => exact absurd rfl p0
    | cons c cs => exact strip_head_mem hp a ha
  unfold strip
  rw [hl]
  have hr : rstrip n = n := by rw [← hn]; unfold strip; exact rstrip_idem _
  have hr' : n.reverse.dropWhile isSpace = n.reverse := by
    unfold rstrip at hr
    rw [← List.reverse_eq_iff]
    exact hr
  unfold rstrip
  rw [List.reverse_eq_iff, dropWhile_eq_self]
  intro a ha
  refine (dropWhile_eq_self isSpace).1 hr' a ?_
  rw [List.reverse_append, List.reverse_cons] at ha
  cases hn' : n.reverse with
  | nil => exact absurd (List.reverse_eq_nil_iff.1 hn') n0
  | cons c cs => rw [hn'] at ha; exact ha

structure Clean (n : Str) : Prop where
  ord : ordinary n = true
  dot : '.' ∉ n
  strip : strip n = n
  low : lower n = n
  hash : n.head? ≠ some '#'

theorem clean_iff {n : Str} : cleanName n = true ↔ Clean n := by
  unfold cleanName
  simp only [Bool.and_eq_true, Bool.not_eq_true', decide_eq_true_eq]
  constructor
  · rintro ⟨⟨⟨⟨h1, h2⟩, h3⟩, h4⟩, h5⟩
    exact ⟨h1, by simpa using h2, h3, h4, h5⟩
  · rintro ⟨h1, h2, h3, h4, h5⟩
    exact ⟨⟨⟨⟨h1, by simpa using h2⟩, h3⟩, h4⟩, h5⟩

theorem ordinary_facts {n : Str} (h : ordinary n = true) : n ≠ [] ∧ n ≠ py!"section" ∧ n ≠ py!"root" ∧ n ≠ py!"header" ∧ n ≠ py!"<elided_term>" := by
  refine ⟨?_, ?_, ?_, ?_, ?_⟩ <;> rintro rfl <;> revert h <;> decide

/-- A written row is read as a row of the same name. -/
theorem kind_rowName {p n : Str} (hn : Clean n) (hpn : p ≠ n) (hp : p = py!"root" ∨ (Clean p ∧ (py!"root").isSuffixOf p = false))
    (rest : List Str) : kind (rowName (dotJoin p n) :: rest) = .named p n := by
  obtain ⟨o1, o2, o3, o4, o5⟩ := ordinary_facts hn.ord
  have tn : lower (Py.strip (title n)) = n := by rw [strip_title hn.strip, lower_title, hn.low]
  rcases hp with rfl | ⟨hp, hr⟩
  · rw [rowName_root hn.dot]
    unfold kind
    simp only
    rw [if_neg]
    · have : cellNames (title n) = some (py!"root", n) := by
        unfold cellNames
        rw [splitOn_not_mem (by rw [dot_mem_title]; exact hn.dot)]
        simp only
        rw [strip_title hn.strip, lower_title, hn.low]
      rw [this]
      simp only
      rw [if_neg (by simp [o2]), if_neg (by simp [o4]), if_pos ⟨hn.ord, hpn, by decide⟩, if_neg (by decide)]
    · rw [strip_title hn.strip, title_eq_nil, head_title]
      rintro (h | h)
      · exact o1 h
      · exact hn.hash h
  · obtain ⟨q1, q2, q3, q4, q5⟩ := ordinary_facts hp.ord
    rw [rowName_other hp.dot hn.dot hr]
    have hc : cellNames (title p ++ '.' :: title n) = some (p, n) := by
      unfold cellNames
      rw [splitOn_append_sep (by rw [dot_mem_title]; exact hp.dot), splitOn_not_mem (by rw [dot_mem_title]; exact hn.dot)]
      simp only
      rw [strip_title hn.strip, strip_title hp.strip, lower_title, lower_title, hn.low, hp.low]
    have hh : (Py.strip (title p ++ '.' :: title n)).head? = (title p).head? := by
      rw [strip_dot (strip_title hp.strip) (strip_title hn.strip) (by rw [Ne, title_eq_nil]; exact q1) (by rw [Ne, title_eq_nil]; exact o1)]
      cases ht : title p with
      | nil => exact absurd (title_eq_nil.1 ht) q1
      | cons c cs => rfl
    unfold kind
    simp only
    rw [if_neg]
    · rw [hc]
      simp only
      rw [if_neg (by simp [q3]), if_neg (by simp [q3]), if_pos ⟨hn.ord, hpn, q5⟩, if_neg q1]
    · rintro (h | h)
      · rw [h] at hh
        have : title p = [] := by
          cases ht : title p with
          | nil => rfl
          | cons c cs => rw [ht] at hh; cases hh
        exact q1 (title_eq_nil.1 this)
      · rw [hh, head_title] at h
        exact hp.hash h

end Metatab
