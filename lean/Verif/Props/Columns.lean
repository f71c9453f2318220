import Verif.Lemmas.Monad
import Verif.Model.DocOps
import Verif.Lemmas.Str
/-! # C23: section columns -/
namespace Metatab
open Py

theorem lowerC_upperC (c : Char) : lowerC (upperC c) = lowerC c := by
  unfold upperC
  split
  · rename_i h
    simp only [isLower, Bool.and_eq_true, decide_eq_true_eq] at h
    have e : (Char.ofNat (c.toNat - 32)).toNat = c.toNat - 32 := toNat_ofNat_small (by omega)
    have h1 : isUpper (Char.ofNat (c.toNat - 32)) = true := by simp [isUpper, e]; omega
    have h2 : isUpper c = false := by simp [isUpper]; omega
    simp only [lowerC, h1, h2, if_true, e]
    have : c.toNat - 32 + 32 = c.toNat := by omega
    rw [this]; simp
  · rfl

theorem isSpace_upperC (c : Char) : isSpace (upperC c) = isSpace c := by
  rw [← isSpace_lowerC, lowerC_upperC, isSpace_lowerC]

theorem lower_titleGo (b : Bool) (s : Str) : lower (titleGo b s) = lower s := by
  induction s generalizing b with
  | nil => rfl
  | cons c s ih =>
    simp only [titleGo, lower_cons, ih]
    cases b <;> simp [lowerC_upperC, lowerC_idem]

theorem lower_title (s : Str) : lower (title s) = lower s := lower_titleGo false s

/-- Title case keeps a name free of outer blanks. -/
theorem strip_title {s : Str} (h : strip s = s) : strip (title s) = title s := by
  have hl : (lower (title s)).length = (strip (lower (title s))).length := by rw [lower_title, strip_lower, h]
  rw [strip_lower] at hl
  simp only [length_lower] at hl
  have hsub : ∀ t : Str, (strip t).Sublist t := by
    intro t
    unfold strip rstrip lstrip
    have h1 : (List.dropWhile isSpace t).Sublist t := List.dropWhile_sublist _
    have h2 := (List.dropWhile_sublist (l := (List.dropWhile isSpace t).reverse) isSpace).reverse
    rw [List.reverse_reverse] at h2
    exact h2.trans h1
  exact (hsub (title s)).eq_of_length hl.symm

namespace Spec
/-- The columns a list of column cells stands for: outer blanks dropped, blank cells left out. -/
def cols (args : List Str) : List Str := (args.map strip).filter (· ≠ [])
end Spec
open Spec

theorem cleanArgs_eq (args : List Str) : cleanArgs args = cols args := rfl

theorem cols_cols (args : List Str) : cols (cols args) = cols args := by
  unfold cols
  have : ((args.map strip).filter (· ≠ [])).map strip = (args.map strip).filter (· ≠ []) := by
    conv_rhs => rw [← List.map_id ((args.map strip).filter (· ≠ []))]
    apply List.map_congr_left
    intro a ha
    obtain ⟨b, _, rfl⟩ := List.mem_map.1 (List.mem_filter.1 ha).1
    simp
  rw [this, List.filter_filter]; simp

/-- **C23** `add_arg` changes only the column list of the section. The column is present afterwards, ignoring case. All other columns are
as before; if the column was present, nothing but the dropping of blanks happens; otherwise it is added at the end, or at the front on
request. -/
theorem C23_add (s : St) (x : Nat) (a : Str) (pre : Bool) :
    ∃ l, addArg x a pre s = .ok () (s.setObj x { s.heap x with args := l }) ∧
      (∃ c ∈ l, lower c = lower a) ∧
      l.filter (fun c => lower c ≠ lower a) = (cols (s.heap x).args).filter (fun c => lower c ≠ lower a) ∧
      ((∃ c ∈ cols (s.heap x).args, lower c = lower a) → l = cols (s.heap x).args) ∧
      ((∀ c ∈ cols (s.heap x).args, lower c ≠ lower a) →
        ∃ c, lower c = lower a ∧ l = if pre then c :: cols (s.heap x).args else cols (s.heap x).args ++ [c]) := by
  refine ⟨addArgList (s.heap x).args a pre, by simp [addArg], ?_⟩
  unfold addArgList
  simp only [cleanArgs_eq]
  by_cases h : lower a ∈ (cols (s.heap x).args).map lower
  · obtain ⟨c, hc, e⟩ := List.mem_map.1 h
    simp only [h, not_true_eq_false, if_false]
    exact ⟨⟨c, hc, e⟩, trivial, fun _ => trivial, fun hn => absurd e (hn c hc)⟩
  · simp only [h, not_false_eq_true, if_true]
    refine ⟨?_, ?_, ?_, ?_⟩
    · cases pre
      · exact ⟨title a, by simp, lower_title a⟩
      · exact ⟨title a, by simp, lower_title a⟩
    · cases pre <;> simp [lower_title]
    · rintro ⟨c, hc, e⟩; exact absurd (List.mem_map.2 ⟨c, hc, e⟩) h
    · intro _; exact ⟨title a, lower_title a, rfl⟩

/-- **C23** Adding a (non-empty, stripped) column again changes nothing. -/
theorem C23_add_idempotent (s : St) (x : Nat) {a : Str} (ha : strip a = a) (hne : a ≠ []) (pre pre' : Bool) {s' : St}
    (h : addArg x a pre s = .ok () s') : addArg x a pre' s' = .ok () s' := by
  simp only [addArg, upd_run, Res.ok.injEq, true_and] at h ⊢
  subst h
  have ht : title a ≠ [] := by
    intro e; have := lower_title a; rw [e] at this; simp at this; exact hne this
  have key : addArgList (addArgList (s.heap x).args a pre) a pre' = addArgList (s.heap x).args a pre := by
    have hc : cols (addArgList (s.heap x).args a pre) = addArgList (s.heap x).args a pre := by
      unfold addArgList
      simp only [cleanArgs_eq]
      have cc := cols_cols (s.heap x).args
      have e1 : ∀ b l, cols (b :: l) = if strip b ≠ [] then strip b :: cols l else cols l := by
        intro b l; simp only [cols, List.map_cons, List.filter_cons]; simp
      have e2 : ∀ l b, cols (l ++ [b]) = cols l ++ if strip b ≠ [] then [strip b] else [] := by
        intro l b; simp only [cols, List.map_append, List.filter_append, List.map_cons, List.map_nil, List.filter_cons]; simp
      by_cases h : lower a ∈ (cols (s.heap x).args).map lower
      · simp only [h, not_true_eq_false, if_false, cc]
      · simp only [h, not_false_eq_true, if_true]
        cases pre
        · simp only [Bool.false_eq_true, if_false, e2, cc, strip_title ha, ne_eq, ht, not_false_eq_true, if_true]
        · simp only [if_true, e1, cc, strip_title ha, ne_eq, ht, not_false_eq_true]
    have hp : lower a ∈ (addArgList (s.heap x).args a pre).map lower := by
      obtain ⟨l, e, ⟨c, hc, ec⟩, _⟩ := C23_add s x a pre
      simp only [addArg, upd_run, Res.ok.injEq, true_and] at e
      have : l = addArgList (s.heap x).args a pre := by
        have := congrArg (fun s : St => (s.heap x).args) e
        simpa using this.symm
      subst this
      exact List.mem_map.2 ⟨c, hc, ec⟩
    rw [addArgList]
    simp only [cleanArgs_eq, hc, hp, not_true_eq_false, if_false]
  unfold St.setObj
  congr 1
  funext j
  by_cases hj : j = x
  · subst hj; simp [key]
  · simp [hj]

/-- A column given with outer blanks is not recognised the next time, so that adding it twice gives two columns. -/
theorem C23_blank_witness :
    addArgList (addArgList [] (py!" unit") false) (py!" unit") false = [py!"Unit", py!" Unit"] := by decide

theorem foldl_erase_cons {α : Type} [BEq α] [LawfulBEq α] (a : α) (ms l : List α) (h : a ∉ ms) :
    ms.foldl (fun acc e => acc.erase e) (a :: l) = a :: ms.foldl (fun acc e => acc.erase e) l := by
  induction ms generalizing l with
  | nil => rfl
  | cons m ms ih =>
    simp only [List.mem_cons, not_or] at h
    simp only [List.foldl_cons]
    rw [List.erase_cons_tail (by simpa using h.1), ih _ h.2]

theorem foldl_erase_filter {α : Type} [BEq α] [LawfulBEq α] (p : α → Bool) (l : List α) :
    (l.filter p).foldl (fun acc e => acc.erase e) l = l.filter fun e => !p e := by
  induction l with
  | nil => rfl
  | cons a l ih =>
    by_cases h : p a
    · simp only [List.filter_cons, h, if_true, List.foldl_cons, List.erase_cons_head, Bool.not_true]
      exact ih
    · simp only [List.filter_cons, h, Bool.not_false, if_true]
      rw [if_neg (by simp)]
      rw [foldl_erase_cons _ _ _ (by simp [h]), ih]

/-- **C23** `remove_arg` changes only the column list of the section and leaves exactly the columns with another name, in order. -/
theorem C23_remove (s : St) (x : Nat) (a : Str) :
    removeArg x a s =
      .ok () (s.setObj x { s.heap x with args := (cols (s.heap x).args).filter fun c => lower c ≠ lower a }) := by
  simp only [removeArg, upd_run, removeArgList, foldl_erase_filter, cleanArgs_eq]
  simp only [decide_not]

/-- Both on a section with a blank and a padded column. -/
example : addArgList [py!"Name", [], py!" Type "] (py!"description") false = [py!"Name", py!"Type", py!"Description"] ∧
    removeArgList [py!"Name", [], py!" Type ", py!"NAME"] (py!"name") = [py!"Type"] := by decide

end Metatab
