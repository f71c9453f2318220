import Verif.Props.Lookup
/-! # C92: deleting items of a section

`del section[item]` should remove the terms of that name. It never removes anything: the method it calls does not exist, and it only calls
it for terms whose name, as it was given to the term, is the item. -/
namespace Metatab
open Py _root_.Spec

theorem sectionDelItem_run (x : Nat) (item : Str) (s : St) : sectionDelItem x item s =
    if ((s.heap x).terms.any fun t => lower (s.heap t).raw == lower item) = true then .err (deleteTermError s x) s else .ok () s := by
  unfold sectionDelItem
  rw [bind_run, get_run]
  dsimp only
  split <;> rfl

/-- **C92** does not hold for any document: nothing is ever removed. -/
theorem C92_nothing (x : Nat) (item : Str) (s : St) : sectionDelItem x item s = .ok () s ∨ ∃ e, sectionDelItem x item s = .err e s := by
  rw [sectionDelItem_run]
  split
  · exact .inr ⟨_, rfl⟩
  · exact .inl rfl

/-- **C92**, when no term of the section has the name: the call returns and leaves the document as it was.

Missing for the full claim: any name that a term of the section has. -/
theorem C92_absent_partial {s : St} {x : Nat} {item : Str} (h : ∀ t ∈ (s.heap x).terms, lower (s.heap t).raw ≠ lower item) :
    sectionDelItem x item s = .ok () s := by
  rw [sectionDelItem_run, if_neg]
  intro ha
  obtain ⟨t, ht, e⟩ := List.any_eq_true.1 ha
  exact h t ht (eq_of_beq e)

/-- **C92.** When a term of the section was given the name, in any letter case, the call raises `AttributeError`; it raises `TypeError` exactly if the
section has a root-level term named `delete_term`. -/
theorem C92_fails {s : St} {x : Nat} {n : Str} (hx : (s.heap x).value = .str n) (hd : s.derived.get? (py!"delete_term") = none)
    (hs : ∀ t ∈ s.terms, Searchable s.heap t) {item : Str} {t : Nat} (ht : t ∈ (s.heap x).terms) (hn : lower (s.heap t).raw = lower item) :
    (sectionDelItem x item s = .err .typeError s ∧ ∃ u ∈ s.terms, Meets s.heap (py!"root", py!"delete_term") .fls (some [n]) u) ∨
    (sectionDelItem x item s = .err .attributeError s ∧ ∀ u ∈ s.terms, ¬ Meets s.heap (py!"root", py!"delete_term") .fls (some [n]) u) := by
  classical
  have hany : ((s.heap x).terms.any fun t => lower (s.heap t).raw == lower item) = true := List.any_eq_true.2 ⟨t, ht, beq_iff_eq.2 hn⟩
  rw [sectionDelItem_run, if_pos hany]
  unfold deleteTermError
  have key := fun r hr => sectionFindFirst_plain (r := r) hx (B := py!"delete_term") ⟨by decide, by decide, by decide⟩ hd hs .fls hr
  cases hh : s.terms.find? fun t => decide (Meets s.heap (py!"root", py!"delete_term") .fls (some [n]) t) with
  | none =>
    have hno : ∀ u ∈ s.terms, ¬ Meets s.heap (py!"root", py!"delete_term") .fls (some [n]) u := fun u hu => by
      simpa using List.find?_eq_none.1 hh u hu
    rw [key none hno]
    exact .inr ⟨rfl, hno⟩
  | some u =>
    obtain ⟨h1, pre, post, h2, h3⟩ := List.find?_eq_some_iff_append.1 hh
    have h1 : Meets s.heap (py!"root", py!"delete_term") .fls (some [n]) u := by simpa using h1
    rw [key (some u) ⟨pre, post, h2, h1, fun y hy => by simpa using h3 y hy⟩]
    exact .inl ⟨rfl, u, by rw [h2]; simp, h1⟩

/-- **C92** fails for a qualified name: the section has the term, and the call raises. -/
theorem C92_witness : sectionFindFirst lookDoc 2 (py!"Root.Creator") = .ok (some 3) ∧
    sectionDelItem 2 (py!"Root.Creator") lookDoc = .err .attributeError lookDoc := by
  refine ⟨by decide +kernel, ?_⟩
  rcases C92_fails (s := lookDoc) (x := 2) (n := py!"Contacts") (item := py!"Root.Creator") (t := 3) (by decide +kernel) (by decide +kernel)
    lookDoc_searchable (by decide +kernel) (by decide +kernel) with ⟨h, -⟩ | ⟨h, -⟩
  · have : (Res.val (sectionDelItem 2 (py!"Root.Creator") lookDoc)) = .error .attributeError := by decide +kernel
    rw [h] at this; cases this
  · exact h

/-- **C92** fails for a short name: `section['Creator']` is a term before and after `del section['Creator']`. -/
theorem C92_short_witness : sectionFindFirst lookDoc 2 (py!"Creator") = .ok (some 3) ∧ sectionDelItem 2 (py!"Creator") lookDoc = .ok () lookDoc :=
  ⟨by decide +kernel, C92_absent_partial (by decide +kernel)⟩

/-- A section with a term named `delete_term`. -/
def delDoc : St := exParse [[py!"Section", py!"Data"], [py!"Title", py!"x"], [py!"Delete_term", py!"y"]]

example : Res.val (sectionDelItem 1 (py!"ROOT.title") delDoc) = .error .typeError ∧ Res.val (sectionDelItem 1 (py!"Root.Titles") delDoc) = .ok () ∧
    (delDoc.heap 1).terms.length = 2 := by decide +kernel

end Metatab
