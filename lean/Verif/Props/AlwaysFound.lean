import Verif.Props.FindAlways
import Verif.Props.FindOrderly
import Verif.Props.DelItem
import Verif.Props.Cli
/-! # Searches, without hypotheses about the terms

What the calls that search a document do, in every document made by calls that take no section away (C17, C73), and in every orderly document
(C64, C65, C92), where every term has a section with a name. -/
namespace Metatab
open Py _root_.Spec

theorem reach_any {allow : Op → Prop} {s : St} (h : Reach allow s) : Reach (fun _ => True) s := by
  induction h with
  | new env cl => exact .new env cl
  | @step s op _ _ hv ih => exact .step op ih trivial hv

theorem orderly_reach {s : St} (h : OrderlyHistory s) : Reach (fun _ => True) s := by
  induction h with
  | new env cl => exact .new env cl
  | @step s op _ hv _ ih => exact .step op ih trivial hv

/-- **C17** in every document made by calls that do not set the section of a term to `None`: after `new_term`, a search for the name finds what it
found before, followed by the new term. -/
theorem C17_always {allow : Op → Prop} {s : St} (h : Reach allow s) (hU : ∀ op, allow op → op.keepsSection) {x : Nat} {n : Str}
    (hx : Registered s x n) {B : Str} (hB : PlainPart B) (hc : (docTermClass s (lower B)).isSection = false)
    (htv : lower (newTvn s x B) ∉ reservedTvn) (v : Val) (hr : lower B ≠ py!"root") (hd : s.derived.get? (lower B) = none) :
    ∃ s' l, newTerm x B v [] s = .ok s.next s' ∧ find s B = .ok l ∧ find s' B = .ok (l ++ [s.next]) :=
  C17_found (reach_any h) hx hB hc htv v hr hd (reach_searchable h hU)

/-- **C73** in every document made by calls that do not set the section of a term to `None`: `get_table` gives the first table of the name. -/
theorem C73_always {allow : Op → Prop} {s : St} (h : Reach allow s) (hU : ∀ op, allow op → op.keepsSection)
    (hd : s.derived.get? (py!"root.table") = none) (name : Str) (t : Nat) :
    getTable s name = .found t ↔ ∃ pre post, s.terms = pre ++ t :: post ∧ Meets s.heap (py!"Root", py!"Table") (.str name) none t ∧
      ∀ u ∈ pre, ¬ Meets s.heap (py!"Root", py!"Table") (.str name) none u :=
  C73_found hd (reach_searchable h hU) name t

/-- **C64** in orderly documents: `section.find_first` gives the first root-level term of the name and value whose section has this section's
name, or `None` if there is none; the name may be given with or without `Root.`. -/
theorem C64_orderly {s : St} (h : OrderlyHistory s) {x : Nat} {n : Str} (hx : (s.heap x).value = .str n) {B : Str} (hB : PlainPart B) (value : Val) :
    ∃ r, sectionFindFirst s x B value = .ok r ∧ sectionFindFirst s x (dotJoin (py!"Root") B) value = .ok r ∧
      (∀ t, r = some t ↔ FirstIs s.terms (Meets s.heap (py!"root", B) value (some [n])) t) ∧
      (r = none ↔ ∀ t ∈ s.terms, ¬ Meets s.heap (py!"root", B) value (some [n]) t) := by
  classical
  obtain ⟨h1, h2⟩ := orderly_searchable h
  have hM : ∀ t, Meets s.heap (py!"Root", B) value (some [n]) t ↔ Meets s.heap (py!"root", B) value (some [n]) t := by
    intro t
    unfold Meets NameMatches PartMatches
    have e : lower (py!"Root", B).1 = lower (py!"root", B).1 := show lower (py!"Root") = lower (py!"root") by decide
    have e1 : (py!"Root", B).1 ≠ py!"*" := show py!"Root" ≠ py!"*" by decide
    have e2 : (py!"root", B).1 ≠ py!"*" := show py!"root" ≠ py!"*" by decide
    simp only [e, e1, e2]
  have e1 : sectionFindFirst s x B value = .ok (s.terms.find? fun t => decide (Meets s.heap (py!"root", B) value (some [n]) t)) := by
    unfold sectionFindFirst findFirst
    rw [hx]
    dsimp only
    rw [(C11_orderly h hB value (some [n])).1]
    show Except.ok _ = _
    rw [List.head?_filter]
  have e2 : sectionFindFirst s x (dotJoin (py!"Root") B) value =
      .ok (s.terms.find? fun t => decide (Meets s.heap (py!"root", B) value (some [n]) t)) := by
    unfold sectionFindFirst findFirst
    rw [hx]
    dsimp only
    rw [(C11_orderly h hB value (some [n])).2]
    show Except.ok _ = _
    rw [List.head?_filter]
    simp only [hM]
  refine ⟨_, e1, e2, fun t => ?_, ?_⟩
  · rw [List.find?_eq_some_iff_append]
    constructor
    · rintro ⟨k1, pre, post, k2, k3⟩
      exact ⟨pre, post, k2, by simpa using k1, fun y hy => by simpa using k3 y hy⟩
    · rintro ⟨pre, post, k2, k1, k3⟩
      exact ⟨by simpa using k1, pre, post, k2, fun y hy => by simpa using k3 y hy⟩
  · rw [List.find?_eq_none]
    simp

/-- **C65** in orderly documents: `section[name] = value` either gives the first term of the section with that name and value the value, and
changes nothing else, or, if there is none, adds one new term with the name and value and changes nothing else. -/
theorem C65_orderly_partial {s : St} (h : OrderlyHistory s) {x : Nat} {n : Str} (hx : Registered s x n) {B : Str} (hB : PlainPart B)
    (hc : (docTermClass s (lower B)).isSection = false) (htv : lower (newTvn s x B) ∉ reservedTvn) {v : Val} (hv : v ≠ .none) :
    (∃ t, FirstIs s.terms (Meets s.heap (py!"root", B) v (some [n])) t ∧ setItemAny x B v s = .ok () (withValue s t v)) ∨
    ((∀ t ∈ s.terms, ¬ Meets s.heap (py!"root", B) v (some [n]) t) ∧
      setItemAny x B v s = .ok () (withTerm s x (newObj s x (docTermClass s (lower B)) B B v))) := by
  obtain ⟨h1, h2⟩ := orderly_searchable h
  have hd : s.derived.get? (lower B) = none := by rw [h1]; rfl
  obtain ⟨r, -, -, k1, k2⟩ := C64_orderly h hx.value hB v
  cases r with
  | some t => exact .inl ⟨t, (k1 t).1 rfl, C65_found hx.cls hx.value hB hv hd h2 ((k1 t).1 rfl)⟩
  | none => exact .inr ⟨k2.1 rfl, C65_new_partial (orderly_reach h) hx hB hc htv v hd h2 (k2.1 rfl)⟩

/-- **C92** in orderly documents: for a name that a term of the section was given, the call always raises and the document stays as it was. -/
theorem C92_orderly {s : St} (h : OrderlyHistory s) {x : Nat} {n : Str} (hx : (s.heap x).value = .str n) {item : Str} {t : Nat}
    (ht : t ∈ (s.heap x).terms) (hn : lower (s.heap t).raw = lower item) :
    (sectionDelItem x item s = .err .typeError s ∧ ∃ u ∈ s.terms, Meets s.heap (py!"root", py!"delete_term") .fls (some [n]) u) ∨
    (sectionDelItem x item s = .err .attributeError s ∧ ∀ u ∈ s.terms, ¬ Meets s.heap (py!"root", py!"delete_term") .fls (some [n]) u) := by
  obtain ⟨h1, h2⟩ := orderly_searchable h
  exact C92_fails hx (by rw [h1]; rfl) h2 ht hn

/-! ## Examples -/

example : Registered agDoc 2 (py!"Contacts") := ⟨by decide +kernel, by decide +kernel, by decide +kernel, by decide +kernel⟩
example : Registered lookDoc 2 (py!"Contacts") ∧ Reach Op.keepsSection lookDoc :=
  ⟨⟨by decide +kernel, by decide +kernel, by decide +kernel, by decide +kernel⟩, exParse_reach _ trivial⟩

/-- A section finds its own creator, under both names, and not the title, which belongs to the root. -/
example : ∃ t, sectionFindFirst agDoc 2 (py!"Root.Creator") = .ok (some t) ∧ sectionFindFirst agDoc 2 (py!"Title") = .ok none ∧
    FirstIs agDoc.terms (Meets agDoc.heap (py!"root", py!"Creator") .fls (some [py!"Contacts"])) t := by
  have hv : (agDoc.heap 2).value = .str (py!"Contacts") := by decide +kernel
  obtain ⟨r, h1, h2, h3, -⟩ := C64_orderly ag_orderly (x := 2) hv (B := py!"Creator") ⟨by decide, by decide, by decide⟩ .fls
  have e : sectionFindFirst agDoc 2 (py!"Creator") = .ok (some 3) := by decide +kernel
  rw [e] at h1
  cases h1
  exact ⟨3, h2, by decide +kernel, (h3 3).1 rfl⟩

example : (∃ t, setItemAny 2 (py!"Creator") (.str (py!"Ann")) agDoc = .ok () (withValue agDoc t (.str (py!"Ann")))) ∧
    ((agDoc.heap 2).terms ≠ []) := by
  have hno : ¬ ∀ t ∈ agDoc.terms, ¬ Meets agDoc.heap (py!"root", py!"Creator") (.str (py!"Ann")) (some [py!"Contacts"]) t := by
    intro h
    obtain ⟨r, h1, -, -, h4⟩ := C64_orderly ag_orderly (x := 2) (n := py!"Contacts") (by decide +kernel) (B := py!"Creator")
      ⟨by decide, by decide, by decide⟩ (.str (py!"Ann"))
    rw [h4.2 h] at h1
    have : sectionFindFirst agDoc 2 (py!"Creator") (.str (py!"Ann")) = .ok (some 5) := by decide +kernel
    rw [this] at h1; cases h1
  rcases C65_orderly_partial ag_orderly (x := 2) (n := py!"Contacts") ⟨by decide +kernel, by decide +kernel, by decide +kernel, by decide +kernel⟩
    (B := py!"Creator") ⟨by decide, by decide, by decide⟩ (by decide +kernel) (by decide +kernel) (v := .str (py!"Ann")) (by decide) with ⟨t, -, h⟩ | ⟨h, -⟩
  · exact ⟨⟨t, h⟩, by decide +kernel⟩
  · exact absurd h hno

example : (agDoc.heap 2).value = .str (py!"Contacts") ∧ 5 ∈ (agDoc.heap 2).terms ∧ lower (agDoc.heap 5).raw = lower (py!"root.CREATOR") := by
  decide +kernel
example : (exParse [[py!"Table", py!"a"]]).derived.get? (py!"root.table") = none ∧
    getTable (exParse [[py!"Table", py!"a"]]) (py!"a") = .found 1 := by decide +kernel

end Metatab
