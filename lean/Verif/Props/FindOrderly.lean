import Verif.Props.Find
import Verif.Props.Agree
/-! # C11 in documents reached by orderly calls -/
namespace Metatab
open Py _root_.Spec

/-- The hypotheses of C11 hold in every document reached by orderly calls (C15). -/
theorem orderly_searchable {s : St} (h : OrderlyHistory s) : s.derived = [] ∧ ∀ t ∈ s.terms, Searchable s.heap t := by
  have w := orderly_inv h
  refine ⟨w.noDerived, fun t ht => ?_⟩
  obtain ⟨x, h1, ⟨k, h2⟩, -⟩ := w.listed t ht
  obtain ⟨-, -, n, h3, -⟩ := w.secOk k x h2
  refine ⟨fun e => (by rw [h1] at e; cases e), fun y hy => ?_⟩
  rw [h1] at hy
  cases hy
  exact ⟨n, h3⟩

open Classical in
/-- **C11** for orderly documents: a search for a root-level name gives exactly the root-level terms of that name, value and section, in
order, without further hypotheses. -/
theorem C11_orderly {s : St} (h : OrderlyHistory s) {B : Str} (hB : PlainPart B) (value : Val) (sec : Option (List Str)) :
    find s B value sec = .ok (s.terms.filter fun t => Meets s.heap (py!"root", B) value sec t) ∧
    find s (dotJoin (py!"Root") B) value sec = .ok (s.terms.filter fun t => Meets s.heap (py!"Root", B) value sec t) := by
  obtain ⟨h1, h2⟩ := orderly_searchable h
  exact ⟨C11_unqualified hB (by rw [h1]; rfl) h2 value sec,
    C11_qualified (q := (py!"Root", B)) (show PlainPart (py!"Root") from ⟨by decide, by decide, by decide⟩) hB (by rw [h1]; rfl) (l := s.terms) rfl h2 value sec⟩

/-- The document of C15 lists two creators. -/
example : find agDoc (py!"Root.Creator") = .ok [3, 5] ∧ find agDoc (py!"creator") = .ok [3, 5] ∧ OrderlyHistory agDoc :=
  ⟨by decide +kernel, by decide +kernel, ag_orderly⟩

end Metatab
