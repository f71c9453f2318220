import Verif.Props.Declare
/-! # Declarations that are refused (C87)

A `DeclareTerm` row may name a section, which must have been declared, and a term to inherit from, which needs a section. -/
namespace Metatab
open Py

theorem mapM_strCell {ap : Dict Val} (h : ∀ kv ∈ ap, ∃ x, kv.2 = .str x) : ∃ kvs, ap.mapM strCell = .ok kvs := by
  induction ap with
  | nil => exact ⟨[], rfl⟩
  | cons kv ap ih =>
    obtain ⟨k, v⟩ := kv
    obtain ⟨x, hx⟩ := h _ (List.mem_cons_self ..)
    dsimp only at hx; subst hx
    obtain ⟨kvs, hk⟩ := ih fun kv hkv => h kv (List.mem_cons_of_mem _ hkv)
    refine ⟨(k, x) :: kvs, ?_⟩
    rw [List.mapM_cons, hk]
    rfl

/-- The new entry exists if all cells are texts. -/
theorem declaredEntry_of_strs {ap : Dict Val} (h : ∀ kv ∈ ap, ∃ x, kv.2 = .str x) (v : Str) : ∃ td, declaredEntry ap v = .ok td := by
  obtain ⟨kvs, hk⟩ := mapM_strCell h
  exact ⟨_, by unfold declaredEntry; rw [hk]; rfl⟩

/-- The steps of a declaration up to the new entry. -/
theorem addDeclaredTerm_run {t : Nat} {s : St} {v n : Str} {ap : Dict Val} {td : DTerm} (hv : (s.heap t).value = .str v)
    (hn : normalizeTerm v = .ok n) (ha : argProps s t = .ok ap) (he : declaredEntry ap v = .ok td) :
    addDeclaredTerm t s = (do
      match td.props.get? (py!"section") with
      | some _ => addTermToSection false td
      | none => pure ()
      addInherited td) { s with p := { s.p with declTerms := s.p.declTerms.set n td } } := by
  unfold addDeclaredTerm
  rw [bind_run, obj_run]
  dsimp only
  rw [hv]
  dsimp only
  rw [bind_run, lift_run, hn]
  dsimp only
  rw [bind_run, lift_run, ha]
  dsimp only
  rw [bind_run, lift_run, he]
  dsimp only
  rw [bind_run]
  unfold updP
  rw [modify_run]
  rfl

/-- **C87**, the section: a declaration that names a section not yet declared is refused with `DeclarationError`. By then the term has
been entered; nothing else has changed. -/
theorem C87_unknown_section {t : Nat} {s : St} {v n sec : Str} {ap : Dict Val} (hv : (s.heap t).value = .str v)
    (hn : normalizeTerm v = .ok n) (ha : argProps s t = .ok ap) (hs : ∀ kv ∈ ap, ∃ x, kv.2 = .str x)
    (hsec : ap.get? (py!"section") = some (.str sec)) (h0 : strip sec ≠ []) (hno : s.p.declSecs.get? (lower sec) = none) :
    ∃ td, addDeclaredTerm t s = .err .declarationError { s with p := { s.p with declTerms := s.p.declTerms.set n td } } ∧
      td.props.get? (py!"section") = some sec ∧ td.props.get? (py!"term") = some v := by
  obtain ⟨td, he⟩ := declaredEntry_of_strs hs v
  have hnd := argProps_nodup ha
  have t3 := (declaredEntry_get he (k := py!"section") (by decide) (by decide) sec hnd).2 ⟨hsec, h0⟩
  refine ⟨td, ?_, t3, (declaredEntry_term he).1⟩
  rw [addDeclaredTerm_run hv hn ha he, t3]
  dsimp only
  rw [bind_run]
  unfold addTermToSection
  rw [bind_run, get_run]
  dsimp only
  rw [t3]
  dsimp only [Option.getD_some]
  rw [hno]
  rfl

/-- **C87**, inheritance: a declaration that inherits without naming a section is refused with `DeclarationError`. By then the term has
been entered; nothing else has changed. -/
theorem C87_inherits_without_section {t : Nat} {s : St} {v n ih : Str} {ap : Dict Val} (hv : (s.heap t).value = .str v)
    (hn : normalizeTerm v = .ok n) (ha : argProps s t = .ok ap) (hs : ∀ kv ∈ ap, ∃ x, kv.2 = .str x)
    (hih : ap.get? (py!"inheritsfrom") = some (.str ih)) (h0 : strip ih ≠ [])
    (hno : ∀ x, ap.get? (py!"section") = some (.str x) → strip x = []) :
    ∃ td, addDeclaredTerm t s = .err .declarationError { s with p := { s.p with declTerms := s.p.declTerms.set n td } } ∧
      td.props.get? (py!"section") = none ∧ td.props.get? (py!"inheritsfrom") = some ih ∧ td.props.get? (py!"term") = some v := by
  obtain ⟨td, he⟩ := declaredEntry_of_strs hs v
  have hnd := argProps_nodup ha
  have t1 := (declaredEntry_term he).1
  have t2 := (declaredEntry_get he (k := py!"inheritsfrom") (by decide) (by decide) ih hnd).2 ⟨hih, h0⟩
  have t3 : td.props.get? (py!"section") = none := by
    cases hx : td.props.get? (py!"section") with
    | none => rfl
    | some x =>
      have := (declaredEntry_get he (k := py!"section") (by decide) (by decide) x hnd).1 hx
      exact absurd (hno x this.1) this.2
  have h1 : ih ≠ [] := by rintro rfl; exact h0 rfl
  refine ⟨td, ?_, t3, t2, t1⟩
  rw [addDeclaredTerm_run hv hn ha he, t3]
  dsimp only
  unfold addInherited
  rw [t1, t2]
  dsimp only
  rw [if_neg h1, t3]
  rfl

/-- The declarations of a file read into a new document: the outcome. -/
def declOutcome (rows : List (List Str)) : Option Err :=
  match gen noFiles true 3 true [] [] rows exDoc with
  | .ok .. => none
  | .err e _ => some e

/-- Both refusals end the reading of a file. -/
example : declOutcome [[py!"Section", py!"DeclaredTerms", py!"Section", py!"InheritsFrom"], [py!"DeclareTerm", py!"Table", py!"Data"]]
    = some .declarationError := by decide +kernel
example : declOutcome [[py!"Section", py!"DeclaredTerms", py!"Section", py!"InheritsFrom"], [py!"DeclareTerm", py!"Geo", [], py!"Table"]]
    = some .declarationError := by decide +kernel
example : declOutcome exDeclRows = none := by decide +kernel

/-- A row about to be declared, in the document `exDecl`. -/
def exBad (section_ inherits : Str) : St := after (do
  let t ← rowTerm true [py!"DeclareTerm", py!"Root.Geo", section_, inherits]
  setSection t (some 1)
  setTvn t (py!"term")) exDecl

/-- The hypotheses of `C87_unknown_section` can be met. -/
example : ∃ td, addDeclaredTerm 13 (exBad (py!"Elsewhere") []) = .err .declarationError
      { exBad (py!"Elsewhere") [] with p := { (exBad (py!"Elsewhere") []).p with
        declTerms := (exBad (py!"Elsewhere") []).p.declTerms.set (py!"root.geo") td } } ∧
      td.props.get? (py!"section") = some (py!"Elsewhere") ∧ td.props.get? (py!"term") = some (py!"Root.Geo") :=
  C87_unknown_section (t := 13) (s := exBad (py!"Elsewhere") []) (ap := [(py!"section", .str (py!"Elsewhere")), (py!"inheritsfrom", .str []), (py!"term", .str (py!"Root.Geo"))])
    (by decide +kernel) (by decide +kernel) (by decide +kernel)
    (by intro kv h; simp only [List.mem_cons, List.not_mem_nil, or_false] at h; rcases h with rfl | rfl | rfl <;> exact ⟨_, rfl⟩) rfl (by decide) (by decide +kernel)

/-- The hypotheses of `C87_inherits_without_section` can be met. -/
example : ∃ td, addDeclaredTerm 13 (exBad [] (py!"Table")) = .err .declarationError
      { exBad [] (py!"Table") with p := { (exBad [] (py!"Table")).p with
        declTerms := (exBad [] (py!"Table")).p.declTerms.set (py!"root.geo") td } } ∧
      td.props.get? (py!"section") = none ∧ td.props.get? (py!"inheritsfrom") = some (py!"Table") ∧
      td.props.get? (py!"term") = some (py!"Root.Geo") :=
  C87_inherits_without_section (t := 13) (s := exBad [] (py!"Table")) (ap := [(py!"section", .str []), (py!"inheritsfrom", .str (py!"Table")), (py!"term", .str (py!"Root.Geo"))])
    (by decide +kernel) (by decide +kernel) (by decide +kernel)
    (by intro kv h; simp only [List.mem_cons, List.not_mem_nil, or_false] at h; rcases h with rfl | rfl | rfl <;> exact ⟨_, rfl⟩) rfl (by decide)
    (by intro x h; cases h; rfl)

/-- **C87** does not hold for inherited children: `Table.Column` is declared in the section and then again without one, so that it is still
listed. The child `Geo.Column` made from it has no section. The exception for it is never built, because the variable whose
`file_name` the message asks for holds a dict by then: reading ends with `AttributeError` (metatab/parser.py:596-600, 611-613). -/
theorem C87_inherited_witness : declOutcome (exDeclRows ++ [[py!"DeclareTerm", py!"Table.Column"], [py!"DeclareTerm", py!"Geo", py!"Data", py!"Table"]])
    = some .attributeError := by decide +kernel

end Metatab
