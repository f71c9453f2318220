import Verif.Props.Declare
/-! # C40: value sets -/
namespace Metatab
open Py

/-- The display value a declared term has for a value. -/
def displayOf (e : DTerm) (w : Val) : Option Val :=
  match e.values with
  | none => none
  | some vals => (vals.find? fun kv => Val.pyEq kv.1 w).map Prod.snd

/-- The declared term takes its values from the value set called `vs`. -/
def UsesSet (vs : Str) (e : DTerm) : Prop := ∃ v, e.props.get? (py!"valuesetname") = some v ∧ lower v = vs ∧ e.values ≠ none

/-- What recording the display value `disp` for `value` in the set `vs` may do to a declared term. -/
structure ValueAdded (vs : Str) (value disp : Val) (e e' : DTerm) : Prop where
  props : e'.props = e.props
  other : ¬ UsesSet vs e → e' = e
  kept : ∀ w d, displayOf e w = some d → displayOf e' w = some d
  added : UsesSet vs e → displayOf e' value = some ((displayOf e value).getD disp)
  only : ∀ w, Val.pyEq value w = false → displayOf e' w = displayOf e w

theorem pyEq_self (v : Val) : Val.pyEq v v = true := by cases v <;> simp [Val.pyEq]

theorem addValue_added (vs : Str) (value disp : Val) (e : DTerm) : ValueAdded vs value disp e (addValue vs value disp e) := by
  unfold addValue
  cases hp : e.props.get? (py!"valuesetname") with
  | none =>
    exact ⟨rfl, fun _ => rfl, fun _ _ h => h, fun ⟨v, hv, _⟩ => (by rw [hp] at hv; cases hv), fun _ _ => rfl⟩
  | some v =>
    cases hv : e.values with
    | none => exact ⟨rfl, fun _ => rfl, fun _ _ h => h, fun ⟨_, _, _, h⟩ => absurd hv h, fun _ _ => rfl⟩
    | some vals =>
      dsimp only
      have hd : ∀ w, displayOf e w = (vals.find? fun kv => Val.pyEq kv.1 w).map Prod.snd := by
        intro w; unfold displayOf; rw [hv]
      by_cases hc : vs = lower v ∧ ¬ vals.any (fun kv => Val.pyEq kv.1 value) = true
      · rw [if_pos hc]
        obtain ⟨h1, h2⟩ := hc
        have hn : displayOf e value = none := by
          rw [hd, Option.map_eq_none_iff, List.find?_eq_none]
          intro kv hk hh; exact h2 (List.any_eq_true.2 ⟨kv, hk, hh⟩)
        have hd' : ∀ w, displayOf { e with values := some (vals ++ [(value, disp)]) } w =
            (displayOf e w).or (if Val.pyEq value w then some disp else none) := by
          intro w
          rw [hd]
          show ((vals ++ [(value, disp)]).find? fun kv => Val.pyEq kv.1 w).map Prod.snd = _
          rw [List.find?_append]
          cases vals.find? fun kv => Val.pyEq kv.1 w with
          | some x => rfl
          | none => cases hw : Val.pyEq value w <;> simp [hw]
        refine ⟨rfl, fun hu => absurd ⟨v, hp, h1.symm, by rw [hv]; simp⟩ hu, ?_, ?_, ?_⟩
        · intro w d h; rw [hd', h]; rfl
        · intro _; rw [hd', hn, if_pos (pyEq_self value)]; rfl
        · intro w hw; rw [hd', hw]; cases displayOf e w <;> rfl
      · rw [if_neg hc]
        refine ⟨rfl, fun _ => rfl, fun _ _ h => h, ?_, fun _ _ => rfl⟩
        rintro ⟨v', hv', hl, _⟩
        rw [hp] at hv'; cases hv'
        have ha : vals.any (fun kv => Val.pyEq kv.1 value) = true := by
          by_contra hh; exact hc ⟨hl.symm, hh⟩
        obtain ⟨kv, hk, hh⟩ := List.any_eq_true.1 ha
        cases hx : displayOf e value with
        | some d => rfl
        | none =>
          rw [hd, Option.map_eq_none_iff, List.find?_eq_none] at hx
          exact absurd hh (hx kv hk)

/-- **C40**, for the term the parser takes for a value: a term below a `Value` term. Every declared term stays declared and keeps its
properties; the ones that use the set get the value, unless they have it already; nothing else changes. The name of the set is the
qualified name of the term's parent. What is missing: the values a file lists in a set never come here under the name of their set
(`C40_witness`). -/
theorem C40_values_partial {t : Nat} {s s' : St} {u : Unit} (h : addValueSetValue t s = .ok u s') :
    s' = { s with p := { s.p with declTerms := s'.p.declTerms } } ∧ s'.p.declTerms.keys = s.p.declTerms.keys ∧
    ∃ q ap, (s.heap t).parent = some q ∧ argProps s t = .ok ap ∧
      (∀ k, s.p.declTerms.get? k = none → s'.p.declTerms.get? k = none) ∧
      ∀ k e, s.p.declTerms.get? k = some e → ∃ e', s'.p.declTerms.get? k = some e' ∧
        ValueAdded ((s.heap q).joinLc) (s.heap t).value ((ap.get? (py!"displayvalue")).getD .none) e e' := by
  unfold addValueSetValue at h
  rw [bind_run, get_run] at h
  dsimp only at h
  cases hq : (s.heap t).parent with
  | none => rw [hq] at h; cases h
  | some q =>
    rw [hq] at h
    simp only [bind_run, lift_run] at h
    cases ha : argProps s t with
    | error e => rw [ha] at h; cases h
    | ok ap =>
      rw [ha] at h
      cases h
      refine ⟨rfl, ?_, q, ap, rfl, rfl, ?_, ?_⟩
      · show List.map Prod.fst (List.map _ _) = List.map Prod.fst _
        rw [List.map_map]; rfl
      · intro k hk
        show Dict.get? (List.map _ _) k = none
        rw [get?_map_val, hk]; rfl
      · intro k e hk
        refine ⟨_, ?_, addValue_added _ _ _ e⟩
        show Dict.get? (List.map _ _) k = _
        rw [get?_map_val, hk]; rfl

/-- **C40**, what a row that declares neither a section nor a term does to the tables of a declaration document: unless its parent part is
`value`, nothing. In particular the rows of a value set, whose parent part is `declarevalueset`, are lost. -/
theorem C40_ignored_partial {t : Nat} (s : St) (h1 : (s.heap t).joinLc ≠ py!"root.declaresection") (h2 : (s.heap t).joinLc ≠ py!"root.declareterm")
    (h3 : lower (s.heap t).pt ≠ py!"value") : manageDeclare t s = .ok () s := by
  unfold manageDeclare
  rw [bind_run, obj_run]
  dsimp only
  rw [if_neg h1, if_neg h2, if_neg h3]
  rfl

/-- A file that declares a value set as the format foresees, and a term that uses it. -/
def exSetRows : List (List Str) :=
  [[py!"Section", py!"DeclaredTerms", py!"Section", py!"ValueSetName", py!"DisplayValue"], [py!"DeclareSection", py!"Data", py!"Title"],
   [py!"DeclareTerm", py!"Color", py!"Data", py!"colors"], [py!"DeclareTerm", py!"Tint", py!"Data", py!"root.value"],
   [py!"DeclareValueSet", py!"colors"], [py!".Value", py!"r", [], [], py!"Red"]]

/-- **C40** fails for value sets as declared in a file: the declaration of the value `r` in the set `colors` does not reach the term
that uses `colors`. -/
theorem C40_witness : (gen noFiles true 3 true [] [] exSetRows exDoc).val = .ok () ∧
    ((after (gen noFiles true 3 true [] [] exSetRows) exDoc).p.declTerms.get? (py!"root.color")).map (fun e => (e.props.get? (py!"valuesetname"), displayOf e (.str (py!"r")))) =
      some (some (py!"colors"), none) := by
  decide +kernel

/-- The row `.Value,r` of that file is such a row. -/
example : let s := after (gen noFiles true 3 true [] [] exSetRows) exDoc
    (s.heap 15).joinLc = py!"declarevalueset.value" ∧ manageDeclare 15 s = .ok () s := by
  refine ⟨by decide +kernel, C40_ignored_partial _ (by decide +kernel) (by decide +kernel) (by decide +kernel)⟩

/-- After reading it and a value for the set that happens to be called `root.value`. -/
def exSet : St := after (gen noFiles true 3 true [] [] (exSetRows ++ [[py!"Value", py!"r", [], [], py!"Red"]])) exDoc
/-- The same, with another value about to be recorded. -/
def exSet2 : St := after (upd 18 fun o => { o with value := .str (py!"Green") }) exSet

/-- The hypothesis of `C40_values_partial` can be met: the new value is recorded and the one recorded before is kept. -/
example : ∃ e', (after (addValueSetValue 18) exSet2).p.declTerms.get? (py!"root.tint") = some e' ∧
    displayOf e' (.str (py!"Green")) ≠ none ∧ displayOf e' (.str (py!"Red")) = some .none := by
  obtain ⟨-, -, q, ap, hq, -, -, h⟩ := C40_values_partial (t := 18) (s := exSet2) (u := ()) (ok_after (by decide +kernel))
  have hq' : q = 17 := by
    have : (exSet2.heap 18).parent = some 17 := by decide +kernel
    rw [this] at hq; exact (Option.some.inj hq).symm
  subst hq'
  obtain ⟨e', h1, h2⟩ := h (py!"root.tint") ⟨[(py!"section", py!"Data"), (py!"valuesetname", py!"root.value"), (py!"term", py!"Tint")], some [(.str (py!"Red"), .none)]⟩
    (by decide +kernel)
  have hu : UsesSet ((exSet2.heap 17).joinLc) ⟨[(py!"section", py!"Data"), (py!"valuesetname", py!"root.value"), (py!"term", py!"Tint")], some [(.str (py!"Red"), .none)]⟩ :=
    ⟨py!"root.value", by decide, by decide +kernel, by simp⟩
  have hv : (exSet2.heap 18).value = .str (py!"Green") := by decide +kernel
  refine ⟨e', h1, ?_, h2.kept _ _ (by decide)⟩
  have := h2.added hu
  rw [hv] at this
  rw [this]; simp

end Metatab
