import Verif.Lemmas.NoMeta
import Verif.Props.UpdateName
/-! # C62: cleaning a document -/
namespace Metatab
open Py _root_.Spec

/-- **C62.** On every document, the handler of `cleanse` for `MetatabError` is never run: `cleanse` is `ensure_identifier` followed by
`update_name`, and what they raise is no `MetatabError`. -/
theorem C62_no_fallback (s : St) :
    cleanse s = (do ensureIdentifier; let _ ← updateName false false true .keep : M Unit) s ∧ ∀ e s', cleanse s = .err e s' → e.isMetatab = false := by
  have hu : ∀ s1 : St, tryMetatab (do let _ ← updateName false false true .keep) cleanseName s1 = (do let _ ← updateName false false true .keep : M Unit) s1 := by
    intro s1
    unfold tryMetatab
    have := calmAt_updateName (.inl rfl) false false true s1
    simp only [bind_run, pure_run]
    cases h : updateName false false true .keep s1 with
    | ok a s2 => rfl
    | err e s2 => simp only [wp_err this h, Bool.false_eq_true, if_false]
  have heq : cleanse s = (do ensureIdentifier; let _ ← updateName false false true .keep : M Unit) s := by
    unfold cleanse
    rw [bind_run, bind_run]
    cases ensureIdentifier s with
    | err e s1 => rfl
    | ok a s1 => exact hu s1
  refine ⟨heq, fun e s' h => ?_⟩
  rw [heq] at h
  refine wp_err (CalmAt.bind (calmAt_ensureIdentifier s) fun _ s1 => CalmAt.bind (calmAt_updateName (.inl rfl) false false true s1) fun _ s2 => ?_) h
  exact (Hushed.pure _).at s2

theorem cleanse_ok {s s' : St} (h : cleanse s = .ok () s') :
    ∃ s1 u, ensureIdentifier s = .ok () s1 ∧ updateName false false true .keep s1 = .ok u s' := by
  rw [(C62_no_fallback s).1, bind_ok] at h
  obtain ⟨_, s1, h1, h2⟩ := h
  obtain ⟨u, s2, h3, h4⟩ := bind_ok.1 h2
  cases h4
  exact ⟨s1, u, h1, h3⟩

/-- **C62.** After `cleanse` has returned, the document has an identifier, and cleaning it again changes nothing. -/
theorem C62_stable {s s' : St} (N : Nameable s) (h : cleanse s = .ok () s') :
    (∃ i, findFirst s' (py!"Root.Identifier") .fls (some [py!"Root"]) = .ok (some i) ∧ (s'.heap i).value.truthy = true) ∧ cleanse s' = .ok () s' := by
  obtain ⟨s1, u, h1, h2⟩ := cleanse_ok h
  obtain ⟨N1, -⟩ := ensure_inv N h1
  obtain ⟨⟨i, hi, hv⟩, u', h3, -⟩ := updateName_again N1 (.inl rfl) h2
  refine ⟨⟨i, hi, hv⟩, ?_⟩
  rw [(C62_no_fallback s').1]
  simp only [bind_run, C46_kept hi hv, h3, pure_run]

/-- **C62.** After `cleanse` has returned, a document with a dataset has the name that its terms give it, which is a slug. -/
theorem C62_slug {s s' : St} (N : Nameable s) (h : cleanse s = .ok () s') {t : Nat} (ht : findFirst s' (py!"Root.Name") = .ok (some t)) {v : Val}
    (hd : docGetValue s' (py!"Root.Dataset") = .ok v) (hv : v.truthy = true) :
    ∃ n, (s'.heap t).value = .str n ∧ identityName .keep s' = .ok n s' ∧ ∀ c ∈ n, SlugChar c := by
  obtain ⟨s1, u, h1, h2⟩ := cleanse_ok h
  obtain ⟨N1, -⟩ := ensure_inv N h1
  obtain ⟨⟨i, hi, hiv⟩, u', h3, h4⟩ := updateName_again N1 (.inl rfl) h2
  unfold updateName at h3
  have hn : nameTerm false s' = .ok (some t) s' := by
    unfold nameTerm
    simp only [bind_run, lift_run, ht, pure_run]
  simp only [bind_run, C46_kept hi hiv, hn] at h3
  unfold setName at h3
  simp only [bind_run, obj_run, lift_run] at h3
  cases hg : docGetValue s' (py!"Root.Identifier") with
  | error e => rw [hg] at h3; cases h3
  | ok w =>
    rw [hg] at h3
    simp only [hd, hv, if_true, bind_run] at h3
    cases hm : identityName .keep s' with
    | err e s2 => rw [hm] at h3; cases h3
    | ok n s2 =>
      rw [hm] at h3
      simp only [Bool.false_eq_true, or_false, ite_run, bind_run, upd_run, pure_run] at h3
      split at h3
      · cases h3
        exact absurd (List.mem_cons_self) (h4 _ (by decide))
      · next hp =>
        cases h3
        refine ⟨n, pyEq_str (by simpa using hp), rfl, C43_chars hm⟩

theorem truthy_str {v : Str} (h : v ≠ []) : (Val.str v).truthy = true := by
  cases v with
  | nil => exact absurd rfl h
  | cons _ _ => rfl

/-- What a search for a root-level name finds is a term of this name. -/
theorem findFirst_named {F : Prop} {s : St} (w : WF F s) {B : Str} (hB : PlainPart B) (hb : B ≠ py!"*")
    (hd : s.derived.get? (lower (dotJoin (py!"Root") B)) = none) {sec : Option (List Str)} {t : Nat}
    (h : findFirst s (dotJoin (py!"Root") B) .fls sec = .ok (some t)) : (s.heap t).cls.isSection = false ∧ lower (s.heap t).rt = lower B := by
  obtain ⟨l, hl, hm⟩ := findFirst_mem h
  have := find_name (A := py!"Root") (B := B) ⟨by decide, by decide, by decide⟩ hB (by decide) hb hd hl t hm
  exact ⟨(w.termsLt t this.1).2, this.2.2⟩

/-- **C62.** In a document whose identifier, name and dataset are empty, `cleanse` makes a new identifier and uses it as the name; it does
nothing else and does not raise. -/
theorem C62_no_dataset {s : St} (h : Reach Op.noAddChild s)
    (hd : ∀ n ∈ [py!"root.identifier", py!"root.name", py!"root.dataset"], s.derived.get? n = none) {i n : Nat} {v : Val}
    (hi : findFirst s (py!"Root.Identifier") .fls (some [py!"Root"]) = .ok (some i)) (hi' : findFirst s (py!"Root.Identifier") = .ok (some i))
    (hn : findFirst s (py!"Root.Name") = .ok (some n)) (hv : docGetValue s (py!"Root.Dataset") = .ok v)
    (hie : (s.heap i).value.truthy = false) (hne : (s.heap n).value.truthy = false) (hve : v.truthy = false) (hu : s.env.uuid s.next ≠ []) :
    ∃ s', cleanse s = .ok () s' ∧ (∀ j, s'.heap j = if j = i ∨ j = n then { s.heap j with value := .str (s.env.uuid s.next) } else s.heap j) ∧
      { s' with heap := s.heap } = s := by
  have w : WF True s := h.wf fun _ op ha => ha
  have di := hd (py!"root.identifier") (by decide)
  have dn := hd (py!"root.name") (by decide)
  have dd := hd (py!"root.dataset") (by decide)
  obtain ⟨ci, ri⟩ := findFirst_named (B := py!"Identifier") w ⟨by decide, by decide, by decide⟩ (by decide) di hi
  obtain ⟨cn, rn⟩ := findFirst_named (B := py!"Name") w ⟨by decide, by decide, by decide⟩ (by decide) dn hn
  have hni : n ≠ i := by
    rintro rfl
    rw [ri] at rn; exact absurd rn (by decide)
  obtain ⟨e1, e2⟩ := identifier_filled w.weak di hi hie hu
  generalize hU : s.env.uuid s.next = U at *
  have hut := truthy_str hu
  have ov := onlyValues_value ci (.str U)
  generalize hs1 : withValue s i (.str U) = s1 at *
  have hp : ∀ j, s1.heap j = if j = i then { s.heap i with value := .str U } else s.heap j := by intro j; rw [← hs1]; rfl
  have f1 : findFirst s1 (py!"Root.Identifier") = .ok (some i) := (findFirst_values w.weak ov _ _).trans hi'
  have f2 : findFirst s1 (py!"Root.Name") = .ok (some n) := (findFirst_values w.weak ov _ _).trans hn
  have f3 : docGetValue s1 (py!"Root.Dataset") = .ok v := by
    rw [← hv]
    refine value_same (B := py!"Dataset") w ov.sameFind ⟨by decide, by decide, by decide⟩ (by decide) dd ?_ none
    intro j _ hj
    rw [hp, if_neg]
    rintro rfl
    rw [ri] at hj; exact absurd hj (by decide)
  have vi : (s1.heap i).value = .str U := by rw [hp, if_pos rfl]
  have vn : (s1.heap n).value = (s.heap n).value := by rw [hp, if_neg hni]
  have f4 : docGetValue s1 (py!"Root.Identifier") = .ok (.str U) := by
    unfold docGetValue
    rw [f1]
    show Except.ok _ = _
    rw [vi]
  have k1 : ensureIdentifier s1 = .ok () s1 := C46_kept e2 (by rw [vi]; exact hut)
  have k2 : nameTerm false s1 = .ok (some n) s1 := by
    unfold nameTerm
    simp only [bind_run, lift_run, f2, pure_run]
  have k3 : setName false true .keep n s1 = .ok [py!"Setting the name to the identifier"] (withValue s1 n (.str U)) := by
    unfold setName
    simp only [bind_run, obj_run, lift_run, f4, f3]
    rw [if_neg (by rw [hve]; simp), vn, if_pos (by rw [hne]; rfl), if_neg (by rw [hut]; simp)]
    rfl
  refine ⟨withValue s1 n (.str U), ?_, ?_, ?_⟩
  · rw [(C62_no_fallback s).1]
    unfold updateName
    simp only [bind_run, e1, k1, k2, k3, pure_run]
  · intro j
    rw [withValue_heap, hp n, if_neg hni, hp j]
    by_cases a : j = n
    · subst a; rw [if_pos rfl, if_pos (.inr rfl)]
    · rw [if_neg a]
      by_cases b : j = i
      · subst b; rw [if_pos rfl, if_pos (.inl rfl)]
      · rw [if_neg b, if_neg (by rintro (h | h) <;> contradiction)]
  · rw [← hs1]; rfl

/-- A document with an empty identifier, an empty name and an empty dataset. -/
def emptyNames : St := exParse [[py!"Identifier"], [py!"Name", []], [py!"Dataset"]]
example : Reach Op.noAddChild emptyNames ∧ findFirst emptyNames (py!"Root.Identifier") .fls (some [py!"Root"]) = .ok (some 1) ∧
    findFirst emptyNames (py!"Root.Identifier") = .ok (some 1) ∧ findFirst emptyNames (py!"Root.Name") = .ok (some 2) ∧
    docGetValue emptyNames (py!"Root.Dataset") = .ok .none ∧ (emptyNames.heap 1).value = .none ∧ (emptyNames.heap 2).value = .none ∧
    (∀ n ∈ [py!"root.identifier", py!"root.name", py!"root.dataset"], emptyNames.derived.get? n = none) ∧ exEnv.uuid emptyNames.next ≠ [] :=
  ⟨exParse_reach _ trivial, by decide +kernel, by decide +kernel, by decide +kernel, by decide +kernel, by decide +kernel, by decide +kernel,
    by decide +kernel, by decide +kernel⟩

/-! The document of C45, with dataset, version and name. -/
theorem nameDoc_cleansed : cleanse nameDoc = .ok () (after cleanse nameDoc) := ok_after (by decide +kernel)

example : cleanse (after cleanse nameDoc) = .ok () (after cleanse nameDoc) := (C62_stable nameDoc_nameable nameDoc_cleansed).2
example : findFirst (after cleanse nameDoc) (py!"Root.Name") = .ok (some 3) ∧ docGetValue (after cleanse nameDoc) (py!"Root.Dataset") = .ok (.str (py!"foo")) ∧
    ((after cleanse nameDoc).heap 3).value = .str (py!"foo-7") := by decide +kernel

/-- A document with a name and no dataset. -/
def unsluggedDoc : St := exParse [[py!"Name", py!"My Name!"]]

/-- **C62, where it ends.** Without a dataset the name stays as it is, slug or not: `update_name` reports the missing dataset in its return
value, which `cleanse` does not look at. -/
theorem C62_unslugged_witness : ∃ s', cleanse unsluggedDoc = .ok () s' ∧ findFirst s' (py!"Root.Name") = .ok (some 1) ∧
    (s'.heap 1).value = .str (py!"My Name!") ∧ ¬ ∀ c ∈ py!"My Name!", SlugChar c :=
  ⟨after cleanse unsluggedDoc, ok_after (by decide +kernel), by decide +kernel, by decide +kernel,
    fun h => absurd (h '!' (by decide)) (by unfold SlugChar; decide)⟩

end Metatab
