import Verif.Lemmas.StepsOps
import Verif.Lemmas.Tree
import Verif.Lemmas.Order
import Mathlib.Data.List.Perm.Subperm
import Verif.Model.Parser
/-! The operations on sections and documents, and parsing, are sequences of elementary steps. -/
namespace Metatab
open Py
variable {C : Cap} {s : St}

theorem Known.lt {F : Prop} {t : Nat} (w : WF F s) (h : Known s t) : t < s.next := by
  rcases h with h | ⟨kv, h, rfl⟩ | ⟨x, h⟩ | ⟨i, h⟩
  · exact (w.termsLt t h).1
  · exact (w.secsLt kv h).1
  · exact w.secTermsLt x t h
  · exact w.kidLt i t h

theorem tri_getOrNewTerm {x : Nat} {term : Str} {value : Val} {kw : List (Str × Val)}
    (hx : x < s.next ∧ (s.heap x).cls.isSection = true) (hC : C.Good s.next) :
    Tri C (getOrNewTerm x term value kw) (fun t s' => t < s'.next) s := by
  unfold getOrNewTerm
  refine tri_wf fun w => tri_lift fun a ha => ?_
  split
  · exact tri_newTerm hx hC
  · next t =>
    have ht := (mem_sectionFindFirst ha).lt w
    have fin : ∀ s1, Steps C s s1 → Tri C (do
        forL (fun kv => do let _ ← getOrNewChild0 t kv.1 kv.2) kw
        return t) (fun t s' => t < s'.next) s1 := by
      intro s1 st
      refine tri_bind (tri_forL (I := fun _ => True) (fun a _ s' st' _ => ?_) trivial) fun _ s2 st2 _ => ?_
      · exact tri_bind (tri_getOrNewChild0 ((st.trans st').lt ht) (hC.up (st.trans st'))) fun _ _ _ _ => tri_pure trivial
      · exact tri_pure ((st.trans st2).lt ht)
    refine tri_ite (fun _ => ?_) fun _ => fin s .refl
    exact tri_bind (tri_setValue ht) fun _ s1 st _ => fin s1 st

theorem tri_setItemAny {t : Nat} {item : Str} {value : Val} (ht : t < s.next) (hC : C.Good s.next) :
    Tri C (setItemAny t item value) (fun _ _ => True) s := by
  unfold setItemAny
  refine tri_obj (tri_ite (fun h => ?_) fun _ => tri_setItem ht hC)
  exact tri_bind (tri_getOrNewTerm ⟨ht, h⟩ hC) fun _ _ _ _ => tri_pure trivial

theorem tri_setSection {t : Nat} {v : Option Nat} (ht : t < s.next)
    (hv : ∀ x, v = some x → x < s.next ∧ (s.heap x).cls.isSection = true) (hu : v = none → t ∈ s.terms → C.unsec) (hC : C.Good s.next) :
    Tri C (setSection t v) (fun _ _ => True) s := by
  unfold setSection
  refine tri_get (tri_ite (fun _ => tri_setValue ht) fun _ => tri_ite (fun _ => tri_setItemAny ht hC) fun _ => ?_)
  exact tri_upd' (.setSec t v ht hv hu) trivial

/-- Attaching by hand, where that is allowed. -/
theorem tri_addChild {t c : Nat} (ht : t < s.next) (hc : c < s.next) (hF : ¬ C.strict) (hC : C.Good s.next) :
    Tri C (addChild t c) (fun _ _ => True) s := by
  unfold addChild
  refine tri_upd (.attach t c ht hc (hC.any hF t c) fun f => absurd f hF) ?_
  refine tri_upd (.setParent c t hc ht (hC.any hF t c) fun f => absurd f hF) ?_
  exact tri_obj (tri_assert' fun _ => trivial)

theorem tri_newSection {name : Str} {params : List Str} :
    Tri C (newSection name params) (fun x s' => x < s'.next ∧ (s'.heap x).cls.isSection = true) s := by
  unfold newSection
  refine tri_bind tri_newSectionObj fun x s1 st f => ?_
  have hx : x < s1.next ∧ (s1.heap x).cls.isSection = true := ⟨f.lt, by rw [f.cl]; rfl⟩
  refine tri_modify (.secAdd name x hx.1 hx.2) (tri_get ?_)
  split
  · refine tri_upd (step_attrs hx.1 ⟨rfl, rfl, rfl, rfl, rfl, rfl, rfl⟩) (tri_pure ⟨hx.1, ?_⟩)
    rw [heap_setObj, if_pos rfl]; exact hx.2
  · exact tri_pure hx

theorem tri_getOrNewSection {name : Str} {params : List Str} :
    Tri C (getOrNewSection name params) (fun x s' => x < s'.next ∧ (s'.heap x).cls.isSection = true) s := by
  unfold getOrNewSection
  have fin : ∀ s', Tri C (M.lift fun s => match s.sections.get? (lower name) with
      | some x => .ok x
      | none => .error Err.keyError) (fun x s' => x < s'.next ∧ (s'.heap x).cls.isSection = true) s' := by
    intro s'
    refine tri_wf fun w => tri_lift' fun x hx => ?_
    cases hg : s'.sections.get? (lower name) with
    | none => rw [hg] at hx; cases hx
    | some y =>
      rw [hg] at hx; cases hx
      have := w.secsLt _ (Dict.mem_of_get? hg)
      exact ⟨this.1, this.2.1⟩
  refine tri_get (tri_ite (fun _ => ?_) fun _ => fin s)
  refine tri_bind tri_newSectionObj fun x s1 st f => ?_
  exact tri_modify (.secAdd name x f.lt (by rw [f.cl]; rfl)) (fin _)

theorem tri_removeAll : ∀ {l : List Nat} {s : St}, Tri C (removeAll l) (fun _ _ => True) s
  | [], _ => tri_pure trivial
  | t :: ts, s => by
    unfold removeAll
    refine tri_get (tri_ite (fun _ => ?_) fun _ => tri_raise)
    exact tri_modify (.docDel t) tri_removeAll

theorem tri_delSection {name : Str} : Tri C (delSection name) (fun _ _ => True) s := by
  unfold delSection
  refine tri_get ?_
  dsimp only
  split
  · exact tri_bind tri_removeAll fun _ _ _ _ => tri_modify' (.secDel _) trivial
  · exact tri_modify' (.secDel _) trivial

theorem sortedSections_perm {d : Dict Nat} (hd : d.keys.Nodup) {order : List Str} (h : d.length = (sortedSections d order).length) :
    (sortedSections d order).Perm d := by
  have hn : (sortedSections d order).keys.Nodup := by
    unfold sortedSections
    exact Dict.nodup_update (Dict.nodup_update (d := ([] : Dict Nat)) List.nodup_nil _) _
  have hsub : ∀ kv ∈ sortedSections d order, kv ∈ d := by
    intro kv hkv
    have hg := Dict.get?_of_mem hn hkv
    unfold sortedSections at hg
    have keep : ∀ (l : List (Str × Nat)) (acc : Dict Nat), (∀ kv ∈ l, kv ∈ d) → (∀ k v, acc.get? k = some v → (k, v) ∈ d) →
        ∀ k v, (Dict.update acc l).get? k = some v → (k, v) ∈ d := by
      intro l
      induction l with
      | nil => intro acc _ h k v; rw [Dict.update_nil]; exact h k v
      | cons a l ih =>
        intro acc hl h k v
        rw [Dict.update_cons]
        refine ih _ (fun kv hkv => hl kv (List.mem_cons_of_mem _ hkv)) ?_ k v
        intro k v hk
        rw [Dict.get?_set] at hk
        split at hk
        · next e => cases hk; rw [← e]; exact hl a List.mem_cons_self
        · exact h k v hk
    refine keep _ _ ?_ ?_ kv.1 kv.2 hg
    · intro kv hkv; exact (List.mem_filter.1 hkv).1
    · refine keep _ _ ?_ ?_
      · intro kv hkv
        obtain ⟨k, _, hk⟩ := List.mem_filterMap.1 hkv
        cases hg : d.get? k with
        | none => rw [hg] at hk; cases hk
        | some v => rw [hg] at hk; cases hk; exact Dict.mem_of_get? hg
      · intro k v h; cases h
  have hn1 : (sortedSections d order).Nodup := (List.Nodup.of_map _ hn)
  exact (hn1.subperm hsub).perm_of_length_le (by omega)

theorem tri_sortSections {order : List Str} : Tri C (sortSections order) (fun _ _ => True) s := by
  unfold sortSections
  refine tri_wf fun w => tri_get (tri_assert fun h => ?_)
  exact tri_modify' (.secPerm _ (sortedSections_perm w.secsNodup (by simpa using h))) trivial

theorem takeMatching_perm {h : Nat → Obj} {name : Str} : ∀ {l m r : List Nat}, takeMatching h name l = .ok (m, r) → (m ++ r).Perm l
  | [], m, r, e => by cases e; exact .refl _
  | t :: ts, m, r, e => by
    unfold takeMatching at e
    cases hb : termIs (h t).pt (h t).rt name with
    | error x => rw [hb] at e; cases e
    | ok b =>
      cases ht : takeMatching h name ts with
      | error x => rw [hb, ht] at e; cases e
      | ok p =>
        obtain ⟨m', r'⟩ := p
        rw [hb, ht] at e
        simp only [bind, Except.bind, pure, Except.pure, Except.ok.injEq] at e
        have ih := takeMatching_perm ht
        cases b
        · simp only [Bool.false_eq_true, if_false, Prod.mk.injEq] at e
          obtain ⟨rfl, rfl⟩ := e
          exact List.perm_middle.trans (ih.cons t)
        · simp only [if_true, Prod.mk.injEq] at e
          obtain ⟨rfl, rfl⟩ := e
          exact ih.cons t

theorem orderedTerms_perm {h : Nat → Obj} : ∀ {ns : List Str} {l r : List Nat}, orderedTerms h ns l = .ok r → r.Perm l
  | [], l, r, e => by
    unfold orderedTerms at e; cases e
    exact sortBy_perm _ _
  | n :: ns, l, r, e => by
    unfold orderedTerms at e
    cases ht : takeMatching h n l with
    | error x => rw [ht] at e; cases e
    | ok p =>
      obtain ⟨m, q⟩ := p
      rw [ht] at e
      cases ho : orderedTerms h ns q with
      | error x => simp only [bind, Except.bind, ho] at e; cases e
      | ok more =>
        simp only [bind, Except.bind, ho, pure, Except.pure, Except.ok.injEq] at e
        subst e
        exact ((orderedTerms_perm ho).append_left m).trans (takeMatching_perm ht)

theorem tri_sortByTerm {x : Nat} {order : Option (List Str)} (hx : x < s.next) : Tri C (sortByTerm x order) (fun _ _ => True) s := by
  unfold sortByTerm
  refine tri_get ?_
  have fin : ∀ l, l.Perm (s.heap x).terms → Tri C (upd x fun o => { o with terms := l }) (fun _ _ => True) s :=
    fun l h => tri_upd' (.relist x l hx h) trivial
  split
  · exact tri_bind (Q := fun a s' => s' = s ∧ a.Perm (s.heap x).terms) (tri_pure ⟨rfl, sortBy_perm _ _⟩)
      fun a s' _ ⟨e, h⟩ => by subst e; exact fin a h
  · exact tri_lift fun a ha => fin a (orderedTerms_perm ha)

theorem tri_addArg {x : Nat} {arg : Str} {pre : Bool} (hx : x < s.next) : Tri C (addArg x arg pre) (fun _ _ => True) s :=
  tri_upd' (step_attrs hx ⟨rfl, rfl, rfl, rfl, rfl, rfl, rfl⟩) trivial
theorem tri_removeArg {x : Nat} {arg : Str} (hx : x < s.next) : Tri C (removeArg x arg) (fun _ _ => True) s :=
  tri_upd' (step_attrs hx ⟨rfl, rfl, rfl, rfl, rfl, rfl, rfl⟩) trivial

theorem tri_sectionRemoveTerm {x t : Nat} (hx : x < s.next) (ht : t < s.next) (hC : C.Good s.next) :
    Tri C (sectionRemoveTerm x t) (fun _ _ => True) s :=
  tri_upd (.unlist x t hx) (tri_removeTerm ht hC)

theorem tri_cleanSection {x : Nat} (hC : C.Good s.next) : Tri C (cleanSection x) (fun _ _ => True) s := by
  unfold cleanSection
  refine tri_wf fun w => tri_obj ?_
  refine tri_forL (I := fun _ => True) (fun t ht s' st _ => ?_) trivial
  exact tri_removeTerm (st.lt (w.secTermsLt x t ht)) (hC.up st)

theorem tri_setTerms {x : Nat} {ts : List Nat} {kw : List (Str × Val × List (Str × Val))}
    (hx : x < s.next ∧ (s.heap x).cls.isSection = true) (hts : ∀ t ∈ ts, t < s.next) (hC : C.Good s.next) :
    Tri C (setTerms x ts kw) (fun _ _ => True) s := by
  unfold setTerms
  refine tri_bind (tri_forL (I := fun _ => True) (fun t ht s' st _ => ?_) trivial) fun _ s1 st1 _ => ?_
  · exact tri_sectionAddTerm (st.lt hx.1) (st.lt (hts t ht)) (hC.up st)
  · refine tri_forL (I := fun _ => True) (fun e _ s' st _ => ?_) trivial
    exact tri_bind (tri_newTerm ((st1.trans st).isSec hx) (hC.up (st1.trans st))) fun _ _ _ _ => tri_pure trivial

end Metatab
