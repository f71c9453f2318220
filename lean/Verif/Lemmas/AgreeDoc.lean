import Verif.Lemmas.AgreeOps
/-! # The document and its sections list the same terms: listing, removing, and the operations on sections -/
namespace Metatab
open Py _root_.Spec
variable {s : St}

/-- What listing a term leaves alone. -/
structure KeepL (s s' : St) : Prop where
  names : ∀ i, (s'.heap i).pt = (s.heap i).pt ∧ (s'.heap i).rt = (s.heap i).rt
  p : s'.p = s.p
  classes : s'.classes = s.classes

theorem Own.keep {s s' : St} (h : Own s s') : KeepL s s' := ⟨h.names, h.p, h.classes⟩
theorem KeepL.trans {a b c : St} (h : KeepL a b) (k : KeepL b c) : KeepL a c :=
  ⟨fun i => ⟨(k.names i).1.trans (h.names i).1, (k.names i).2.trans (h.names i).2⟩, k.p.trans h.p, k.classes.trans h.classes⟩
theorem KeepL.refl (s : St) : KeepL s s := ⟨fun _ => ⟨rfl, rfl⟩, rfl, rfl⟩

/-- The state after a term was listed. -/
def listIn (s : St) (x t : Nat) : St :=
  { s with terms := s.terms ++ [t] }.setObj x { s.heap x with terms := (s.heap x).terms ++ [t] }

theorem proj_listIn {γ : Type} {x t : Nat} (p : Obj → γ) (hp : ∀ o l, p { o with terms := l } = p o) (j : Nat) :
    p ((listIn s x t).heap j) = p (s.heap j) := by
  unfold listIn
  rw [heap_setObj]; split
  · next e => subst e; exact hp _ _
  · rfl
theorem evo_listIn {x t : Nat} : Evo s (listIn s x t) :=
  ⟨Nat.le_refl _, rfl, fun i _ => proj_listIn (·.cls) (fun _ _ => rfl) i, fun _ h => h⟩
theorem keep_listIn {x t : Nat} : KeepL s (listIn s x t) :=
  ⟨fun i => ⟨proj_listIn (·.pt) (fun _ _ => rfl) i, proj_listIn (·.rt) (fun _ _ => rfl) i⟩, rfl, rfl⟩
theorem below_listIn {x t a b : Nat} : Under (listIn s x t) a b ↔ Under s a b := by
  unfold Under
  simp only [proj_listIn (·.children) (fun _ _ => rfl)]

/-- What remains to be done once the term is listed. -/
theorem at_listed {t x : Nat} (ht : t < s.next) (hs : (s.heap t).sec = some x)
    (hb : ∀ u, Under s t u → u ∈ s.terms → (s.heap u).sec = some x) (hm : t ∈ s.terms) :
    AT (do
      setOwnership t
      let o ← obj t
      M.assert (o.sec.isSome ∨ o.joinLc = py!"root.root")) (fun _ s' => KeepL s s' ∧ t ∈ s'.terms ∧ (s'.heap t).sec = some x) s := by
  refine at_bind (at_setOwnership ht hs hb) fun _ s1 _ _ o => at_obj (at_assert' fun _ => ⟨o.keep, ?_, ?_⟩)
  · rw [o.terms]; exact hm
  · rw [o.secs t hm]; exact hs

theorem at_sectionAddTerm {x t : Nat} (ht : t < s.next) (hl : Listable s t) (hs : (s.heap t).sec = some x) :
    AT (sectionAddTerm x t) (fun _ s' => KeepL s s' ∧ t ∈ s'.terms) s := by
  unfold sectionAddTerm
  obtain ⟨hns, hr, y, hy, hd, hb⟩ := hl
  rw [hs] at hy; cases hy
  refine at_inv fun w => at_get ?_
  dsimp only
  refine at_ite (fun h => ?_) fun h => ?_
  · rw [if_pos hr]
    have hn : t ∉ s.terms := by
      intro hm
      obtain ⟨y, a, b, c⟩ := w.listed t hm
      rw [hs] at a; cases a; exact h c
    -- the two lists are extended
    intro w
    have w1 : Inv (listIn s x t) := w.list ht hns hr hs hd hn
    rw [wp_bind, wp_upd]
    have e : ({ s.setObj x { s.heap x with terms := (s.heap x).terms ++ [t] } with terms := s.terms ++ [t] } : St) = listIn s x t := rfl
    have ho : ((s.setObj x { s.heap x with terms := (s.heap x).terms ++ [t] }).heap t).sec = some x := by
      rw [heap_setObj]; split
      · next e => subst e; exact hs
      · exact hs
    have hc : ((s.setObj x { s.heap x with terms := (s.heap x).terms ++ [t] }).heap t).cls.isSection = false := by
      rw [heap_setObj]; split
      · next e => subst e; exact hns
      · exact hns
    have hmem : t ∉ (s.setObj x { s.heap x with terms := (s.heap x).terms ++ [t] }).terms := hn
    rw [wp_bind]
    unfold docAddTermCore
    rw [wp_bind, wp_get]
    simp only [if_neg hmem]
    rw [wp_bind, wp_assert]
    refine ⟨fun _ => ?_, fun hf => by rw [ho] at hf; simp at hf⟩
    rw [hc]
    simp only [Bool.false_eq_true, if_false]
    rw [wp_bind, wp_modify]
    show wp (addTermFinish t) _ _ (listIn s x t)
    have sl : ((listIn s x t).heap t).sec = some x := by rw [proj_listIn (·.sec) (fun _ _ => rfl)]; exact hs
    have fin : AT (do
        addTermFinish t
        setOwnership t
        let o ← obj t
        M.assert (o.sec.isSome ∨ o.joinLc = py!"root.root")) (fun _ s' => KeepL s s' ∧ t ∈ s'.terms) (listIn s x t) := by
      refine at_bind (at_addTermFinish ht (by rw [proj_listIn (·.cls) (fun _ _ => rfl)]; exact hns)) fun _ s2 _ e2 ⟨o2, h2⟩ => ?_
      have hm2 : t ∈ s2.terms := by rw [o2.terms]; show t ∈ s.terms ++ [t]; simp
      refine at_mono (at_listed (e2.lt ht) (h2.trans sl) ?_ hm2) fun _ s3 _ _ h3 => ⟨(keep_listIn.trans o2.keep).trans h3.1, h3.2.1⟩
      intro u hu hm
      have hu' := below_listIn.1 (o2.below hu)
      have hum : u ∈ (listIn s x t).terms := by rw [← o2.terms]; exact hm
      rw [o2.secs u hum, proj_listIn (·.sec) (fun _ _ => rfl)]
      rcases List.mem_append.1 (show u ∈ s.terms ++ [t] from hum) with h1 | h1
      · exact hb u hu' h1
      · rw [List.mem_singleton.1 h1]; exact hs
    have := fin w1
    rw [wp_bind] at this
    exact wp_mono this (fun _ _ h => wp_mono h (fun _ _ ⟨a, b, c⟩ => ⟨a, evo_listIn.trans b, c⟩) fun _ _ h => h) fun _ _ h => h
  · refine at_obj (at_assert' fun _ => ⟨KeepL.refl s, ?_⟩)
    exact (w.mine x hd t (by simpa using h)).1

/-- A term of one of the document's sections, with nothing listed below it, is added to the document. -/
theorem at_docAddTerm {t : Nat} (ht : t < s.next) (hl : t ∈ s.terms ∨ Listable s t) :
    AT (docAddTerm t) (fun _ s' => t ∈ s'.terms) s := by
  unfold docAddTerm
  refine at_get (at_ite (fun h => at_pure h) fun hn => ?_)
  obtain ⟨hns, hr, x, hs, hd, hb⟩ := hl.resolve_left hn
  refine at_assert fun _ => ?_
  dsimp only
  rw [if_neg (by rw [hns]; decide), hs]
  dsimp only
  rw [if_pos hr]
  intro w
  rw [wp_bind, wp_modify, wp_bind]
  have w0 : addSection x { s with terms := s.terms ++ [t] } = .ok x { s with terms := s.terms ++ [t] } := by
    obtain ⟨k, hk⟩ := hd
    obtain ⟨_, hc, n, hv, e⟩ := w.secOk k x hk
    unfold addSection
    rw [← e] at hk
    simp only [bind_run, obj_run, hc, assert_run, if_true, hv, get_run, hk, pure_run]
  unfold wp
  rw [w0]
  dsimp only
  show wp _ _ _ _
  obtain ⟨v, hv⟩ := setSectionTerm_own w hns hs ht (s.terms ++ [t])
  rw [wp_bind]
  unfold wp
  rw [hv]
  dsimp only
  show wp _ _ _ _
  rw [wp_bind, wp_obj]
  have hsec : (({ s with terms := s.terms ++ [t] }.setObj t { s.heap t with value := v }).heap t).sec = some x := by
    rw [heap_setObj, if_pos rfl]; exact hs
  rw [hsec]
  dsimp only
  -- the same state with the list extended last
  have w1 : Inv (s.setObj t { s.heap t with value := v }) := w.setTerm ht hns rfl rfl rfl rfl rfl rfl
  generalize hs1 : s.setObj t { s.heap t with value := v } = s1 at w1
  have o1 : Own s s1 := by rw [← hs1]; exact Own.setObj rfl rfl rfl rfl
  have e1 : Evo s s1 := by rw [← hs1]; exact evo_setObj rfl
  have es : ({ s with terms := s.terms ++ [t] }.setObj t { s.heap t with value := v } : St) = { s1 with terms := s1.terms ++ [t] } := by
    rw [← hs1]; rfl
  rw [es]
  have hns1 : (s1.heap t).cls.isSection = false := e1.notSec ht hns
  have hs1' : (s1.heap t).sec = some x := by rw [← hs1, heap_setObj, if_pos rfl]; exact hs
  have hr1 : lower (s1.heap t).pt = ROOT := by rw [(o1.names t).1]; exact hr
  have hn1 : t ∉ s1.terms := by rw [o1.terms]; exact hn
  have hd1 : HasSec s1 x := e1.inDoc x hd
  have w2 : Inv (listIn s1 x t) := w1.list (e1.lt ht) hns1 hr1 hs1' hd1 hn1
  have hb1 : ∀ u, Under s1 t u → u ∈ s1.terms → (s1.heap u).sec = some x := by
    intro u hu hm
    have hm' : u ∈ s.terms := by rw [← o1.terms]; exact hm
    rw [o1.secs u hm']; exact hb u (o1.below hu) hm'
  have htx : t ∉ (s1.heap x).terms := fun h => hn1 (w1.mine x hd1 t h).1
  rw [wp_bind]
  unfold sectionAddTerm
  rw [wp_bind, wp_get]
  have htx' : t ∉ (({ s1 with terms := s1.terms ++ [t] } : St).heap x).terms := htx
  have hr1' : lower (({ s1 with terms := s1.terms ++ [t] } : St).heap t).pt = ROOT := hr1
  simp only [if_pos htx, if_pos hr1]
  rw [wp_bind, wp_upd]
  show wp _ _ _ (listIn s1 x t)
  rw [wp_bind]
  have hm2 : t ∈ (listIn s1 x t).terms := by show t ∈ s1.terms ++ [t]; simp
  have hcore : docAddTermCore t (listIn s1 x t) = .ok () (listIn s1 x t) := by
    unfold docAddTermCore
    simp only [bind_run, get_run, ite_run, if_pos hm2, pure_run]
  unfold wp
  rw [hcore]
  dsimp only
  show wp _ _ _ _
  have sl : ((listIn s1 x t).heap t).sec = some x := by rw [proj_listIn (·.sec) (fun _ _ => rfl)]; exact hs1'
  have fin : AT (do
      setOwnership t
      let o ← obj t
      M.assert (o.sec.isSome ∨ o.joinLc = py!"root.root")) (fun _ s' => KeepL (listIn s1 x t) s' ∧ t ∈ s'.terms ∧ (s'.heap t).sec = some x)
      (listIn s1 x t) := by
    refine at_listed (e1.lt ht) sl ?_ hm2
    intro u hu hm
    rw [proj_listIn (·.sec) (fun _ _ => rfl)]
    rcases List.mem_append.1 (show u ∈ s1.terms ++ [t] from hm) with h1 | h1
    · exact hb1 u (below_listIn.1 hu) h1
    · rw [List.mem_singleton.1 h1]; exact hs1'
  refine wp_mono (fin w2) (fun _ s3 ⟨a, b, c⟩ => ?_) fun _ _ h => h
  have e3 : Evo s s3 := (e1.trans evo_listIn).trans b
  refine wp_mono (at_addTermFinish (e3.lt ht) (e3.notSec ht hns) a) (fun _ s4 ⟨a', b', c'⟩ => ⟨a', e3.trans b', ?_⟩) fun _ _ h => h
  rw [c'.1.terms]; exact c.2.1

/-! ## Removing terms -/

/-- What removing a term leaves alone. -/
def Still (s s' : St) : Prop := ∀ i, (s'.heap i).pt = (s.heap i).pt ∧ (s'.heap i).sec = (s.heap i).sec

theorem Still.refl (s : St) : Still s s := fun _ => ⟨rfl, rfl⟩
theorem Still.trans {a b c : St} (h : Still a b) (k : Still b c) : Still a c :=
  fun i => ⟨(k i).1.trans (h i).1, (k i).2.trans (h i).2⟩
theorem Still.setObj {s : St} {i : Nat} {o : Obj} (h1 : o.pt = (s.heap i).pt) (h2 : o.sec = (s.heap i).sec) : Still s (s.setObj i o) := by
  intro j; rw [heap_setObj]; split
  · next e => subst e; exact ⟨h1, h2⟩
  · exact ⟨rfl, rfl⟩
theorem _root_.Spec.Removable.mono {s s' : St} {t : Nat} (h : Removable s t) (k : Still s s') (e : Evo s s') : Removable s' t := by
  intro x hx hr
  rw [(k t).2] at hx; rw [(k t).1] at hr
  exact e.inDoc x (h x hx hr)

/-- The state after a term was taken from the lists. -/
def delIn (s : St) (x t : Nat) : St :=
  { s with terms := s.terms.erase t }.setObj x { s.heap x with terms := (s.heap x).terms.erase t }

theorem proj_delIn {γ : Type} {x t : Nat} (p : Obj → γ) (hp : ∀ o l, p { o with terms := l } = p o) (j : Nat) :
    p ((delIn s x t).heap j) = p (s.heap j) := by
  unfold delIn
  rw [heap_setObj]; split
  · next e => subst e; exact hp _ _
  · rfl
theorem evo_delIn {x t : Nat} : Evo s (delIn s x t) :=
  ⟨Nat.le_refl _, rfl, fun i _ => proj_delIn (·.cls) (fun _ _ => rfl) i, fun _ h => h⟩
theorem still_delIn {x t : Nat} : Still s (delIn s x t) :=
  fun i => ⟨proj_delIn (·.pt) (fun _ _ => rfl) i, proj_delIn (·.sec) (fun _ _ => rfl) i⟩

theorem Inv.detach {s : St} (w : Inv s) {q t : Nat} (hq : q < s.next) :
    Inv (s.setObj q { s.heap q with children := (s.heap q).children.erase t }) :=
  w.setObj hq rfl rfl (fun h => ⟨rfl, (w.termsLt q h).2.2⟩) (fun h => ⟨rfl, rfl, rfl, w.noCol q hq h⟩)
    (fun c hc => w.kid q c (List.mem_of_mem_erase hc)) (w.secLt q hq) rfl

theorem at_removeTermF : ∀ f t {s : St}, t < s.next → (s.heap t).cls.isSection = false → Removable s t →
    AT (removeTermF f t) (fun _ s' => Still s s') s
  | 0, _, _, _, _, _ => at_raise
  | f + 1, t, s, ht, hns, hr => by
    unfold removeTermF
    have fin : ∀ s2, Evo s s2 → Still s s2 → AT (do
        let o ← obj t
        match o.parent with
        | some q => do
          let po ← obj q
          if t ∈ po.children then do
            upd q fun oq => { oq with children := oq.children.erase t }
            removeTermF f t
          else pure ()
        | none => pure ()) (fun _ s' => Still s s') s2 := by
      intro s2 e2 k2
      refine at_inv fun w2 => at_obj ?_
      cases (s2.heap t).parent with
      | none => exact at_pure k2
      | some q =>
        refine at_obj (at_ite (fun hm => ?_) fun _ => at_pure k2)
        have hq : q < s2.next := by
          rcases Nat.lt_or_ge q s2.next with h | h
          · exact h
          · rw [w2.fresh q h] at hm; cases hm
        have e3 : Evo s2 (s2.setObj q { s2.heap q with children := (s2.heap q).children.erase t }) := evo_setObj rfl
        have k3 : Still s2 (s2.setObj q { s2.heap q with children := (s2.heap q).children.erase t }) := Still.setObj rfl rfl
        refine at_upd rfl (fun w => w.detach hq) ?_
        refine at_mono (at_removeTermF f t ((e2.trans e3).lt ht) ((e2.trans e3).notSec ht hns) (hr.mono (k2.trans k3) (e2.trans e3)))
          fun _ s4 _ _ k4 => (k2.trans k3).trans k4
    intro w
    rw [wp_bind, wp_modify, wp_bind, wp_obj]
    have unl : t ∉ s.terms → ({ s with terms := s.terms.erase t } : St) = s := by
      intro h; rw [List.erase_of_not_mem h]
    dsimp only
    cases hs : (s.heap t).sec with
    | none =>
      have hn : t ∉ s.terms := fun h => by obtain ⟨x, a, _⟩ := w.listed t h; rw [hs] at a; cases a
      dsimp only
      rw [unl hn]
      exact fin s (Evo.refl s) (Still.refl s) w
    | some x =>
      dsimp only
      by_cases hp : lower (s.heap t).pt = ROOT
      · rw [if_pos hp]
        have hd : HasSec s x := hr x hs hp
        have w0 : addSection x { s with terms := s.terms.erase t } = .ok x { s with terms := s.terms.erase t } := by
          obtain ⟨k, hk⟩ := hd
          obtain ⟨_, hc, n, hv, e⟩ := w.secOk k x hk
          unfold addSection
          rw [← e] at hk
          simp only [bind_run, obj_run, hc, assert_run, if_true, hv, get_run, hk, pure_run]
        rw [wp_bind]
        unfold wp
        rw [w0]
        dsimp only
        show wp _ _ _ _
        obtain ⟨v, hv⟩ := setSectionTerm_own w hns hs ht (s.terms.erase t)
        rw [wp_bind]
        unfold wp
        rw [hv]
        dsimp only
        show wp _ _ _ _
        rw [wp_bind, wp_obj]
        have hsec : (({ s with terms := s.terms.erase t }.setObj t { s.heap t with value := v }).heap t).sec = some x := by
          rw [heap_setObj, if_pos rfl]; exact hs
        rw [hsec]
        dsimp only
        rw [wp_bind, wp_upd]
        have w1 : Inv (s.setObj t { s.heap t with value := v }) := w.setTerm ht hns rfl rfl rfl rfl rfl rfl
        generalize hs1 : s.setObj t { s.heap t with value := v } = s1 at w1
        have e1 : Evo s s1 := by rw [← hs1]; exact evo_setObj rfl
        have k1 : Still s s1 := by rw [← hs1]; exact Still.setObj rfl rfl
        have es : (({ s with terms := s.terms.erase t }.setObj t { s.heap t with value := v }).setObj x
            { ({ s with terms := s.terms.erase t }.setObj t { s.heap t with value := v }).heap x with
              terms := (({ s with terms := s.terms.erase t }.setObj t { s.heap t with value := v }).heap x).terms.erase t } : St) =
            delIn s1 x t := by
          rw [← hs1]; rfl
        rw [es]
        have w2 : Inv (delIn s1 x t) := w1.unlist (by rw [(k1 t).2]; exact hs) (e1.inDoc x hd)
        have e2 : Evo s (delIn s1 x t) := e1.trans evo_delIn
        exact wp_mono (fin _ e2 (k1.trans still_delIn) w2) (fun _ _ ⟨a, b, c⟩ => ⟨a, e2.trans b, c⟩) fun _ _ h => h
      · rw [if_neg hp]
        have hn : t ∉ s.terms := fun h => hp (w.termsLt t h).2.2
        rw [unl hn]
        exact fin s (Evo.refl s) (Still.refl s) w

theorem at_removeTerm {t : Nat} (ht : t < s.next) (hr : Removable s t) : AT (removeTerm t) (fun _ s' => Still s s') s := by
  unfold removeTerm
  exact at_get (at_ite (fun _ => at_raise) fun h => at_removeTermF _ t ht (by simpa using h) hr)

theorem at_removeChild {t c : Nat} (ht : t < s.next) (hr : c ∈ (s.heap t).children → Removable s c) :
    AT (removeChild t c) (fun _ s' => Still s s') s := by
  unfold removeChild
  refine at_inv fun w => at_obj (at_ite (fun h => ?_) fun _ => at_raise)
  have k : Still s (s.setObj t { s.heap t with children := (s.heap t).children.erase c }) := Still.setObj rfl rfl
  refine at_upd rfl (fun w => w.detach ht) (at_mono (at_removeTerm (w.kid t c h).1 ((hr h).mono k (evo_setObj rfl))) fun _ _ _ _ k' => k.trans k')

/-- A listed term may be removed. -/
theorem removable_listed (w : Inv s) {t : Nat} (h : t ∈ s.terms) : Removable s t := by
  intro x hx _
  obtain ⟨y, a, b, _⟩ := w.listed t h
  rw [hx] at a; cases a; exact b

/-! ## Terms of sections -/

/-- Nothing listed is below an object made just now. -/
theorem fresh_below {s s' : St} {t : Nat} (ht : s.next = t + 1) (w : Inv s) (hc : (s.heap t).children = []) (hn : ∀ u ∈ s.terms, u < t)
    (k : Kids s s') : ∀ u, Under s' t u → u ∉ s'.terms := by
  have h1 : ∀ a b, t ≤ a → b ∈ (s'.heap a).children → t + 1 ≤ b := by
    intro a b ha hb
    rcases k.kids a b hb with h | h
    · rcases Nat.lt_or_ge a s.next with h2 | h2
      · have : a = t := by omega
        subst this
        rw [hc] at h; cases h
      · rw [w.fresh a h2] at h; cases h
    · omega
  have h2 : ∀ u, Under s' t u → t + 1 ≤ u := by
    intro u hu
    induction hu with
    | single h => exact h1 t _ (Nat.le_refl _) h
    | tail _ h ih => exact h1 _ _ (by omega) h
  intro u hu hm
  rw [k.terms] at hm
  have := hn u hm
  have := h2 u hu
  omega

theorem at_newTerm {x : Nat} {term : Str} {value : Val} {kw : List (Str × Val)} (hx : HasSec s x) (hn : RootLevel term) :
    AT (newTerm x term value kw) (fun t s' => t ∈ s'.terms) s := by
  unfold newTerm
  refine at_inv fun w => at_get ?_
  have hxs : x < s.next ∧ (s.heap x).cls.isSection = true := by
    obtain ⟨k, hk⟩ := hx
    exact ⟨(w.secOk k x hk).1, (w.secOk k x hk).2.1⟩
  refine at_bind (at_construct (.inr rfl) (fun y h => by cases h; exact hxs)) fun t s1 w1 e1 ⟨cl, f, hcl⟩ => ?_
  have hns : (s1.heap t).cls.isSection = false := by rw [f.at_.2.2.2.2.1]; exact hcl
  refine at_bind (at_newChildren f.lt) fun _ s2 w2 e2 k2 => ?_
  have hnm := k2.names t f.lt
  have hl : Listable s2 t := by
    refine ⟨e2.notSec f.lt hns, ?_, x, ?_, (e1.trans e2).inDoc x hx, fun u hu hm => ?_⟩
    · rw [hnm.1]; exact rootLevel_split hn (f.at_.2.2.2.2.2.2.2.2.2.2 rfl)
    · rw [hnm.2]; exact f.at_.2.2.2.1
    · refine absurd hm (fresh_below (by rw [f.next, f.eq]) w1 f.at_.1 (fun v hv => ?_) k2 u hu)
      rw [f.rest.2.1] at hv
      rw [f.eq]; exact (w.termsLt v hv).1
  refine at_bind (at_docAddTerm (e2.lt f.lt) (.inr hl)) fun _ s3 _ _ h => at_pure h

theorem find_rootLevel (w : Inv s) {term : Str} (hn : RootLevel term) {v : Val} {sec : Option (List Str)} {l : List Nat}
    (h : find s term v sec = .ok l) : ∀ t ∈ l, t ∈ s.terms := by
  unfold find at h
  rw [w.noDerived] at h
  simp only [Dict.get?_nil] at h
  unfold findOne at h
  have hst : startsWith (py!"root.") (if '.' ∉ lower term then py!"root." ++ lower term else lower term) = true := by
    split
    · rfl
    · next hd =>
      rcases hn with hn | ⟨r, hr⟩
      · exact absurd (dot_mem_lower.not.2 hn) hd
      · rw [hr]; rfl
  simp only [hst, if_true, bind, Except.bind] at h
  exact fun t ht => mem_filterE h t ht

theorem findFirst_rootLevel (w : Inv s) {term : Str} (hn : RootLevel term) {v : Val} {sec : Option (List Str)} {t : Nat}
    (h : findFirst s term v sec = .ok (some t)) : t ∈ s.terms := by
  unfold findFirst at h
  cases hf : find s term v sec with
  | error e => rw [hf] at h; cases h
  | ok l =>
    rw [hf] at h
    simp only [bind, Except.bind, pure, Except.pure] at h
    injection h with h
    exact find_rootLevel w hn hf t (List.mem_of_mem_head? h)

theorem sectionFindFirst_rootLevel (w : Inv s) {x : Nat} {term : Str} (hn : RootLevel term) {v : Val} {t : Nat}
    (h : sectionFindFirst s x term v = .ok (some t)) : t ∈ s.terms := by
  unfold sectionFindFirst at h
  split at h
  · exact findFirst_rootLevel w hn h
  · exact findFirst_rootLevel w hn h
  · cases h

theorem at_getOrNewTerm {x : Nat} {term : Str} {value : Val} {kw : List (Str × Val)} (hx : HasSec s x) (hn : RootLevel term) :
    AT (getOrNewTerm x term value kw) (fun t s' => t < s'.next ∧ (s'.heap t).cls.isSection = false) s := by
  unfold getOrNewTerm
  refine at_inv fun w => at_lift fun a ha => ?_
  cases a with
  | none => exact at_mono (at_newTerm hx hn) fun t s' w' _ h => ⟨(w'.termsLt t h).1, (w'.termsLt t h).2.1⟩
  | some t =>
    have htm := sectionFindFirst_rootLevel w hn ha
    obtain ⟨ht, hns, _⟩ := w.termsLt t htm
    dsimp only
    have fin : ∀ s1, Evo s s1 → AT (do
        forL (fun kv => do let _ ← getOrNewChild0 t kv.1 kv.2) kw
        return t) (fun t s' => t < s'.next ∧ (s'.heap t).cls.isSection = false) s1 := by
      intro s1 st
      refine at_bind (at_forL (I := fun _ => True) (fun a _ s' st' _ => ?_) trivial) fun _ s2 _ st2 _ => ?_
      · exact at_bind (at_getOrNewChild0 ((st.trans st').lt ht)) fun _ _ _ _ _ => at_pure trivial
      · exact at_pure ⟨(st.trans st2).lt ht, (st.trans st2).notSec ht hns⟩
    refine at_ite (fun _ => ?_) fun _ => fin s (Evo.refl s)
    exact at_bind (at_setValue ht hns) fun _ s1 _ st _ => fin s1 st

theorem at_setItem {t : Nat} {item : Str} {value : Val} (ht : t < s.next) (hns : (s.heap t).cls.isSection = false)
    (hr : value = .none → ∀ c ∈ (s.heap t).children, Removable s c) : AT (setItem t item value) (fun _ _ => True) s := by
  unfold setItem
  refine at_obj (at_ite (fun h => ?_) fun _ => at_mono (at_setItemSome ht hns) fun _ _ _ _ _ => trivial)
  refine at_lift fun a _ => ?_
  cases a with
  | none => exact at_pure trivial
  | some c => exact at_mono (at_removeChild ht (hr h.1 c)) fun _ _ _ _ _ => trivial

theorem at_setTerms {x : Nat} {kw : List (Str × Val × List (Str × Val))} (hx : HasSec s x) (hk : ∀ e ∈ kw, RootLevel e.1) :
    AT (setTerms x [] kw) (fun _ _ => True) s := by
  unfold setTerms
  refine at_bind (Q := fun _ s' => s' = s) (at_pure rfl) fun _ s' _ _ e => ?_
  subst e
  refine at_forL (I := fun _ => True) (fun e he s1 e1 _ => ?_) trivial
  exact at_bind (at_newTerm (e1.inDoc x hx) (hk e he)) fun _ _ _ _ _ => at_pure trivial

theorem at_cleanSection {x : Nat} (hx : HasSec s x) : AT (cleanSection x) (fun _ _ => True) s := by
  unfold cleanSection
  refine at_inv fun w => at_obj ?_
  refine at_mono (at_forL (I := fun s' => Still s s') (fun t ht s1 e1 k1 => ?_) (Still.refl s)) fun _ _ _ _ _ => trivial
  have hm := (w.mine x hx t ht).1
  exact at_mono (at_removeTerm (e1.lt (w.termsLt t hm).1) ((removable_listed w hm).mono k1 e1)) fun _ _ _ _ k => k1.trans k

/-- One section's list of terms changed. -/
def setList (s : St) (x : Nat) (l : List Nat) : St := s.setObj x { s.heap x with terms := l }

theorem proj_setList {γ : Type} {x : Nat} {l : List Nat} (p : Obj → γ) (hp : ∀ o l, p { o with terms := l } = p o) (j : Nat) :
    p ((setList s x l).heap j) = p (s.heap j) := by
  unfold setList
  rw [heap_setObj]; split
  · next e => subst e; exact hp _ _
  · rfl

theorem propertyNames_setList {x t : Nat} {l : List Nat} : propertyNames (setList s x l) t = propertyNames s t := by
  have p1 := proj_setList (s := s) (x := x) (l := l) (·.cls) fun _ _ => rfl
  have p3 := proj_setList (s := s) (x := x) (l := l) (·.sec) fun _ _ => rfl
  have p5 := proj_setList (s := s) (x := x) (l := l) (·.args) fun _ _ => rfl
  have p6 := proj_setList (s := s) (x := x) (l := l) (·.headerArgs) fun _ _ => rfl
  unfold propertyNames Obj.secPropertyNames
  simp only [p1, p3, p5, p6]

/-- The first round of removing a listed term does not depend on whether the section's list still has it. -/
theorem removeTermF_relisted (w : Inv s) {t x : Nat} (ht : t < s.next) (hns : (s.heap t).cls.isSection = false) (hs : (s.heap t).sec = some x)
    (hp : lower (s.heap t).pt = ROOT) (hd : HasSec s x) (f : Nat) :
    removeTermF (f + 1) t (setList s x ((s.heap x).terms.erase t)) = removeTermF (f + 1) t s := by
  obtain ⟨k, hk⟩ := hd
  obtain ⟨hxl, hc, n, hv, e⟩ := w.secOk k x hk
  have hne : x ≠ t := by intro h; subst h; rw [hns] at hc; cases hc
  have hpl := plain_props w hns hs ht
  rw [← e] at hk
  -- what a round does with a list
  have round : ∀ l, removeTermF (f + 1) t (setList s x l) = (do
      let o ← obj t
      match o.parent with
      | some q => do
        let po ← obj q
        if t ∈ po.children then do
          upd q fun oq => { oq with children := oq.children.erase t }
          removeTermF f t
        else pure ()
      | none => pure () : M Unit) ((setList { s with terms := s.terms.erase t } x (l.erase t)).setObj t
        { s.heap t with value := if lower (s.heap t).tvn = py!"section" then .obj x else (s.heap t).value }) := by
    intro l
    have ht' : (setList s x l).heap t = s.heap t := by
      unfold setList; rw [heap_setObj, if_neg (Ne.symm hne)]
    rw [removeTermF, bind_run, modify_run]
    dsimp only
    rw [bind_run, obj_run]
    dsimp only
    rw [ht', hs]
    dsimp only
    rw [if_pos hp]
    have w0 : addSection x { setList s x l with terms := (setList s x l).terms.erase t } =
        .ok x { setList s x l with terms := (setList s x l).terms.erase t } := by
      unfold addSection
      have q1 : ((setList s x l).heap x).cls.isSection = true := by rw [proj_setList (·.cls) fun _ _ => rfl]; exact hc
      have q2 : ((setList s x l).heap x).value = .str n := by rw [proj_setList (·.value) fun _ _ => rfl]; exact hv
      have q3 : (setList s x l).sections.get? (lower n) = some x := hk
      simp only [bind_run, obj_run, q1, assert_run, if_true, q2, get_run, q3, pure_run]
    rw [bind_run, w0]
    dsimp only
    have w1 : setSectionTerm t x { setList s x l with terms := (setList s x l).terms.erase t } = .ok () (({ setList s x l with terms := (setList s x l).terms.erase t }).setObj t
        { s.heap t with value := if lower (s.heap t).tvn = py!"section" then .obj x else (s.heap t).value }) := by
      unfold setSectionTerm
      have hpl' : py!"section" ∉ (propertyNames ({ setList s x l with terms := (setList s x l).terms.erase t }) t).map lower := by
        have : propertyNames ({ setList s x l with terms := (setList s x l).terms.erase t }) t = propertyNames s t := by
          show propertyNames (setList s x l) t = _
          exact propertyNames_setList
        rw [this]; exact hpl
      simp only [bind_run, get_run, ite_run, upd_run]
      have htt : ({ setList s x l with terms := (setList s x l).terms.erase t } : St).heap t = s.heap t := ht'
      rw [htt]
      by_cases h : lower (s.heap t).tvn = py!"section"
      · simp only [if_pos h]
      · simp only [if_neg h, if_neg hpl', ← hs]
    rw [bind_run, w1]
    dsimp only
    rw [bind_run, obj_run]
    dsimp only
    rw [heap_setObj, if_pos rfl]
    simp only [hs]
    rw [bind_run, upd_run]
    dsimp only
    refine congrArg _ ?_
    unfold setList St.setObj
    dsimp only
    refine congrArg (fun h => ({ s with heap := h, terms := s.terms.erase t } : St)) ?_
    funext j
    by_cases hj : j = x
    · subst hj; simp [hne]
    · by_cases hjt : j = t
      · subst hjt; simp [hj, hs]
      · simp [hj, hjt]
  have h1 := round ((s.heap x).terms.erase t)
  have h2 := round (s.heap x).terms
  have e0 : setList s x (s.heap x).terms = s := by
    unfold setList St.setObj
    congr 1; funext j; split
    · next h => rw [h]
    · rfl
  rw [e0] at h2
  have hnd := w.secNodup x ⟨_, hk⟩
  have e1 : ((s.heap x).terms.erase t).erase t = (s.heap x).terms.erase t :=
    List.erase_of_not_mem hnd.not_mem_erase
  rw [h1, h2, e1]

/-- A change to the list of a section that the document does not have. -/
theorem Inv.relistOut {s : St} (w : Inv s) {x : Nat} (hx : ¬ HasSec s x) {l : List Nat} : Inv (setList s x l) := by
  have p1 := proj_setList (s := s) (x := x) (l := l) (·.cls) fun _ _ => rfl
  have p2 := proj_setList (s := s) (x := x) (l := l) (·.pt) fun _ _ => rfl
  have p3 := proj_setList (s := s) (x := x) (l := l) (·.sec) fun _ _ => rfl
  have p4 := proj_setList (s := s) (x := x) (l := l) (·.value) fun _ _ => rfl
  have p5 := proj_setList (s := s) (x := x) (l := l) (·.args) fun _ _ => rfl
  have p6 := proj_setList (s := s) (x := x) (l := l) (·.headerArgs) fun _ _ => rfl
  have p7 := proj_setList (s := s) (x := x) (l := l) (·.tvn) fun _ _ => rfl
  have p8 := proj_setList (s := s) (x := x) (l := l) (·.rt) fun _ _ => rfl
  have p9 := proj_setList (s := s) (x := x) (l := l) (·.children) fun _ _ => rfl
  have p10 := proj_setList (s := s) (x := x) (l := l) (·.isDecl) fun _ _ => rfl
  have tm : ∀ y, HasSec s y → (setList s x l).heap y = s.heap y := by
    intro y hy
    unfold setList
    rw [heap_setObj, if_neg]
    intro e; subst e; exact hx hy
  refine ⟨w.rootLt, ?_, w.termsNodup, ?_, ?_, ?_, ?_, w.keysNodup, ?_, ?_, ?_, ?_, ?_, w.decl, w.noSuper, w.noDerived, ?_⟩
  · intro u hu; rw [p1, p2]; exact w.termsLt u hu
  · intro u hu
    obtain ⟨y, a, b, c⟩ := w.listed u hu
    exact ⟨y, by rw [p3]; exact a, b, by rw [tm y b]; exact c⟩
  · intro y hy u hu
    rw [tm y hy] at hu
    rw [p3]; exact w.mine y hy u hu
  · intro y hy; rw [tm y hy]; exact w.secNodup y hy
  · intro k y hy; rw [p1, p4]; exact w.secOk k y hy
  · intro y hy; rw [p1, p5, p6, p7]; exact w.noCol y hy
  · intro y hy; rw [p1, p2, p8]; exact w.secName y hy
  · intro i c; rw [p9, p1]; exact w.kid i c
  · intro i; rw [p9]; exact w.fresh i
  · intro i hi y; rw [p3, p1]; exact w.secLt i hi y
  · intro i; rw [p10]; exact w.noDecl i

theorem at_sectionRemoveTerm {x t : Nat} (ht : t < s.next) (hr : Removable s t) : AT (sectionRemoveTerm x t) (fun _ _ => True) s := by
  unfold sectionRemoveTerm
  refine at_inv fun w => ?_
  by_cases h : HasSec s x ∧ t ∈ (s.heap x).terms
  · obtain ⟨hd, hm⟩ := h
    obtain ⟨hl, hs⟩ := w.mine x hd t hm
    obtain ⟨_, hns, hp⟩ := w.termsLt t hl
    intro w
    rw [wp_bind, wp_upd]
    show wp (removeTerm t) _ _ (setList s x ((s.heap x).terms.erase t))
    have e : removeTerm t (setList s x ((s.heap x).terms.erase t)) = removeTerm t s := by
      unfold removeTerm
      rw [bind_run, get_run, bind_run, get_run]
      dsimp only
      rw [proj_setList (·.cls) fun _ _ => rfl, hns]
      simp only [Bool.false_eq_true, if_false]
      have hrr : removeRounds (setList s x ((s.heap x).terms.erase t)) t = removeRounds s t := by
        unfold removeRounds
        simp only [proj_setList (·.parent) (fun _ _ => rfl), proj_setList (·.children) (fun _ _ => rfl)]
      rw [hrr]
      have : ∃ f, removeRounds s t = f + 1 := by
        unfold removeRounds
        split
        · exact ⟨_, rfl⟩
        · exact ⟨0, rfl⟩
      obtain ⟨f, hf⟩ := this
      rw [hf]
      exact removeTermF_relisted w ht hns hs hp hd f
    unfold wp
    rw [e]
    exact wp_mono (at_removeTerm ht hr w) (fun _ _ h => ⟨h.1, h.2.1, trivial⟩) fun _ _ h => h
  · have hw : Inv s → Inv (setList s x ((s.heap x).terms.erase t)) := by
      intro w
      by_cases hd : HasSec s x
      · have hm : t ∉ (s.heap x).terms := fun hm => h ⟨hd, hm⟩
        rw [List.erase_of_not_mem hm]
        obtain ⟨k, hk⟩ := hd
        exact w.relist (w.secOk k x hk).1 (.refl _)
      · exact w.relistOut hd
    refine at_upd rfl hw (at_mono (at_removeTerm ht (hr.mono (Still.setObj rfl rfl) (evo_setObj rfl))) fun _ _ _ _ _ => trivial)

/-! ## Sections -/

theorem at_newSection {name : Str} {ps : List Str} (hf : FreeName s name) (hp : NoSectionColumn ps) :
    AT (newSection name ps) (fun x s' => HasSec s' x) s := by
  unfold newSection
  refine at_bind (at_newSectionObj rfl hp) fun x s1 w1 e1 ⟨a, f⟩ => ?_
  obtain ⟨h1, h2, h3⟩ := hf
  have hv : (s1.heap x).value = .str name := by
    rw [f.at_.2.2.2.2.2.2.2.2.2.1]
    show Val.mk (.str name) = _
    unfold Val.mk Val.truthy
    cases name with
    | nil => exact absurd rfl h2
    | cons c l => simp only [List.isEmpty_cons, Bool.not_false, if_true, h1]
  have hc : (s1.heap x).cls.isSection = true := by rw [f.at_.2.2.2.2.1]; rfl
  have hg : s1.sections.get? (lower name) = none := by rw [f.rest.1]; exact h3
  refine at_modify (fun w => w.register f.lt hc hv hg f.at_.2.1) (evo_register hg) (at_get ?_)
  dsimp only
  cases hd : s1.declSecs.get? (lower name) with
  | none => exact at_pure ⟨lower name, Dict.get?_set_self _ _ _⟩
  | some d =>
    refine at_upd rfl (fun w => ?_) (at_pure ⟨lower name, Dict.get?_set_self _ _ _⟩)
    refine w.setObj f.lt rfl rfl (fun h => ⟨rfl, (w.termsLt x h).2.2⟩) (fun h => ⟨rfl, rfl, rfl, w1.decl _ d hd, (w.noCol x f.lt h).2⟩) (w.kid x)
      (w.secLt x f.lt) rfl

theorem at_getOrNewSection {name : Str} {ps : List Str} (hf : s.sections.get? name ≠ none ∨ FreeName s name) (hp : NoSectionColumn ps) :
    AT (getOrNewSection name ps) (fun _ _ => True) s := by
  unfold getOrNewSection
  refine at_get (at_ite (fun h => ?_) fun _ => at_lift' fun _ _ => trivial)
  have hf' : FreeName s name := by
    refine hf.resolve_left fun hne => ?_
    have : s.sections.has name = false := by simpa using h
    rw [Ne, Dict.get?_eq_none] at hne
    rw [← Dict.has_iff, this] at hne
    exact hne Bool.false_ne_true
  refine at_bind (at_newSectionObj rfl hp) fun x s1 w1 e1 ⟨a, f⟩ => ?_
  obtain ⟨h1, h2, h3⟩ := hf'
  have hv : (s1.heap x).value = .str name := by
    rw [f.at_.2.2.2.2.2.2.2.2.2.1]
    show Val.mk (.str name) = _
    unfold Val.mk Val.truthy
    cases name with
    | nil => exact absurd rfl h2
    | cons c l => simp only [List.isEmpty_cons, Bool.not_false, if_true, h1]
  have hc : (s1.heap x).cls.isSection = true := by rw [f.at_.2.2.2.2.1]; rfl
  have hg : s1.sections.get? (lower name) = none := by rw [f.rest.1]; exact h3
  exact at_modify (fun w => w.register f.lt hc hv hg f.at_.2.1) (evo_register hg) (at_lift' fun _ _ => trivial)

theorem removeAll_ok : ∀ {l : List Nat} {s : St}, l.Nodup → (∀ t ∈ l, t ∈ s.terms) → s.terms.Nodup →
    ∃ r, removeAll l s = .ok () { s with terms := r } ∧ r.Nodup ∧ ∀ t, t ∈ r ↔ t ∈ s.terms ∧ t ∉ l
  | [], s, _, _, hn => ⟨s.terms, rfl, hn, fun t => by simp⟩
  | a :: l, s, hl, hm, hn => by
    obtain ⟨h1, h2⟩ := List.nodup_cons.1 hl
    have ha : a ∈ s.terms := hm a List.mem_cons_self
    obtain ⟨r, e, h3, h4⟩ := removeAll_ok (l := l) (s := { s with terms := s.terms.erase a }) h2 (fun t ht => by
      show t ∈ s.terms.erase a
      rw [hn.mem_erase_iff]
      exact ⟨fun e => h1 (e ▸ ht), hm t (List.mem_cons_of_mem _ ht)⟩) (hn.erase a)
    refine ⟨r, ?_, h3, fun t => ?_⟩
    · unfold removeAll
      rw [bind_run, get_run]
      dsimp only
      rw [ite_run, if_pos ha, bind_run, modify_run]
      exact e
    · rw [h4 t]
      show t ∈ s.terms.erase a ∧ _ ↔ _
      rw [hn.mem_erase_iff, List.mem_cons, not_or]
      exact ⟨fun ⟨⟨a1, a2⟩, a3⟩ => ⟨a2, a1, a3⟩, fun ⟨a1, a2, a3⟩ => ⟨⟨a2, a1⟩, a3⟩⟩

/-- Deleting a section by its key. -/
theorem inv_delSection (w : Inv s) {name : Str} (hn : lower name = name) : ∃ s', delSection name s = .ok () s' ∧ Inv s' := by
  unfold delSection
  rw [bind_run, get_run]
  dsimp only
  cases hg : s.sections.get? name with
  | none =>
    refine ⟨_, rfl, ?_⟩
    refine w.sections (fun k => ?_) (Dict.nodup_del w.keysNodup _)
    rw [hn, Dict.get?_del w.keysNodup]
    split
    · next e => rw [← e, hg]
    · rfl
  | some x =>
    dsimp only
    obtain ⟨r, e, h1, h2⟩ := removeAll_ok (w.secNodup x ⟨_, hg⟩) (fun t ht => (w.mine x ⟨_, hg⟩ t ht).1) w.termsNodup
    rw [bind_run, e]
    dsimp only
    rw [modify_run, hn]
    exact ⟨_, rfl, w.unregister hg h2 h1⟩

theorem evo_sections {d : Dict Nat} (h : ∀ k, d.get? k = s.sections.get? k) : Evo s { s with sections := d } :=
  ⟨Nat.le_refl _, rfl, fun _ _ => rfl, fun _ ⟨k, hk⟩ => ⟨k, (h k).trans hk⟩⟩

theorem at_sortSections {order : List Str} : AT (sortSections order) (fun _ _ => True) s := by
  unfold sortSections
  refine at_inv fun w => at_get (at_assert fun h => ?_)
  have hp := sortedSections_perm w.keysNodup (order := order) (by simpa using h)
  have hn : (sortedSections s.sections order).keys.Nodup := (hp.map _).nodup_iff.2 w.keysNodup
  have hg : ∀ k, (sortedSections s.sections order).get? k = s.sections.get? k := by
    intro k
    cases h1 : s.sections.get? k with
    | some v => exact Dict.get?_of_mem hn (hp.mem_iff.2 (Dict.mem_of_get? h1))
    | none =>
      cases h2 : (sortedSections s.sections order).get? k with
      | none => rfl
      | some v =>
        rw [Dict.get?_of_mem w.keysNodup (hp.mem_iff.1 (Dict.mem_of_get? h2))] at h1
        cases h1
  exact at_modify' (fun w => w.sections hg hn) (evo_sections hg) trivial

theorem at_sortByTerm {x : Nat} {order : Option (List Str)} (hx : x < s.next) : AT (sortByTerm x order) (fun _ _ => True) s := by
  unfold sortByTerm
  refine at_get ?_
  have fin : ∀ l, l.Perm (s.heap x).terms → AT (upd x fun o => { o with terms := l }) (fun _ _ => True) s :=
    fun l h => at_upd' rfl (fun w => w.relist hx h) trivial
  split
  · exact at_bind (Q := fun a s' => s' = s ∧ a.Perm (s.heap x).terms) (at_pure ⟨rfl, sortBy_perm _ _⟩)
      fun a s' _ _ ⟨e, h⟩ => by subst e; exact fin a h
  · exact at_lift fun a ha => fin a (orderedTerms_perm ha)

theorem at_setArgs {x : Nat} {g : List Str → List Str} (hx : x < s.next) (hg : ∀ l, NoSectionColumn l → NoSectionColumn (g l)) :
    AT (upd x fun o => { o with args := g o.args }) (fun _ _ => True) s := by
  refine at_upd' rfl (fun w => ?_) trivial
  exact w.setObj hx rfl rfl (fun h => ⟨rfl, (w.termsLt x h).2.2⟩) (fun h => ⟨rfl, rfl, rfl, hg _ (w.noCol x hx h).1, (w.noCol x hx h).2⟩) (w.kid x)
      (w.secLt x hx) rfl

theorem noSection_clean {l : List Str} (h : NoSectionColumn l) : NoSectionColumn (cleanArgs l) :=
  fun a ha => noSection_map h a (List.mem_filter.1 ha).1

end Metatab
