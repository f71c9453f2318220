import Verif.Lemmas.Answers
import Verif.Props.Sections
/-! # C95: taking back what was just made -/
namespace Metatab
open Py _root_.Spec

/-! ## Terms -/

theorem addTermFinish_sets {s s' : St} {t : Nat} {u : Unit} (h : addTermFinish t s = .ok u s') :
    ∃ c v, s' = s.setObj t { s.heap t with cpt := c, tvn := v } := by
  have tail : ∀ {s1 s' : St} {u : Unit} {b : Bool} {v : Str}, (if b = true then setTvn t v else pure () : M Unit) s1 = .ok u s' →
      s' = s1 ∨ s' = s1.setObj t { s1.heap t with tvn := v } := by
    intro s1 s' u b v h
    cases b
    · cases h; exact .inl rfl
    · unfold setTvn at h
      simp only [if_true] at h
      by_cases hv : lower v ∈ reservedTvn
      · rw [if_pos hv] at h; cases h
      · rw [if_neg hv] at h; cases h; exact .inr rfl
  have self : s = s.setObj t { s.heap t with cpt := (s.heap t).cpt, tvn := (s.heap t).tvn } := (setObj_same s t).symm
  unfold addTermFinish at h
  rw [bind_run, get_run] at h
  dsimp only at h
  cases hx : (s.heap t).sec with
  | none =>
    rw [hx] at h
    dsimp only at h
    by_cases hcpt : (s.heap t).cpt = [] ∨ (s.heap t).cpt = py!"any"
    · rw [if_pos hcpt, bind_run, upd_run] at h; cases h
    · rw [if_neg hcpt] at h; cases h
  | some x =>
    rw [hx] at h
    dsimp only at h
    generalize hc : decide ((s.heap t).tvn = [] ∨ (s.heap t).tvn = (s.heap x).defTvn) = c at h
    have hc' : ((s.heap t).tvn = [] ∨ (s.heap t).tvn = (s.heap x).defTvn) ↔ c = true := by rw [← hc]; simp
    by_cases hcpt : (s.heap t).cpt = [] ∨ (s.heap t).cpt = py!"any"
    · rw [if_pos hcpt, bind_run, upd_run] at h
      simp only [hc'] at h
      rcases tail h with rfl | rfl
      · exact ⟨_, _, rfl⟩
      · rw [setObj_setObj, heap_setObj, if_pos rfl]; exact ⟨_, _, rfl⟩
    · rw [if_neg hcpt] at h
      simp only [hc'] at h
      rcases tail h with rfl | rfl
      · exact ⟨_, _, self⟩
      · exact ⟨_, _, rfl⟩

/-- What `new_term` has done when it returns, whatever the name is. -/
structure TermMade (s : St) (x : Nat) (t : Nat) (s' : St) : Prop where
  new : t = s.next
  next : s.next < s'.next
  terms : s'.terms = s.terms ++ [t]
  sec : (s'.heap t).sec = some x
  parent : (s'.heap t).parent = none
  cls : (s'.heap t).cls.isSection = false
  others : ∀ j, j < s.next → j ≠ x → s'.heap j = s.heap j
  home : s'.heap x = s.heap x ∨ lower (s'.heap t).pt = ROOT ∧ s'.heap x = { s.heap x with terms := (s.heap x).terms ++ [t] }
  rest : s' = { s with heap := s'.heap, next := s'.next, terms := s'.terms }

theorem newTerm_made {s s' : St} (h : Reach (fun _ => True) s) {x : Nat} {n : Str} (hx : Registered s x n) {term : Str} {v : Val}
    {kw : List (Str × Val)} {t : Nat} (he : newTerm x term v kw s = .ok t s') : TermMade s x t s' := by
  have w : WF False s := h.wf fun f => f.elim
  have hxlt : x < s.next := (w.secsLt (lower n, x) (Dict.mem_of_get? hx.known)).1
  have hnt : s.next ∉ s.terms := fun m => absurd (w.termsLt _ m).1 (by omega)
  have hnx : s.next ∉ (s.heap x).terms := fun m => absurd (w.secTermsLt x _ m) (by omega)
  unfold newTerm at he
  rw [bind_run, get_run] at he
  dsimp only at he
  rw [bind_run] at he
  have h1 := ab_construct s.next (docTermClass s (lower term)) term v none (some x) s (Nat.le_refl _)
  cases hcon : construct (docTermClass s (lower term)) term v none (some x) s with
  | err e1 s1 => rw [hcon] at he; cases he
  | ok c s1 =>
    rw [hcon] at he h1
    obtain ⟨o, p, q1, q2, q3, q4, q5, q6, q7, q8, rfl, q10⟩ := construct_in hcon
    dsimp only at he
    rw [bind_run] at he
    have h2 := h1.trans (ab_newChildren (Nat.le_refl _) kw s1 h1.next)
    cases hkk : newChildren s.next kw s1 with
    | err e2 s2 => rw [hkk] at he; cases he
    | ok u s2 =>
      rw [hkk] at he h2
      dsimp only at he
      have e1 : s1.heap s.next = o := by rw [q10, heap_setObj, if_pos rfl]
      have hlt1 : s.next < s1.next := by rw [q10]; exact Nat.lt_succ_self _
      have ka := newChildren_added hlt1 hkk
      obtain ⟨ks, e2, hks⟩ := ka.self
      rw [e1, q5] at e2
      have hxe : s2.heap x = s.heap x := Above.objs h2 x hxlt
      have h2 : Above s.next s s2 := h2
      have hr := h2.rest
      have hterms : s2.terms = s.terms := by rw [hr]
      have hsecs : s2.sections = s.sections := by rw [hr]
      have hsec2 : (s2.heap s.next).sec = some x := by rw [e2]; exact q4
      have hlt2 : s.next < s2.next := Nat.lt_of_lt_of_le hlt1 ka.next
      have hcl2 : (s2.heap s.next).cls.isSection = false := by rw [e2]; exact q8
      have hpar2 : (s2.heap s.next).parent = none := by rw [e2]; exact q3
      rw [bind_run] at he
      cases hd : docAddTerm s.next s2 with
      | err e3 s3 => rw [hd] at he; cases he
      | ok u3 s3 =>
        rw [hd] at he
        cases he
        by_cases hpt : p = ROOT
        · have hp2 : (s2.heap s.next).pt = ROOT := by rw [e2]; exact q2.trans hpt
          rw [docAddTerm_kids_pre (s := s2) (t := s.next) (x := x) (n := n) ⟨by rw [hxe]; exact hx.cls, by rw [hxe]; exact hx.value,
            by rw [hsecs]; exact hx.known, by rw [hxe]; exact hx.plain⟩ hlt2 (by omega) hsec2
            hp2 (by rw [e2]; exact q6) hcl2 (by rw [hterms]; exact hnt) (by rw [hxe]; exact hnx) (by
              intro c hc
              rw [e2] at hc
              obtain ⟨r1, r2, r3, r4, r5⟩ := hks c (by simpa using hc)
              exact ⟨by omega, r3, by rw [r4, e1]; exact q4, r5⟩)] at hd
          obtain ⟨a, b, rfl⟩ := addTermFinish_sets hd
          have hne : s.next ≠ x := by omega
          refine ⟨rfl, hlt2, ?_, ?_, ?_, ?_, fun j hj hjx => ?_, ?_, ?_⟩
          · show s2.terms ++ _ = _; rw [hterms]
          · simp [heap_setObj, hne, hsec2]
          · simp [heap_setObj, hne, hpar2]
          · simp [heap_setObj, hne, hcl2]
          · rw [heap_setObj, if_neg (by omega), heap_setObj, if_neg hjx]; exact h2.objs j hj
          · have hl : lower ROOT = ROOT := by decide
            have hpt' : lower ({ s2 with terms := s2.terms ++ [s.next] }.setObj x { s2.heap x with terms := (s2.heap x).terms ++ [s.next] } |>.heap s.next).pt = ROOT := by
              rw [heap_setObj, if_neg hne]; show lower (s2.heap s.next).pt = _; rw [hp2, hl]
            refine .inr ⟨by rw [heap_setObj, if_pos rfl]; exact hpt', ?_⟩
            rw [heap_setObj, if_neg (by omega), heap_setObj, if_pos rfl, hxe]
          · show _ = { s with heap := _, next := _, terms := _ }
            unfold St.setObj
            rw [hr]
        · have hlp : lower p = p := (splitTermLower_low q1).1
          unfold docAddTerm at hd
          rw [bind_run, get_run] at hd
          dsimp only at hd
          have hp2 : lower (s2.heap s.next).pt ≠ ROOT := by rw [e2]; show lower o.pt ≠ _; rw [q2, hlp]; exact hpt
          rw [if_neg (by rw [hterms]; exact hnt), bind_run] at hd
          simp only [hsec2, Option.isSome_some, true_or, decide_true, assert_run, if_true, hcl2, Bool.false_eq_true, if_false] at hd
          rw [bind_run, modify_run] at hd
          dsimp only at hd
          rw [if_neg hp2] at hd
          obtain ⟨a, b, rfl⟩ := addTermFinish_sets hd
          refine ⟨rfl, hlt2, ?_, ?_, ?_, ?_, fun j hj hjx => ?_, ?_, ?_⟩
          · show s2.terms ++ _ = _; rw [hterms]
          · simp [heap_setObj, hsec2]
          · simp [heap_setObj, hpar2]
          · simp [heap_setObj, hcl2]
          · rw [heap_setObj, if_neg (by omega)]; exact h2.objs j hj
          · left; rw [heap_setObj, if_neg (by omega)]; exact hxe
          · show _ = { s with heap := _, next := _, terms := _ }
            unfold St.setObj
            rw [hr]

theorem erase_last {l : List Nat} {t : Nat} (h : t ∉ l) : (l ++ [t]).erase t = l := by
  rw [List.erase_append_right _ h]; simp

theorem remove_made {s s' : St} (h : Reach (fun _ => True) s) {x : Nat} {n : Str} (hx : Registered s x n) {t : Nat} (m : TermMade s x t s') :
    ∃ s'', removeTerm t s' = .ok () s'' ∧ Untouched s s'' := by
  have w : WF False s := h.wf fun f => f.elim
  have hxlt : x < s.next := (w.secsLt (lower n, x) (Dict.mem_of_get? hx.known)).1
  obtain rfl := m.new
  have hnt : s.next ∉ s.terms := fun m => absurd (w.termsLt _ m).1 (by omega)
  have hnx : s.next ∉ (s.heap x).terms := fun m => absurd (w.secTermsLt x _ m) (by omega)
  have hsecs : s'.sections = s.sections := by rw [m.rest]
  have hxo : (s'.heap x).cls = (s.heap x).cls ∧ (s'.heap x).value = (s.heap x).value ∧ (s'.heap x).secPropertyNames = (s.heap x).secPropertyNames ∧
      { s'.heap x with terms := (s'.heap x).terms.erase s.next } = s.heap x := by
    rcases m.home with e | ⟨-, e⟩ <;> rw [e]
    · refine ⟨rfl, rfl, rfl, ?_⟩
      rw [List.erase_of_not_mem hnx]
    · refine ⟨rfl, rfl, rfl, ?_⟩
      show { s.heap x with terms := ((s.heap x).terms ++ [s.next]).erase s.next } = _
      rw [erase_last hnx]
  have hte : s'.terms.erase s.next = s.terms := by rw [m.terms]; exact erase_last hnt
  have hlt := m.next
  unfold removeTerm
  rw [bind_run, get_run]
  dsimp only
  rw [if_neg (by rw [m.cls]; simp)]
  unfold removeRounds
  rw [m.parent]
  dsimp only
  unfold removeTermF
  rw [bind_run, modify_run]
  dsimp only
  rw [bind_run, obj_run]
  dsimp only
  rw [m.sec]
  dsimp only
  rw [hte]
  by_cases hp : lower (s'.heap s.next).pt = ROOT
  · rw [if_pos hp, bind_run, addSection_known (n := n) (by show (s'.heap x).cls.isSection = _; rw [hxo.1]; exact hx.cls)
      (by show (s'.heap x).value = _; rw [hxo.2.1]; exact hx.value) (by show s'.sections.get? _ = _; rw [hsecs]; exact hx.known)]
    dsimp only
    obtain ⟨o, h1, h2, hs⟩ : ∃ o : Obj, o.sec = some x ∧ o.parent = none ∧ setSectionTerm s.next x { s' with terms := s.terms } =
        .ok () ({ s' with terms := s.terms }.setObj s.next o) := by
      have hpn : py!"section" ∉ (propertyNames { s' with terms := s.terms } s.next).map lower := by
        unfold propertyNames
        rw [show ({ s' with terms := s.terms } : St).heap = s'.heap from rfl, m.cls, m.sec]
        dsimp only
        rw [if_neg (by simp), hxo.2.2.1]
        exact hx.plain
      by_cases hv : lower (s'.heap s.next).tvn = py!"section"
      · refine ⟨{ s'.heap s.next with value := .obj x }, m.sec, m.parent, ?_⟩
        unfold setSectionTerm
        rw [bind_run, get_run]
        dsimp only
        rw [if_pos hv]
        rfl
      · exact ⟨{ s'.heap s.next with sec := some x }, rfl, m.parent, setSectionTerm_run ⟨hv, hpn⟩⟩
    rw [bind_run, hs]
    dsimp only
    rw [bind_run, obj_run]
    dsimp only
    rw [heap_setObj, if_pos rfl, h1]
    dsimp only
    rw [bind_run, upd_run]
    dsimp only
    rw [bind_run, obj_run]
    dsimp only
    rw [heap_setObj, if_neg (by omega), heap_setObj, if_pos rfl, h2]
    dsimp only
    rw [pure_run]
    refine ⟨_, rfl, ⟨fun i hi => ?_, Nat.le_of_lt hlt, ?_⟩⟩
    · rw [heap_setObj]
      by_cases e : i = x
      · subst e
        rw [if_pos rfl, heap_setObj, if_neg (by omega)]
        exact hxo.2.2.2
      · rw [if_neg e, heap_setObj, if_neg (by omega)]; exact m.others i hi e
    · unfold St.setObj
      rw [m.rest]
  · rw [if_neg hp, bind_run, obj_run]
    dsimp only
    rw [m.parent]
    dsimp only
    rw [pure_run]
    refine ⟨_, rfl, ⟨fun i hi => ?_, Nat.le_of_lt hlt, by rw [m.rest]⟩⟩
    by_cases e : i = x
    · subst e
      rcases m.home with e | ⟨e, -⟩
      · exact e
      · exact absurd e hp
    · exact m.others i hi e

/-- **C95** (terms). After `t = section.new_term(...)`, `doc.remove_term(t)` succeeds and leaves the document as it was before the two
calls, whatever the name, the value and the properties are. The section is one of the document and has no column `Section`. -/
theorem C95_term {s s' : St} (h : Reach (fun _ => True) s) {x : Nat} {n : Str} (hx : Registered s x n) {term : Str} {v : Val}
    {kw : List (Str × Val)} {t : Nat} (he : newTerm x term v kw s = .ok t s') : ∃ s'', removeTerm t s' = .ok () s'' ∧ Untouched s s'' :=
  remove_made h hx (newTerm_made h hx he)

/-- **C95** (terms). So does `section.remove_term(t)`. -/
theorem C95_section_term {s s' : St} (h : Reach (fun _ => True) s) {x : Nat} {n : Str} (hx : Registered s x n) {term : Str} {v : Val}
    {kw : List (Str × Val)} {t : Nat} (he : newTerm x term v kw s = .ok t s') : ∃ s'', sectionRemoveTerm x t s' = .ok () s'' ∧ Untouched s s'' := by
  have w : WF False s := h.wf fun f => f.elim
  have hxlt : x < s.next := (w.secsLt (lower n, x) (Dict.mem_of_get? hx.known)).1
  have m := newTerm_made h hx he
  have hnx : t ∉ (s.heap x).terms := fun k => absurd (w.secTermsLt x _ k) (by have := m.new; omega)
  have htx : t ≠ x := by have := m.new; omega
  unfold sectionRemoveTerm
  rw [bind_run, upd_run]
  dsimp only
  refine remove_made h hx ⟨m.new, m.next, m.terms, ?_, ?_, ?_, fun j hj hjx => ?_, .inl ?_, ?_⟩
  · rw [heap_setObj, if_neg htx]; exact m.sec
  · rw [heap_setObj, if_neg htx]; exact m.parent
  · rw [heap_setObj, if_neg htx]; exact m.cls
  · rw [heap_setObj, if_neg hjx]; exact m.others j hj hjx
  · rw [heap_setObj, if_pos rfl]
    rcases m.home with e | ⟨-, e⟩ <;> rw [e]
    · rw [List.erase_of_not_mem hnx]
    · show { s.heap x with terms := ((s.heap x).terms ++ [t]).erase t } = _
      rw [erase_last hnx]
  · unfold St.setObj
    rw [m.rest]

/-! ## Children -/

theorem construct_below {cls : Cls} {term : Str} {v : Val} {q : Nat} {sec : Option Nat} {s s' : St} {c : Nat}
    (h : construct cls term v (some q) sec s = .ok c s') :
    ∃ o, lower o.pt = lower (s.heap q).rt ∧ o.parent = some q ∧ o.cls.isSection = false ∧ c = s.next ∧
      s' = { s with next := s.next + 1 }.setObj s.next o := by
  have key : ∀ cls, cls.isSection = false → newTermObj cls term v [] (some q) sec 0 false s = .ok c s' →
      ∃ o, lower o.pt = lower (s.heap q).rt ∧ o.parent = some q ∧ o.cls.isSection = false ∧ c = s.next ∧
      s' = { s with next := s.next + 1 }.setObj s.next o := by
    intro cls hcls h
    unfold newTermObj at h
    rw [bind_run, lift_run] at h
    cases hs : splitTermLower term with
    | error e => rw [hs] at h; cases h
    | ok pr =>
      rw [hs] at h
      simp only [bind_run, obj_run, assert_run] at h
      by_cases hb : lower (s.heap q).rt = lower (if pr.fst = ROOT then (s.heap q).rt else pr.fst)
      · rw [if_pos (by simpa using hb)] at h; cases h
        exact ⟨_, hb.symm, rfl, hcls, rfl, rfl⟩
      · rw [if_neg (by simpa using hb)] at h; cases h
  unfold construct at h
  cases cls with
  | term => exact key _ rfl h
  | user k => exact key _ rfl h
  | root => cases h
  | «section» =>
    dsimp only at h
    rw [if_pos (.inl rfl), bind_run, lift_run] at h
    cases hs : sectionArgs s v <;> rw [hs] at h <;> cases h

/-- What the calls that make a child have done when they return. -/
structure KidMade (s : St) (t : Nat) (c : Nat) (s' : St) : Prop where
  new : c = s.next
  next : s.next ≤ s'.next
  parent : (s'.heap c).parent = some t
  pt : lower (s'.heap c).pt = lower (s.heap t).rt
  cls : (s'.heap c).cls.isSection = false
  others : ∀ j, j < s.next → j ≠ t → s'.heap j = s.heap j
  home : s'.heap t = { s.heap t with children := (s.heap t).children ++ [c] }
  rest : s' = { s with heap := s'.heap, next := s'.next }

theorem newChild_made {s s' : St} {t : Nat} (ht : t < s.next) {term : Str} {v : Val} {kw : List (Str × Val)} {c : Nat}
    (h : newChild t term v kw s = .ok c s') : KidMade s t c s' := by
  unfold newChild at h
  rw [bind_run, get_run] at h
  dsimp only at h
  have main : ∀ w, (do
      let c ← construct (docTermClass s (lower term)) term w (some t) (s.heap t).sec
      newChildren c kw
      let o ← obj c
      setTvn c (declProp s.declTerms o.join (py!"termvaluename") o.tvn)
      M.assert (lower o.rt ≠ py!"section")
      upd t fun o => { o with children := o.children ++ [c] }
      return c : M Nat) s = .ok c s' → KidMade s t c s' := by
    intro w h
    rw [bind_run] at h
    have h1 := ab_construct s.next (docTermClass s (lower term)) term w (some t) (s.heap t).sec s (Nat.le_refl _)
    cases hc : construct (docTermClass s (lower term)) term w (some t) (s.heap t).sec s with
    | err e1 s1 => rw [hc] at h; cases h
    | ok c1 s1 =>
      rw [hc] at h h1
      obtain ⟨o, q1, q2, q3, rfl, q5⟩ := construct_below hc
      dsimp only at h
      have e1 : s1.heap s.next = o := by rw [q5, heap_setObj, if_pos rfl]
      have hlt1 : s.next < s1.next := by rw [q5]; exact Nat.lt_succ_self _
      rw [bind_run] at h
      have h2 := h1.trans (ab_newChildren (Nat.le_refl _) kw s1 h1.next)
      cases hk : newChildren s.next kw s1 with
      | err e2 s2 => rw [hk] at h; cases h
      | ok u s2 =>
        rw [hk] at h h2
        have h2 : Above s.next s s2 := h2
        have ka := newChildren_added hlt1 hk
        obtain ⟨ks, e2, -⟩ := ka.self
        simp only [bind_run, obj_run] at h
        unfold setTvn at h
        by_cases hv : lower (declProp s.declTerms (s2.heap s.next).join (py!"termvaluename") (s2.heap s.next).tvn) ∈ reservedTvn
        · rw [if_pos hv] at h; cases h
        · rw [if_neg hv, upd_run] at h
          simp only [upd_run, pure_run] at h
          generalize decide (lower (s2.heap s.next).rt ≠ py!"section") = b at h
          cases b <;> rw [assert_run] at h <;> cases h
          have hne : s.next ≠ t := by omega
          refine ⟨rfl, h2.next, ?_, ?_, ?_, fun j hj hjt => ?_, ?_, ?_⟩
          · rw [heap_setObj, if_neg hne, heap_setObj, if_pos rfl]; show (s2.heap s.next).parent = _; rw [e2, e1]; exact q2
          · rw [heap_setObj, if_neg hne, heap_setObj, if_pos rfl]; show lower (s2.heap s.next).pt = _; rw [e2, e1]; exact q1
          · rw [heap_setObj, if_neg hne, heap_setObj, if_pos rfl]; show (s2.heap s.next).cls.isSection = _; rw [e2, e1]; exact q3
          · rw [heap_setObj, if_neg hjt, heap_setObj, if_neg (by omega)]; exact h2.objs j hj
          · rw [heap_setObj, if_pos rfl, heap_setObj, if_neg (Ne.symm hne), h2.objs t ht]
          · unfold St.setObj
            rw [h2.rest]
  cases v with
  | none => exact main _ h
  | str x => exact main _ h
  | int i => exact main _ h
  | fls => exact main _ h
  | obj i =>
    simp only [Val.toStr, bind_run, raise_run] at h
    cases h

theorem removeChild_made {F : Prop} {s s' : St} (w : WF F s) {t c : Nat} (ht : t < s.next) (hr : lower (s.heap t).rt ≠ ROOT) (m : KidMade s t c s') :
    ∃ s'', removeChild t c s' = .ok () s'' ∧ Untouched s s'' := by
  obtain rfl := m.new
  have hnc : s.next ∉ (s.heap t).children := fun k => absurd (w.kidLt t _ k) (by omega)
  have hnt : s.next ∉ s'.terms := fun k => by rw [m.rest] at k; exact absurd (w.termsLt _ k).1 (by omega)
  have hne : s.next ≠ t := by omega
  have hmem : s.next ∈ (s'.heap t).children := by rw [m.home]; simp
  obtain ⟨s1, hs1⟩ : ∃ s1, s1 = s'.setObj t { s'.heap t with children := (s'.heap t).children.erase s.next } := ⟨_, rfl⟩
  have h1t : s1.heap t = s.heap t := by
    rw [hs1, heap_setObj, if_pos rfl, m.home]
    show { s.heap t with children := ((s.heap t).children ++ [s.next]).erase s.next } = _
    rw [erase_last hnc]
  have h1 : ∀ j, j ≠ t → s1.heap j = s'.heap j := fun j hj => by rw [hs1, heap_setObj, if_neg hj]
  have hterms : s1.terms.erase s.next = s1.terms := List.erase_of_not_mem (by rw [hs1]; exact hnt)
  refine ⟨s1, ?_, ⟨fun i hi => ?_, ?_, ?_⟩⟩
  · unfold removeChild
    rw [bind_run, obj_run]
    dsimp only
    rw [if_pos hmem, bind_run, upd_run]
    dsimp only
    rw [← hs1]
    unfold removeTerm
    rw [bind_run, get_run]
    dsimp only
    rw [if_neg (by rw [h1 _ hne, m.cls]; simp)]
    unfold removeRounds
    rw [h1 _ hne, m.parent]
    dsimp only
    unfold removeTermF
    rw [bind_run, modify_run]
    dsimp only
    rw [hterms, bind_run, obj_run]
    dsimp only
    have hp : lower (s1.heap s.next).pt ≠ ROOT := by rw [h1 _ hne, m.pt]; exact hr
    have fin : (do
        let o ← obj s.next
        match o.parent with
        | some q => do
          let po ← obj q
          if s.next ∈ po.children then do
            upd q fun oq => { oq with children := oq.children.erase s.next }
            removeTermF ((s1.heap t).children.count s.next + 1) s.next
        | none => pure () : M Unit) s1 = .ok () s1 := by
      rw [bind_run, obj_run]
      dsimp only
      rw [h1 _ hne, m.parent]
      dsimp only
      rw [bind_run, obj_run]
      dsimp only
      rw [if_neg (by rw [h1t]; exact hnc), pure_run]
    cases (s1.heap s.next).sec with
    | none => exact fin
    | some x => dsimp only; rw [if_neg hp]; exact fin
  · by_cases e : i = t
    · rw [e]; exact h1t
    · rw [h1 i e]; exact m.others i hi e
  · rw [hs1]; exact m.next
  · rw [hs1]
    unfold St.setObj
    rw [m.rest]

/-- **C95** (children). After `c = term.new_child(...)`, `term.remove_child(c)` succeeds and leaves the document as it was before the two
calls, whatever the name, the value and the properties are. The term is not one called `Root`. -/
theorem C95_child {s s' : St} (h : Reach (fun _ => True) s) {t : Nat} (ht : t < s.next) (hr : lower (s.heap t).rt ≠ ROOT) {term : Str} {v : Val}
    {kw : List (Str × Val)} {c : Nat} (he : newChild t term v kw s = .ok c s') : ∃ s'', removeChild t c s' = .ok () s'' ∧ Untouched s s'' :=
  removeChild_made (F := False) (h.wf fun f => f.elim) ht hr (newChild_made ht he)

/-! ## Items -/

theorem getOrNewChild0_made {s s' : St} {t : Nat} (ht : t < s.next) {term p r : Str} (hs : splitTerm term = .ok (p, r)) {v : Val} {c : Nat}
    (h : getOrNewChild0 t term v s = .ok c s') : KidMade s t c s' ∨ ∃ d, d ∈ (s.heap t).children ∧ (s' = s ∨ s' = s.setObj d { s.heap d with value := v }) := by
  unfold getOrNewChild0 at h
  rw [bind_run, get_run] at h
  dsimp only at h
  by_cases hsec : (s.heap t).cls.isSection = true
  · rw [if_pos hsec] at h; cases h
  · rw [if_neg hsec, bind_run, lift_run, hs] at h
    dsimp only at h
    cases hn : childNamed s t r .fls with
    | some d =>
      right
      rw [hn] at h
      dsimp only at h
      have hd : d ∈ (s.heap t).children := List.mem_of_find?_eq_some hn
      refine ⟨d, hd, ?_⟩
      by_cases hv : v = .fls
      · rw [if_neg (by simp [hv]), bind_run, pure_run] at h
        dsimp only at h
        rw [bind_run, get_run] at h
        dsimp only at h
        rw [bind_run, assert_run] at h
        split at h <;> cases h
        next e => split at e <;> cases e; exact .inl rfl
      · rw [if_pos hv] at h
        simp only [bind_run, upd_run, pure_run, get_run, assert_run] at h
        split at h <;> cases h
        next e => split at e <;> cases e; exact .inr rfl
    | none =>
      left
      rw [hn] at h
      dsimp only at h
      rw [bind_run] at h
      cases hc : construct (docTermClass s (lower ((s.heap t).rt ++ '.' :: r))) ((s.heap t).rt ++ '.' :: r) v (some t) (s.heap t).sec s with
      | err e1 s1 => rw [hc] at h; cases h
      | ok c1 s1 =>
        rw [hc] at h
        obtain ⟨o, q1, q2, q3, rfl, q5⟩ := construct_below hc
        have e1 : s1.heap s.next = o := by rw [q5, heap_setObj, if_pos rfl]
        simp only [bind_run, obj_run] at h
        generalize decide ((s1.heap s.next).joinLc ≠ py!"datafile.section") = b at h
        cases b
        · cases h
        · simp only [assert_run, if_true, upd_run, pure_run, get_run] at h
          split at h
          · next a s2 e =>
            split at e
            · cases e; cases h
              have hne : s.next ≠ t := by omega
              have ho : ∀ j, j ≠ s.next → s1.heap j = s.heap j := fun j hj => by rw [q5, heap_setObj, if_neg hj]
              refine ⟨rfl, ?_, ?_, ?_, ?_, fun j hj hjt => ?_, ?_, ?_⟩
              · rw [q5]; exact Nat.le_succ _
              · rw [heap_setObj, if_neg hne, e1]; exact q2
              · rw [heap_setObj, if_neg hne, e1]; exact q1
              · rw [heap_setObj, if_neg hne, e1]; exact q3
              · rw [heap_setObj, if_neg hjt, ho j (by omega)]
              · rw [heap_setObj, if_pos rfl, ho t (Ne.symm hne)]
              · rw [q5]; rfl
            · cases e
          · cases h

/-- **C95** (items). If `term.find_first(k)` is `None` and `term[k] = v` has been assigned, then assigning `None` under the same name leaves
the document as it was before the two assignments. The name is not that of the term's value, and the term is not one called `Root`. -/
theorem C95_item {s s' : St} (h : Reach (fun _ => True) s) {t : Nat} (ht : t < s.next) (hr : lower (s.heap t).rt ≠ ROOT) {k : Str} {v : Val}
    (h1 : lower k ≠ lower (s.heap t).tvn) (h2 : lower k ≠ py!"value") (hno : termFindFirst s t k = .ok none) (hv : v ≠ .none)
    (he : setItem t k v s = .ok () s') : ∃ s'', setItem t k .none s' = .ok () s'' ∧ Untouched s s'' := by
  have w : WF False s := h.wf fun f => f.elim
  obtain ⟨n, hn, hcn⟩ : ∃ n, localName s t k = .ok n ∧ childNamed s t n .fls = none := by
    unfold termFindFirst at hno
    cases hl : localName s t k with
    | error e => rw [hl] at hno; cases hno
    | ok n => rw [hl] at hno; exact ⟨n, rfl, Except.ok.inj hno⟩
  unfold setItem at he
  rw [bind_run, obj_run] at he
  dsimp only at he
  rw [if_neg (by simp [hv])] at he
  unfold setItemSome at he
  rw [bind_run, obj_run] at he
  dsimp only at he
  rw [if_neg (by simp [h1, h2]), bind_run] at he
  cases hg : getOrNewChild0 t k v s with
  | err e s1 => rw [hg] at he; cases he
  | ok c s1 =>
    rw [hg] at he
    dsimp only at he
    rw [bind_run, lift_run] at he
    obtain ⟨p, r, hs⟩ : ∃ p r, splitTerm k = .ok (p, r) := by
      unfold getOrNewChild0 at hg
      rw [bind_run, get_run] at hg
      dsimp only at hg
      by_cases hsec : (s.heap t).cls.isSection = true
      · rw [if_pos hsec] at hg; cases hg
      · rw [if_neg hsec, bind_run, lift_run] at hg
        cases hs : splitTerm k with
        | error e => rw [hs] at hg; cases hg
        | ok pr => exact ⟨pr.1, pr.2, rfl⟩
    cases hi : termGetItem s1 t k with
    | error e => rw [hi] at he; cases he
    | ok d =>
      rw [hi] at he
      have hss : s' = s1 := by
        simp only [bind_run, obj_run, assert_run] at he
        split at he <;> cases he
        rfl
      subst hss
      have key : (s'.heap t).tvn = (s.heap t).tvn → (s'.heap t).rt = (s.heap t).rt → termFindFirst s' t k = .ok (some d) ∧ childNamed s' t n .fls = some d := by
        intro e1 e2
        have hl : localName s' t k = .ok n := by
          rw [← hn]
          unfold localName
          rw [e2]
        unfold termGetItem at hi
        rw [e1, if_neg h1] at hi
        unfold termFindFirst at hi ⊢
        rw [hl] at hi ⊢
        cases hc : childNamed s' t n .fls with
        | none => simp only [hc, bind, Except.bind, pure, Except.pure] at hi; cases hi
        | some d' => simp only [hc, bind, Except.bind, pure, Except.pure] at hi; cases hi; exact ⟨by simp only [bind, Except.bind, pure, Except.pure, hc], rfl⟩
      have old : ∀ {x : Nat}, x ∈ (s.heap t).children → lower (s.heap x).rt ≠ lower n := fun hx => childNamed_none.1 hcn _ hx
      rcases getOrNewChild0_made ht hs hg with m | ⟨d', hd', hcase⟩
      · -- a new child: it is the one found
        have ht' : (s'.heap t).tvn = (s.heap t).tvn ∧ (s'.heap t).rt = (s.heap t).rt := by rw [m.home]; exact ⟨rfl, rfl⟩
        obtain ⟨hf, hc⟩ := key ht'.1 ht'.2
        obtain ⟨pre, post, b1, b2, -⟩ := childNamed_some.1 hc
        have hd : d = c := by
          have hmem : d ∈ (s'.heap t).children := by rw [b1]; simp
          rw [m.home] at hmem
          rcases List.mem_append.1 hmem with hm | hm
          · exfalso
            refine old hm ?_
            rw [← b2]
            by_cases e : d = t
            · rw [e, ht'.2]
            · rw [m.others d (w.kidLt t d hm) e]
          · exact List.mem_singleton.1 hm
        subst hd
        obtain ⟨s'', r1, r2⟩ := removeChild_made w ht hr m
        refine ⟨s'', ?_, r2⟩
        unfold setItem
        rw [bind_run, obj_run]
        dsimp only
        rw [if_pos ⟨rfl, by rw [ht'.1]; simp [h1, h2]⟩, bind_run, lift_run, hf]
        exact r1
      · exfalso
        have same : ∀ j, (s'.heap j).children = (s.heap j).children ∧ (s'.heap j).rt = (s.heap j).rt ∧ (s'.heap j).tvn = (s.heap j).tvn := by
          intro j
          rcases hcase with rfl | rfl
          · exact ⟨rfl, rfl, rfl⟩
          · rw [heap_setObj]
            split
            · next e => subst e; exact ⟨rfl, rfl, rfl⟩
            · exact ⟨rfl, rfl, rfl⟩
        obtain ⟨-, hc⟩ := key (same t).2.2 (same t).2.1
        obtain ⟨pre, post, b1, b2, -⟩ := childNamed_some.1 hc
        refine old (x := d) ?_ ?_
        · rw [← (same t).1, b1]; simp
        · rw [← (same d).2.1]; exact b2

/-! ## Sections -/

/-- **C95** (sections). After `doc.new_section(name)` for a name the document has no section of, `del doc[name]` leaves the document as it
was before the two calls. -/
theorem C95_section {s s' : St} (h : Reach (fun _ => True) s) {name : Str} (hno : s.sections.get? (lower name) = none) {params : List Str} {x : Nat}
    (he : newSection name params s = .ok x s') : ∃ s'', delSection name s' = .ok () s'' ∧ Untouched s s'' := by
  have w : WF False s := h.wf fun f => f.elim
  have hk : lower name ∉ s.sections.keys := Dict.get?_eq_none.1 hno
  unfold newSection at he
  rw [bind_run, newSectionObj_run] at he
  dsimp only at he
  rw [bind_run, modify_run] at he
  dsimp only at he
  rw [bind_run, get_run] at he
  dsimp only at he
  obtain ⟨o, ho, hx, hs'⟩ : ∃ o : Obj, o.terms = [] ∧ x = s.next ∧ s' =
      { ({ s with next := s.next + 1 }.setObj s.next o) with sections := s.sections.set (lower name) s.next } := by
    cases hd : ({ s with next := s.next + 1 }.setObj s.next (sectionObj s name params)).declSecs.get? (lower name) with
    | none =>
      rw [hd] at he
      cases he
      exact ⟨_, rfl, rfl, rfl⟩
    | some d =>
      rw [hd] at he
      dsimp only at he
      rw [bind_run, upd_run] at he
      cases he
      refine ⟨{ sectionObj s name params with args := d.args }, rfl, rfl, ?_⟩
      refine St.ext rfl (funext fun j => ?_) rfl rfl rfl rfl rfl rfl rfl rfl rfl rfl
      show (if j = s.next then _ else if j = s.next then _ else s.heap j) = if j = s.next then _ else s.heap j
      split
      · show ({ (if s.next = s.next then sectionObj s name params else s.heap s.next) with args := d.args } : Obj) = _
        rw [if_pos rfl]
      · rfl
  have hset : s.sections.set (lower name) s.next = s.sections ++ [(lower name, s.next)] := Dict.set_append hk _
  have hdel : (s.sections.set (lower name) s.next).del (lower name) = s.sections := by
    rw [Dict.del_eq_filter (Dict.nodup_set w.secsNodup _ _), hset, List.filter_append, List.filter_eq_self.2]
    · simp
    · intro kv hkv
      have : kv.1 ∈ s.sections.keys := List.mem_map_of_mem hkv
      simpa using fun e : kv.1 = lower name => hk (e ▸ this)
  have hget : s'.sections.get? name = none ∨ s'.sections.get? name = some s.next := by
    rw [hs']
    show (s.sections.set (lower name) s.next).get? name = none ∨ (s.sections.set (lower name) s.next).get? name = some s.next
    rw [Dict.get?_set]
    split
    · exact .inr rfl
    · next e =>
      left
      rw [Dict.get?_eq_none]
      intro hm
      obtain ⟨kv, hkv, rfl⟩ := List.mem_map.1 hm
      exact e (w.secsLt kv hkv).2.2
  have hterms : (s'.heap s.next).terms = [] := by
    rw [hs']; show (if s.next = s.next then o else s.heap s.next).terms = []; rw [if_pos rfl]; exact ho
  refine ⟨{ s' with sections := s'.sections.del (lower name) }, ?_, ⟨fun i hi => ?_, ?_, ?_⟩⟩
  · unfold delSection
    rw [bind_run, get_run]
    dsimp only
    rcases hget with e | e <;> rw [e] <;> dsimp only
    · rw [modify_run]
    · rw [hterms]; rfl
  · rw [hs']; show (if i = s.next then o else s.heap i) = _; rw [if_neg (by omega)]
  · rw [hs']; exact Nat.le_succ _
  · rw [hs']
    show ({ ({ s with next := s.next + 1 }.setObj s.next o) with sections := (s.sections.set (lower name) s.next).del (lower name) } : St) = _
    rw [hdel]
    rfl

/-! ## What it means -/

/-- **C95** (answers). A document left as it was answers as before: every search, the list of its terms, its rows, its CSV text, its lines
and its dict, also when the answer is an exception. -/
theorem C95_answers {s s' : St} (h : Reach Op.noAddChild s) (hu : Untouched s s') :
    (∀ term v sec, find s' term v sec = find s term v sec) ∧ allTerms s' = allTerms s ∧ docRows s' = docRows s ∧ docCsv s' = docCsv s ∧
    docText s' = docText s ∧ ∀ rvn, (docAsDict rvn s').val = (docAsDict rvn s).val := by
  have w : WF True s := h.wf fun _ _ a => a
  refine ⟨fun term v sec => find_answers w hu term v sec, allTerms_answers w hu, docRows_answers w hu, ?_, ?_, docAsDict_answers w hu⟩
  · unfold docCsv; rw [docRows_answers w hu]
  · unfold docText; rw [docLines_answers w hu]

private theorem reach_all {allow : Op → Prop} {s : St} (h : Reach allow s) : Reach (fun _ => True) s := by
  induction h with
  | new env classes => exact .new env classes
  | step op _ _ hv ih => exact .step op ih trivial hv

/-- **C74** (answers). After a refused call the document answers as before: every search, the list of its terms, its rows, its CSV text, its
lines and its dict. What is missing: calls that are made of several steps, as for `C74_calls_partial`. -/
theorem C74_answers_partial {s s' : St} (h : Reach Op.noAddChild s) {op : Op} (hv : op.valid s) (ha : AllOrNothing s op) {e : Err}
    (he : op.run s = .err e s') (hm : e ≠ .unmodelled) :
    (∀ term v sec, find s' term v sec = find s term v sec) ∧ allTerms s' = allTerms s ∧ docRows s' = docRows s ∧ docCsv s' = docCsv s ∧
    docText s' = docText s ∧ ∀ rvn, (docAsDict rvn s').val = (docAsDict rvn s).val :=
  C95_answers h (C74_calls_partial (reach_all h) hv ha he hm)

/-! ## Examples -/

/-- A document that was read, with a section, a term with an argument cell and children. -/
theorem itDoc_home : Registered itDoc 1 (py!"Contacts") := ⟨by decide +kernel, by decide +kernel, by decide +kernel, by decide +kernel⟩

/-- A new term whose second property has no proper name: the call is refused, and the file is what it was. -/
example : ∃ s', newTerm 1 (py!"Creator") (.str (py!"Eve")) [(py!"Email", .str (py!"e@x")), (py!"a.b.c", .str (py!"2"))] itDoc = .err .valueError s' ∧
    s'.next ≠ itDoc.next ∧ docCsv s' = docCsv itDoc := by
  have e := err_after (m := newTerm 1 (py!"Creator") (.str (py!"Eve")) [(py!"Email", .str (py!"e@x")), (py!"a.b.c", .str (py!"2"))]) (s := itDoc)
    (e := .valueError) (by decide +kernel)
  refine ⟨_, e, by decide +kernel, (C74_answers_partial itDoc_reach'
    (op := .newTerm 1 (py!"Creator") (.str (py!"Eve")) [(py!"Email", .str (py!"e@x")), (py!"a.b.c", .str (py!"2"))])
    (by show _ ∧ _; decide +kernel) ⟨py!"Contacts", itDoc_home⟩ (e := .valueError) ?_ (by decide)).2.2.2.1⟩
  show (do let _ ← newTerm 1 _ _ _ : M Unit) itDoc = _
  rw [bind_run, e]

/-- A term with a property is added to its section and taken back: the CSV text is that of the document read. -/
example : ∃ s' s'', newTerm 1 (py!"Creator") (.str (py!"Eve")) [(py!"Email", .str (py!"e@x"))] itDoc = .ok itDoc.next s' ∧
    docCsv s' ≠ docCsv itDoc ∧ removeTerm itDoc.next s' = .ok () s'' ∧ docCsv s'' = docCsv itDoc := by
  have e := ok_after (m := newTerm 1 (py!"Creator") (.str (py!"Eve")) [(py!"Email", .str (py!"e@x"))]) (s := itDoc) (a := itDoc.next) (by decide +kernel)
  obtain ⟨s'', h1, h2⟩ := C95_term itDoc_reach itDoc_home e
  exact ⟨_, s'', e, by decide +kernel, h1, (C95_answers itDoc_reach' h2).2.2.2.1⟩

/-- The same with a name that makes no root-level term, through the section. -/
example : ∃ s' s'', newTerm 1 (py!"Wrangler.Phone") (.str (py!"7")) [] itDoc = .ok itDoc.next s' ∧ s'.terms ≠ itDoc.terms ∧
    sectionRemoveTerm 1 itDoc.next s' = .ok () s'' ∧ s''.terms = itDoc.terms := by
  have e := ok_after (m := newTerm 1 (py!"Wrangler.Phone") (.str (py!"7")) []) (s := itDoc) (a := itDoc.next) (by decide +kernel)
  obtain ⟨s'', h1, h2⟩ := C95_section_term itDoc_reach itDoc_home e
  exact ⟨_, s'', e, by decide +kernel, h1, h2.fields.1⟩

/-- A third tag. -/
example : ∃ s' s'', newChild 2 (py!"Tag") (.str (py!"three")) [(py!"Lang", .str (py!"en"))] itDoc = .ok itDoc.next s' ∧
    docCsv s' ≠ docCsv itDoc ∧ removeChild 2 itDoc.next s' = .ok () s'' ∧ docCsv s'' = docCsv itDoc := by
  have e := ok_after (m := newChild 2 (py!"Tag") (.str (py!"three")) [(py!"Lang", .str (py!"en"))]) (s := itDoc) (a := itDoc.next) (by decide +kernel)
  obtain ⟨s'', h1, h2⟩ := C95_child itDoc_reach (by decide +kernel) (by decide +kernel) e
  exact ⟨_, s'', e, by decide +kernel, h1, (C95_answers itDoc_reach' h2).2.2.2.1⟩

/-- A property the term does not have. -/
example : ∃ s' s'', setItem 2 (py!"Phone") (.str (py!"7")) itDoc = .ok () s' ∧ docCsv s' ≠ docCsv itDoc ∧
    setItem 2 (py!"Phone") .none s' = .ok () s'' ∧ docCsv s'' = docCsv itDoc := by
  have e := ok_after (m := setItem 2 (py!"Phone") (.str (py!"7"))) (s := itDoc) (a := ()) (by decide +kernel)
  obtain ⟨s'', h1, h2⟩ := C95_item itDoc_reach (by decide +kernel) (by decide +kernel) (by decide +kernel) (by decide) (by decide +kernel) (by decide) e
  exact ⟨_, s'', e, by decide +kernel, h1, (C95_answers itDoc_reach' h2).2.2.2.1⟩

/-- A section with columns. -/
example : ∃ s' s'', newSection (py!"Schema") [py!"DataType"] itDoc = .ok itDoc.next s' ∧ docCsv s' ≠ docCsv itDoc ∧
    delSection (py!"Schema") s' = .ok () s'' ∧ docCsv s'' = docCsv itDoc := by
  have e := ok_after (m := newSection (py!"Schema") [py!"DataType"]) (s := itDoc) (a := itDoc.next) (by decide +kernel)
  obtain ⟨s'', h1, h2⟩ := C95_section itDoc_reach (by decide +kernel) e
  exact ⟨_, s'', e, by decide +kernel, h1, (C95_answers itDoc_reach' h2).2.2.2.1⟩

/-- Without the condition on the name the claim about sections fails: `new_section` puts the new section in the place of the old one, which is
gone when it is deleted. -/
theorem C95_replaced_witness : ∃ s' s'', newSection (py!"Contacts") [] itDoc = .ok itDoc.next s' ∧ delSection (py!"Contacts") s' = .ok () s'' ∧
    itDoc.sections.keys = [py!"root", py!"contacts"] ∧ s''.sections.keys = [py!"root"] :=
  ⟨_, _, ok_after (by decide +kernel), ok_after (by decide +kernel), by decide +kernel, by decide +kernel⟩

/-- Nor does assigning `None` bring back the value a property had. -/
theorem C95_overwritten_witness : ∃ s' s'', setItem 2 (py!"Email") (.str (py!"c@x")) itDoc = .ok () s' ∧ setItem 2 (py!"Email") .none s' = .ok () s'' ∧
    (termGetItem itDoc 2 (py!"Email")).toOption.isSome = true ∧ termGetItem s'' 2 (py!"Email") = .error .keyError :=
  ⟨_, _, ok_after (by decide +kernel), ok_after (by decide +kernel), by decide +kernel, by decide +kernel⟩

end Metatab
