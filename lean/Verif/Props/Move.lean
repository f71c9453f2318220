import Verif.Spec.Agree
import Verif.Lemmas.Reach
import Verif.Lemmas.Plain
import Verif.Lemmas.Examples
/-! # C71: adding a term to a section lists it there and hands it its descendants -/
namespace Metatab
open Py _root_.Spec

theorem under_congr {s s' : St} (h : ∀ i, (s'.heap i).children = (s.heap i).children) {t u : Nat} : Under s' t u ↔ Under s t u := by
  unfold Under
  have : (fun a b => b ∈ (s'.heap a).children) = fun a b => b ∈ (s.heap a).children := by funext a b; rw [h]
  rw [this]

/-- `u` was reached by handing out ownership from `t`: it got the section and a parent that holds it. -/
def Owned (s : St) (t : Nat) (S : Option Nat) (s' : St) (u : Nat) : Prop :=
  ∃ q, (q = t ∨ Under s t q) ∧ u ∈ (s.heap q).children ∧ s'.heap u = { s.heap u with parent := some q, sec := S }

/-- Nothing else changed. -/
structure OwnOnly (s : St) (t : Nat) (S : Option Nat) (s' : St) : Prop where
  rest : s' = { s with heap := s'.heap }
  objs : ∀ i, s'.heap i = s.heap i ∨ Owned s t S s' i

theorem OwnOnly.children {s s' : St} {t : Nat} {S : Option Nat} (h : OwnOnly s t S s') (i : Nat) :
    (s'.heap i).children = (s.heap i).children := by
  rcases h.objs i with e | ⟨q, -, -, e⟩ <;> rw [e]

/-- Owned by the holder of a child is owned by the holder. -/
theorem OwnOnly.step {s s1 s2 : St} {t c : Nat} {S : Option Nat} (h1 : OwnOnly s t S s1) (hc : c ∈ (s.heap t).children)
    (h2 : OwnOnly s1 c S s2) : OwnOnly s t S s2 ∧ ∀ i, Owned s t S s1 i ∨ Owned s1 c S s2 i → Owned s t S s2 i := by
  have key : ∀ i, Owned s1 c S s2 i → Owned s t S s2 i := by
    rintro i ⟨q, hq, hi, e⟩
    rw [h1.children] at hi
    have hq' : q = t ∨ Under s t q := by
      refine .inr ?_
      rcases hq with rfl | hq
      · exact .single hc
      · exact .head hc ((under_congr h1.children).1 hq)
    refine ⟨q, hq', hi, ?_⟩
    rw [e]
    rcases h1.objs i with e1 | ⟨_, -, -, e1⟩ <;> rw [e1]
  have both : ∀ i, Owned s t S s1 i ∨ Owned s1 c S s2 i → Owned s t S s2 i := by
    rintro i (h | h)
    · rcases h2.objs i with e | e
      · obtain ⟨q, a, b, e1⟩ := h
        exact ⟨q, a, b, e.trans e1⟩
      · exact key i e
    · exact key i h
  refine ⟨⟨?_, fun i => ?_⟩, both⟩
  · rw [h2.rest, h1.rest]
  · rcases h2.objs i with e | e
    · rcases h1.objs i with e1 | e1
      · exact .inl (e.trans e1)
      · exact .inr (both i (.inl e1))
    · exact .inr (both i (.inr e))

theorem setOwnershipF_own : ∀ {f t : Nat} {s s' : St}, setOwnershipF f t s = .ok () s' →
    OwnOnly s t (s.heap t).sec s' ∧ ∀ u, Under s t u → Owned s t (s.heap t).sec s' u
  | 0, _, _, _, h => by cases h
  | f + 1, t, s, s', h => by
    unfold setOwnershipF at h
    rw [bind_run, obj_run] at h
    dsimp only at h
    rw [bind_run, assert_run] at h
    by_cases hso : (s.heap t).sec.isSome = true
    case neg => rw [if_neg hso] at h; cases h
    rw [if_pos hso] at h
    dsimp only at h
    obtain ⟨S, hS⟩ : ∃ S, S = (s.heap t).sec := ⟨_, rfl⟩
    rw [← hS] at h ⊢
    have loop : ∀ (cs : List Nat) {s1 : St}, OwnOnly s t S s1 → (∀ c ∈ cs, c ∈ (s.heap t).children) →
        forL (fun c => do
          upd c fun oc => { oc with parent := some t, sec := S }
          setOwnershipF f c) cs s1 = .ok () s' →
        OwnOnly s t S s' ∧ (∀ u, Owned s t S s1 u → Owned s t S s' u) ∧ ∀ c ∈ cs, ∀ u, u = c ∨ Under s c u → Owned s t S s' u := by
      intro cs
      induction cs with
      | nil => intro s1 h1 _ h; cases h; exact ⟨h1, fun _ h => h, by simp⟩
      | cons c cs ih =>
        intro s1 h1 hcs h
        have hc := hcs c (List.mem_cons_self ..)
        have h : ((do
          upd c fun oc => { oc with parent := some t, sec := S }
          setOwnershipF f c) >>= fun _ => forL (fun c => do
          upd c fun oc => { oc with parent := some t, sec := S }
          setOwnershipF f c) cs) s1 = .ok () s' := h
        rw [bind_run, bind_run, upd_run] at h
        dsimp only at h
        obtain ⟨s2, hs2⟩ : ∃ s2, s2 = s1.setObj c { s1.heap c with parent := some t, sec := S } := ⟨_, rfl⟩
        rw [← hs2] at h
        have e2 : ∀ i, s2.heap i = if i = c then { s1.heap c with parent := some t, sec := S } else s1.heap i := fun i => by rw [hs2, heap_setObj]
        have own2 : Owned s t S s2 c := ⟨t, .inl rfl, hc, by
          rw [e2, if_pos rfl]
          rcases h1.objs c with e | ⟨_, -, -, e⟩ <;> rw [e]⟩
        have o2 : OwnOnly s t S s2 := ⟨by rw [hs2]; show _ = ({ s with heap := _ } : St); rw [h1.rest]; rfl, fun i => by
          by_cases hi : i = c
          · subst hi; exact .inr own2
          · have e := e2 i
            rw [if_neg hi] at e
            rcases h1.objs i with e1 | ⟨q, a, b, e1⟩
            · exact .inl (e.trans e1)
            · exact .inr ⟨q, a, b, e.trans e1⟩⟩
        have keep2 : ∀ u, Owned s t S s1 u → Owned s t S s2 u := by
          rintro u ⟨q, a, b, e1⟩
          by_cases hu : u = c
          · subst hu; exact own2
          · exact ⟨q, a, b, by rw [e2, if_neg hu]; exact e1⟩
        cases hr : setOwnershipF f c s2 with
        | err e s3 => rw [hr] at h; cases h
        | ok u3 s3 =>
          rw [hr] at h
          dsimp only at h
          have hsec : (s2.heap c).sec = S := by rw [e2, if_pos rfl]
          obtain ⟨o3, all3⟩ := setOwnershipF_own hr
          rw [hsec] at o3 all3
          obtain ⟨o3', own3⟩ := o2.step hc o3
          obtain ⟨r1, r2, r3⟩ := ih o3' (fun c' h' => hcs c' (List.mem_cons_of_mem _ h')) h
          refine ⟨r1, fun u hu => r2 u (own3 u (.inl (keep2 u hu))), fun c' hc' u hu => ?_⟩
          rcases List.mem_cons.1 hc' with rfl | hc'
          · refine r2 u (own3 u ?_)
            rcases hu with rfl | hu
            · exact .inl own2
            · exact .inr (all3 u ((under_congr o2.children).2 hu))
          · exact r3 c' hc' u hu
    obtain ⟨l1, -, l3⟩ := loop (s.heap t).children (s1 := s) ⟨rfl, fun _ => .inl rfl⟩ (fun _ h => h) h
    refine ⟨l1, fun u hu => ?_⟩
    obtain ⟨c, hc, hcu⟩ := Relation.TransGen.head'_iff.1 hu
    refine l3 c hc u ?_
    rcases (Relation.reflTransGen_iff_eq_or_transGen.1 hcu) with e | e
    · exact .inl e
    · exact .inr e

/-- Only the child type and the value name of `t` changed. -/
def DressedAs (t : Nat) (s s' : St) : Prop := ∃ c v, s' = s.setObj t { s.heap t with cpt := c, tvn := v }

instance (t : Nat) : Pre (DressedAs t) where
  refl s := ⟨_, _, (setObj_self s t).symm⟩
  trans := by
    rintro a b c ⟨c1, v1, rfl⟩ ⟨c2, v2, rfl⟩
    exact ⟨c2, v2, by rw [setObj_setObj, heap_setObj, if_pos rfl]⟩

theorem addTermFinish_dressed (t : Nat) : Pres (DressedAs t) (addTermFinish t) := by
  unfold addTermFinish setTvn
  have h1 : ∀ c : Obj → Str, Pres (DressedAs t) (upd t fun o => { o with cpt := c o }) := fun c s => ⟨c (s.heap t), (s.heap t).tvn, rfl⟩
  have h2 : ∀ v : Str, Pres (DressedAs t) (upd t fun o => { o with tvn := v }) := fun v s => ⟨(s.heap t).cpt, v, rfl⟩
  repeat' first
    | exact Pres.pure _ | exact Pres.raise _ | exact Pres.get | exact h1 _ | exact h2 _
    | refine Pres.bind ?_ ?_ | refine Pres.ite ?_ ?_ | with_reducible intro _ | split | dsimp only

/-- **C71**, what is listed and owned: after `x.add_term(t)` or `x.move_term(t)` the section lists the term, last unless it did before; no other
section lists more or less; the document lists the term, once more only if it did not before; no child has moved; the term
keeps its section, which all its descendants get, each with a parent that holds it; nothing else is touched. What is missing: that the term
moves, that is, leaves its former section and gets the new one (`C71_move_witness`). -/
theorem C71_add_partial {s s' : St} {x t : Nat} (ht : (s.heap t).cls.isSection = false) (h : sectionAddTerm x t s = .ok () s') :
    (s'.heap x).terms = (if t ∈ (s.heap x).terms then (s.heap x).terms else (s.heap x).terms ++ [t]) ∧
    (∀ y, y ≠ x → (s'.heap y).terms = (s.heap y).terms) ∧
    (s'.terms = if t ∈ s.terms ∨ t ∈ (s.heap x).terms then s.terms else s.terms ++ [t]) ∧ s'.sections = s.sections ∧
    (∀ i, (s'.heap i).children = (s.heap i).children) ∧ (s'.heap t).sec = (s.heap t).sec ∧
    (t ∉ (s.heap x).terms → ∀ u, Under s t u → (s'.heap u).sec = (s.heap t).sec ∧
      ∃ q, (q = t ∨ Under s t q) ∧ u ∈ (s.heap q).children ∧ (s'.heap u).parent = some q) ∧
    ∀ i, i ≠ x → i ≠ t → ¬ Under s t i → s'.heap i = s.heap i := by
  unfold sectionAddTerm at h
  rw [bind_run, get_run] at h
  dsimp only at h
  by_cases hm : t ∈ (s.heap x).terms
  · rw [if_neg (fun h => h hm)] at h
    rw [if_pos hm, if_pos (.inr hm)]
    have h : (obj t >>= fun o => M.assert (decide (o.sec.isSome = true ∨ o.joinLc = py!"root.root"))) s = .ok () s' := h
    rw [bind_run, obj_run] at h
    dsimp only at h
    rw [assert_run] at h
    split at h
    · cases h
      exact ⟨rfl, fun _ _ => rfl, rfl, rfl, fun _ => rfl, rfl, fun h => absurd hm h, fun _ _ _ _ => rfl⟩
    · cases h
  · rw [if_pos hm] at h
    by_cases hr : lower (s.heap t).pt = ROOT
    case neg => rw [if_neg hr] at h; cases h
    rw [if_pos hr, bind_run, upd_run] at h
    dsimp only at h
    obtain ⟨s1, hs1⟩ : ∃ s1, s1 = s.setObj x { s.heap x with terms := (s.heap x).terms ++ [t] } := ⟨_, rfl⟩
    rw [← hs1, bind_run] at h
    have e1 : ∀ i, s1.heap i = if i = x then { s.heap x with terms := (s.heap x).terms ++ [t] } else s.heap i := fun i => by rw [hs1, heap_setObj]
    cases hd : docAddTermCore t s1 with
    | err e s2 => rw [hd] at h; cases h
    | ok u2 s2 =>
      rw [hd] at h
      dsimp only at h
      rw [bind_run] at h
      cases ho : setOwnership t s2 with
      | err e s3 => rw [ho] at h; cases h
      | ok u3 s3 =>
        rw [ho] at h
        dsimp only at h
        have h3 : s3 = s' := by
          rw [bind_run, obj_run] at h
          dsimp only at h
          rw [assert_run] at h
          split at h
          · cases h; rfl
          · cases h
        subst h3
        -- the document
        have d2 : s2.terms = (if t ∈ s.terms then s.terms else s.terms ++ [t]) ∧ s2.sections = s.sections ∧
            (∀ i, i ≠ t → s2.heap i = s1.heap i) ∧ ∃ c v, s2.heap t = { s1.heap t with cpt := c, tvn := v } := by
          have t1 : s1.terms = s.terms := by rw [hs1]; rfl
          have q1 : s1.sections = s.sections := by rw [hs1]; rfl
          have c1 : (s1.heap t).cls.isSection = false := by rw [e1]; split <;> [(next e => rw [← e]; exact ht); exact ht]
          unfold docAddTermCore at hd
          rw [bind_run, get_run] at hd
          dsimp only at hd
          rw [t1] at hd
          by_cases hin : t ∈ s.terms
          · rw [if_pos hin] at hd
            rw [if_pos hin]
            cases hd
            exact ⟨t1, q1, fun _ _ => rfl, _, _, rfl⟩
          · rw [if_neg hin, bind_run, assert_run] at hd
            rw [if_neg hin]
            split at hd
            case _ hh =>
              split at hh
              · cases hh
                rw [if_neg (by rw [c1]; decide), bind_run, modify_run] at hd
                dsimp only at hd
                have := addTermFinish_dressed t { s1 with terms := s1.terms ++ [t] }
                rw [hd] at this
                obtain ⟨c, v, e⟩ := this
                have e : s2 = ({ s1 with terms := s1.terms ++ [t] } : St).setObj t { s1.heap t with cpt := c, tvn := v } := e
                refine ⟨by rw [e]; show s1.terms ++ [t] = _; rw [t1], by rw [e]; exact q1, fun i hi => ?_, c, v, ?_⟩
                · rw [e, heap_setObj, if_neg hi]
                · rw [e, heap_setObj, if_pos rfl]
              · cases hh
            · cases hd
        obtain ⟨d1, d2', d3, c, v, d4⟩ := d2
        have ch2 : ∀ i, (s2.heap i).children = (s.heap i).children := by
          intro i
          by_cases hi : i = t
          · subst hi; rw [d4, e1]; split <;> [(next e => rw [e]); rfl]
          · rw [d3 i hi, e1]; split <;> [(next e => rw [e]); rfl]
        have te2 : ∀ i, (s2.heap i).terms = if i = x then (s.heap x).terms ++ [t] else (s.heap i).terms := by
          intro i
          by_cases hi : i = t
          · subst hi; rw [d4, e1]; split <;> rfl
          · rw [d3 i hi, e1]; split <;> rfl
        have sec2 : (s2.heap t).sec = (s.heap t).sec := by rw [d4, e1]; split <;> [(next e => rw [e]); rfl]
        unfold setOwnership at ho
        rw [bind_run, get_run] at ho
        obtain ⟨w1, w2⟩ := setOwnershipF_own (show setOwnershipF (s2.next + 1) t s2 = .ok () s3 from ho)
        rw [sec2] at w1 w2
        have te3 : ∀ i, (s3.heap i).terms = (s2.heap i).terms := fun i => by
          rcases w1.objs i with e | ⟨_, -, -, e⟩ <;> rw [e]
        rw [if_neg hm]
        refine ⟨by rw [te3, te2, if_pos rfl], fun y hy => by rw [te3, te2, if_neg hy], ?_, ?_, fun i => (w1.children i).trans (ch2 i), ?_,
          fun _ u hu => ?_, fun i hx hi hu => ?_⟩
        · have : s3.terms = s2.terms := by rw [w1.rest]
          rw [this, d1]
          by_cases hin : t ∈ s.terms
          · rw [if_pos hin, if_pos (.inl hin)]
          · rw [if_neg hin, if_neg (by simp [hin, hm])]
        · have : s3.sections = s2.sections := by rw [w1.rest]
          exact this.trans d2'
        · rcases w1.objs t with e | ⟨_, -, -, e⟩
          · rw [e, sec2]
          · rw [e]
        · obtain ⟨q, hq, hc, e⟩ := w2 u ((under_congr ch2).2 hu)
          refine ⟨by rw [e], q, hq.imp id (under_congr ch2).1, by rw [← ch2]; exact hc, by rw [e]⟩
        · rcases w1.objs i with e | ⟨q, hq, hc, e⟩
          · rw [e, d3 i hi, e1, if_neg hx]
          · refine absurd ?_ hu
            rw [ch2] at hc
            rcases hq with rfl | hq
            · exact .single hc
            · exact .tail ((under_congr ch2).1 hq) hc

/-- **C71**, refusals: a term that is not root-level is refused and nothing has changed. -/
theorem C71_refuse {s : St} {x t : Nat} (hm : t ∉ (s.heap x).terms) (hr : lower (s.heap t).pt ≠ ROOT) :
    sectionAddTerm x t s = .err .generateError s := by
  unfold sectionAddTerm
  rw [bind_run, get_run]
  dsimp only
  rw [if_pos hm, if_neg hr]
  rfl

/-! Concrete cases -/

/-- Two sections, a contact with an address in the first. -/
def exTwo : St := exParse [[py!"Section", py!"One", py!"Email"], [py!"Contact", py!"C", py!"c@x"], [py!"Section", py!"Two"], [py!"Note", py!"N"]]

/-- The contact is object 2 in section 1; section 4 is the other one. The hypotheses of `C71_add_partial` can be met. -/
example : ∃ s', sectionAddTerm 4 2 exTwo = .ok () s' ∧ (s'.heap 4).terms = [5, 2] ∧ (s'.heap 1).terms = [2] ∧ s'.terms = [2, 5] ∧
    (s'.heap 3).sec = some 1 ∧ ∃ q, (q = 2 ∨ Under exTwo 2 q) ∧ 3 ∈ (exTwo.heap q).children ∧ (s'.heap 3).parent = some q := by
  have h := ok_after (m := sectionAddTerm 4 2) (s := exTwo) (a := ()) (by decide +kernel)
  obtain ⟨a1, a2, a3, -, -, -, a7, -⟩ := C71_add_partial (by decide +kernel) h
  have u : Under exTwo 2 3 := .single (by decide +kernel)
  obtain ⟨b1, b2⟩ := a7 (by decide +kernel) 3 u
  exact ⟨_, h, a1.trans (by decide +kernel), (a2 1 (by decide)).trans (by decide +kernel), a3.trans (by decide +kernel),
    b1.trans (by decide +kernel), b2⟩

/-- **C71** does not hold for `move_term`: the term stays in its old section, still calls it its own, and is written twice. -/
theorem C71_move_witness : let s' := after (sectionAddTerm 4 2) exTwo
    (sectionAddTerm 4 2 exTwo).val = .ok () ∧ 2 ∈ (s'.heap 1).terms ∧ 2 ∈ (s'.heap 4).terms ∧ (s'.heap 2).sec = some 1 := by
  decide +kernel

/-- The address is not root-level. -/
example : sectionAddTerm 4 3 exTwo = .err .generateError exTwo := C71_refuse (by decide +kernel) (by decide +kernel)

end Metatab
