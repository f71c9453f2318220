import Verif.Props.Declare
import Verif.Lemmas.PlainRows
import Verif.Lemmas.StepsParse
import Verif.Lemmas.Examples
import Verif.Lemmas.Reach
/-! # C35: declared properties govern parsed terms -/
namespace Metatab
open Py

/-- What a table of declarations says about a property of a term. -/
def declares (d : Dict DTerm) (name prop : Str) : Option Str :=
  match d.get? name with
  | some e => e.props.get? prop
  | none => none

theorem declProp_declares (d : Dict DTerm) (name prop dflt : Str) : declProp d name prop dflt = (declares d name prop).getD dflt := by
  unfold declProp declares; cases d.get? name <;> rfl

/-- Only children and parents differ. -/
structure SameDress (s s' : St) : Prop where
  terms : s'.terms = s.terms
  decl : s'.declTerms = s.declTerms
  obj : ∀ j, (s'.heap j).tvn = (s.heap j).tvn ∧ (s'.heap j).cpt = (s.heap j).cpt ∧ (s'.heap j).pt = (s.heap j).pt ∧
    (s'.heap j).rt = (s.heap j).rt ∧ (s'.heap j).cls = (s.heap j).cls ∧ (s'.heap j).terms = (s.heap j).terms ∧
    (s'.heap j).defTvn = (s.heap j).defTvn

instance : Pre SameDress where
  refl _ := ⟨rfl, rfl, fun _ => ⟨rfl, rfl, rfl, rfl, rfl, rfl, rfl⟩⟩
  trans h1 h2 := ⟨h2.terms.trans h1.terms, h2.decl.trans h1.decl, fun j => by
    obtain ⟨a1, a2, a3, a4, a5, a6, a7⟩ := h1.obj j
    obtain ⟨b1, b2, b3, b4, b5, b6, b7⟩ := h2.obj j
    exact ⟨b1.trans a1, b2.trans a2, b3.trans a3, b4.trans a4, b5.trans a5, b6.trans a6, b7.trans a7⟩⟩

theorem dress_upd {t : Nat} {f : Obj → Obj} (h : ∀ o, (f o).tvn = o.tvn ∧ (f o).cpt = o.cpt ∧ (f o).pt = o.pt ∧ (f o).rt = o.rt ∧
    (f o).cls = o.cls ∧ (f o).terms = o.terms ∧ (f o).defTvn = o.defTvn) : Pres SameDress (upd t f) := by
  intro s
  refine ⟨rfl, rfl, fun j => ?_⟩
  show ((s.setObj t (f (s.heap t))).heap j).tvn = _ ∧ ((s.setObj t (f (s.heap t))).heap j).cpt = _ ∧ ((s.setObj t (f (s.heap t))).heap j).pt = _ ∧
    ((s.setObj t (f (s.heap t))).heap j).rt = _ ∧ ((s.setObj t (f (s.heap t))).heap j).cls = _ ∧ ((s.setObj t (f (s.heap t))).heap j).terms = _ ∧
    ((s.setObj t (f (s.heap t))).heap j).defTvn = _
  simp only [heap_setObj]
  split
  · next hj => subst hj; exact h _
  · exact ⟨rfl, rfl, rfl, rfl, rfl, rfl, rfl⟩

theorem dress_addChild (q t : Nat) : Pres SameDress (addChild q t) := by
  unfold addChild
  exact Pres.bind (dress_upd fun _ => ⟨rfl, rfl, rfl, rfl, rfl, rfl, rfl⟩) fun _ =>
    Pres.bind (dress_upd fun _ => ⟨rfl, rfl, rfl, rfl, rfl, rfl, rfl⟩) fun _ => Pres.bind (Pres.obj _) fun _ => Pres.assert _

theorem dress_attach (n : Str) (e : Err) (t : Nat) : Pres SameDress (attach n e t) := by
  unfold attach
  refine Pres.bind Pres.get fun s => ?_
  split
  · exact dress_addChild _ _
  · exact Pres.raise _

theorem dress_setOwnershipF (f t : Nat) : Pres SameDress (setOwnershipF f t) := by
  induction f generalizing t with
  | zero => exact Pres.raise _
  | succ f ih =>
    unfold setOwnershipF
    refine Pres.bind (Pres.obj _) fun o => Pres.bind (Pres.assert _) fun _ => Pres.forL (fun c => Pres.bind ?_ fun _ => ih c) _
    exact dress_upd fun _ => ⟨rfl, rfl, rfl, rfl, rfl, rfl, rfl⟩

theorem dress_setOwnership (t : Nat) : Pres SameDress (setOwnership t) := by
  unfold setOwnership
  exact Pres.bind Pres.get fun _ => dress_setOwnershipF _ _

/-- Finding the parent of a term with a full name. -/
theorem dress_placeTerm {t : Nat} {s s' : St} {u : Unit} (h : placeTerm t s = .ok u s') (hp : (s.heap t).pt ≠ ELIDED) : SameDress s s' := by
  unfold placeTerm at h
  rw [bind_run, get_run] at h
  dsimp only at h
  rw [if_neg hp] at h
  split at h
  · have := dress_attach s.p.lastParent .keyError t s
    rw [h] at this; exact this
  · have h1 : Pres SameDress (updP fun p => { p with lastParent := (s.heap t).rt, lastMap := (p.lastMap.set ELIDED t).set (s.heap t).rt t }) :=
      fun s => ⟨rfl, rfl, fun _ => ⟨rfl, rfl, rfl, rfl, rfl, rfl, rfl⟩⟩
    have := Pres.bind h1 (fun _ => dress_attach (s.heap t).pt .parserError t) s
    rw [h] at this; exact this

/-- Sections stay. -/
def SameSec (s s' : St) : Prop := ∀ j, (s'.heap j).sec = (s.heap j).sec
instance : Pre SameSec where
  refl _ _ := rfl
  trans h1 h2 j := (h2 j).trans (h1 j)

theorem sec_upd {t : Nat} {f : Obj → Obj} (h : ∀ o, (f o).sec = o.sec) : Pres SameSec (upd t f) := by
  intro s j
  show ((s.setObj t (f (s.heap t))).heap j).sec = _
  rw [heap_setObj]
  split
  · next hj => subst hj; exact h _
  · rfl

theorem sec_placeTerm (t : Nat) : Pres SameSec (placeTerm t) := by
  have ha : ∀ n e, Pres SameSec (attach n e t) := by
    intro n e
    unfold attach
    refine Pres.bind Pres.get fun s => ?_
    split
    · unfold addChild
      exact Pres.bind (sec_upd fun _ => rfl) fun _ => Pres.bind (sec_upd fun _ => rfl) fun _ => Pres.bind (Pres.obj _) fun _ => Pres.assert _
    · exact Pres.raise _
  unfold placeTerm
  refine Pres.bind Pres.get fun s => ?_
  refine Pres.ite (Pres.bind (sec_upd fun _ => rfl) fun _ => ha _ _) (Pres.ite (ha _ _) (Pres.bind (fun _ _ => rfl) fun _ => ha _ _))

theorem applyDecl_ok {t : Nat} {s s' : St} {u : Unit} (h : applyDecl t s = .ok u s') : s' = s.setObj t (dress s (s.heap t)) := by
  by_cases hv : lower (dress s (s.heap t)).tvn ∈ reservedTvn
  · unfold applyDecl setTvn dress at *
    simp only [bind_run, get_run, upd_run, if_pos hv, raise_run] at h
    cases h
  · rw [applyDecl_run hv] at h
    cases h; rfl

theorem addTermFinish_ok {t x : Nat} {s s' : St} {u : Unit} (hs : (s.heap t).sec = some x) (h : addTermFinish t s = .ok u s') :
    s' = s.setObj t (finish s (s.heap x).defTvn (s.heap t)) := by
  by_cases hv : lower (finish s (s.heap x).defTvn (s.heap t)).tvn ∈ reservedTvn
  · unfold addTermFinish setTvn at h
    unfold finish at hv
    simp only [bind_run, get_run, hs] at h
    dsimp only at hv
    by_cases h2 : (s.heap t).tvn = [] ∨ (s.heap t).tvn = (s.heap x).defTvn
    · rw [if_pos h2] at hv
      simp only [if_pos h2, if_pos hv] at h
      split at h
      · simp only [bind_run, upd_run, raise_run] at h; cases h
      · cases h
    · rw [if_neg h2] at hv
      -- the value name was set before
      simp only [if_neg h2] at h
      by_cases h1 : (s.heap t).cpt = [] ∨ (s.heap t).cpt = py!"any"
      · simp only [if_pos h1, bind_run, upd_run, pure_run] at h
        cases h
        unfold finish
        rw [if_pos h1, if_neg h2]
      · simp only [if_neg h1, bind_run, pure_run] at h
        cases h
        unfold finish
        rw [if_neg h1, if_neg h2]
        exact (setObj_self s t).symm
  · rw [addTermFinish_run hs hv] at h
    cases h; rfl

/-- An object just made for a row or an argument cell. -/
structure JustMade (s : St) (t : Nat) : Prop where
  notListed : t ∉ s.terms
  notInSec : t ∉ (s.heap s.p.lastSec).terms
  notSec : t ≠ s.p.lastSec
  sec : (s.heap t).sec = none
  tvn : (s.heap t).tvn = py!"@value"
  cls : (s.heap t).cls.isSection = false

/-- The value name and the type of children a term gets. -/
theorem iterBody_dress {s s' : St} {t : Nat} {y : Bool} {p r₀ : Str} (hf : JustMade s t)
    (hn : substSynonym s.p.declTerms (s.heap t).pt (s.heap t).rt = .ok (p, r₀)) (hv : ValueName p (remapRecord s.p.paramMap r₀))
    (he : p ≠ ELIDED) (h : iterBody t s = .ok y s') {o : Obj}
    (ho : o = dress s { s.heap t with pt := p, rt := remapRecord s.p.paramMap r₀, sec := some s.p.lastSec })
    {o' : Obj} (ho' : o' = if lower p = ROOT then finish s (s.heap s.p.lastSec).defTvn o else o) :
    (s'.heap t).tvn = o'.tvn ∧ (s'.heap t).cpt = o'.cpt ∧ (s'.heap t).pt = p ∧ (s'.heap t).rt = remapRecord s.p.paramMap r₀ ∧
      (lower p = ROOT → t ∈ s'.terms) := by
  set r := remapRecord s.p.paramMap r₀ with hr
  unfold iterBody at h
  simp only [bind_run, get_run, lift_run, hn, upd_run, ← hr] at h
  obtain ⟨o1, ho1⟩ : ∃ o1 : Obj, o1 = { s.heap t with pt := p, rt := r, sec := some s.p.lastSec } := ⟨_, rfl⟩
  have e0 : setSection t (some s.p.lastSec) (s.setObj t { s.heap t with pt := p, rt := r }) = .ok () (s.setObj t o1) := by
    rw [setSection_run (by simp [hf.sec]) (by simp [hf.tvn]) (by simp [hf.cls]), ho1, heap_setObj_self, setObj_setObj]
  rw [e0] at h
  simp only [heap_setObj_self, obj_run] at h
  have hj : o1.joinLc = dotJoin (lower p) (lower r) := by rw [ho1]; rfl
  obtain ⟨n1, n2, n3⟩ := hv
  have hcls : o1.cls.isSection = false := by rw [ho1]; exact hf.cls
  simp only [hj, n1, n2, n3, if_false, bind_run, hcls, Bool.false_eq_true, pure_run] at h
  cases ha : applyDecl t (s.setObj t o1) with
  | err e s2 => rw [ha] at h; cases h
  | ok u s2 =>
  rw [ha] at h
  dsimp only at h
  have hs2 := applyDecl_ok ha
  rw [heap_setObj_self, setObj_setObj] at hs2
  have hd : dress (s.setObj t o1) o1 = o := by rw [ho, ← ho1]; rfl
  rw [hd] at hs2
  have ht2 : s2.heap t = o := by rw [hs2, heap_setObj_self]
  have hop : o.pt = p := by rw [ho]; rfl
  have hor : o.rt = r := by rw [ho]; rfl
  have hos : o.sec = some s.p.lastSec := by rw [ho]; rfl
  have hoc : o.cls.isSection = false := by rw [ho]; exact hf.cls
  cases hb : placeTerm t s2 with
  | err e s3 => rw [hb] at h; cases h
  | ok u s3 =>
  rw [hb] at h
  dsimp only at h
  have hd3 := dress_placeTerm hb (by rw [ht2, hop]; exact he)
  obtain ⟨a1, a2, a3, a4, a5, a6, a7⟩ := hd3.obj t
  rw [ht2] at a1 a2 a3 a4 a5 a6 a7
  obtain ⟨b1, b2, b3, b4, b5, b6, b7⟩ := hd3.obj s.p.lastSec
  have hsx : s2.heap s.p.lastSec = s.heap s.p.lastSec := by rw [hs2, heap_setObj, if_neg (Ne.symm hf.notSec)]
  rw [hsx] at b6 b7
  rw [obj_run] at h
  dsimp only at h
  rw [a3, hop] at h
  have hsec : (s3.heap t).sec = some s.p.lastSec := by
    have := sec_placeTerm t s2 t
    rw [hb] at this
    exact this.trans (by rw [ht2, hos])
  -- what remains to be done with a root-level term
  have key : ∀ (u : Unit) (s4 : St), (if lower p = ROOT then sectionAddTerm s.p.lastSec t else pure ()) s3 = .ok u s4 →
      (s4.heap t).tvn = o'.tvn ∧ (s4.heap t).cpt = o'.cpt ∧ (s4.heap t).pt = p ∧ (s4.heap t).rt = r ∧ (lower p = ROOT → t ∈ s4.terms) := by
    intro u s4 h4
    by_cases hroot : lower p = ROOT
    · rw [if_pos hroot] at h4 ho'
      unfold sectionAddTerm at h4
      rw [bind_run, get_run] at h4
      dsimp only at h4
      have hnx : t ∉ (s3.heap s.p.lastSec).terms := by rw [b6]; exact hf.notInSec
      rw [if_pos hnx, if_pos (by rw [a3, hop]; exact hroot)] at h4
      simp only [bind_run, upd_run] at h4
      obtain ⟨s5, hs5⟩ : ∃ s5, s5 = s3.setObj s.p.lastSec { s3.heap s.p.lastSec with terms := (s3.heap s.p.lastSec).terms ++ [t] } := ⟨_, rfl⟩
      rw [← hs5] at h4
      have ht5 : s5.heap t = s3.heap t := by rw [hs5, heap_setObj, if_neg hf.notSec]
      have h5t : t ∉ s5.terms := by rw [hs5]; show t ∉ s3.terms; rw [hd3.terms, hs2]; exact hf.notListed
      cases hc : docAddTermCore t s5 with
      | err e s6 => rw [hc] at h4; cases h4
      | ok u s6 =>
        rw [hc] at h4
        dsimp only at h4
        unfold docAddTermCore at hc
        rw [bind_run, get_run] at hc
        dsimp only at hc
        rw [if_neg h5t, bind_run, assert_run] at hc
        split at hc
        · next hasome =>
          split at hasome
          · cases hasome
            rw [ht5, show (s3.heap t).cls.isSection = false by rw [a5]; exact hoc] at hc
            simp only [Bool.false_eq_true, if_false, bind_run, modify_run] at hc
            · obtain ⟨s7, hs7⟩ : ∃ s7 : St, s7 = { s5 with terms := s5.terms ++ [t] } := ⟨_, rfl⟩
              rw [← hs7] at hc
              have h7 : s7.heap t = s3.heap t := by rw [hs7]; exact ht5
              have h6 := addTermFinish_ok (x := s.p.lastSec) (by rw [h7]; exact hsec) hc
              have hdt : (s7.heap s.p.lastSec).defTvn = (s.heap s.p.lastSec).defTvn := by
                rw [hs7, hs5]; dsimp only; rw [heap_setObj, if_pos rfl]; exact b7
              have h6t : s6.heap t = finish s7 (s.heap s.p.lastSec).defTvn (s3.heap t) := by rw [h6, heap_setObj_self, hdt, h7]
              have hdecl : s7.declTerms = s.declTerms := by rw [hs7, hs5]; show s3.declTerms = _; rw [hd3.decl, hs2]; rfl
              have hjoin : (s3.heap t).join = o.join := by unfold Obj.join; rw [a3, a4]
              have hmem : t ∈ s6.terms := by rw [h6, hs7]; show t ∈ s5.terms ++ [t]; simp
              -- the ownership and the final check
              cases hw : setOwnership t s6 with
              | err e s8 => rw [hw] at h4; cases h4
              | ok u s8 =>
                rw [hw] at h4
                dsimp only at h4
                rw [obj_run] at h4
                dsimp only at h4
                rw [assert_run] at h4
                split at h4
                · cases h4
                  have h8 := dress_setOwnership t s6
                  rw [hw] at h8
                  have h8 : SameDress s6 s4 := h8
                  obtain ⟨c1, c2, c3, c4, c5, c6, c7⟩ := h8.obj t
                  rw [h6t] at c1 c2 c3 c4
                  refine ⟨?_, ?_, ?_, ?_, fun _ => by rw [h8.terms]; exact hmem⟩
                  · rw [c1, ho']; unfold finish; dsimp only; rw [a1, hdecl, hjoin]
                  · rw [c2, ho']; unfold finish; dsimp only; rw [a2, hdecl, hjoin]
                  · rw [c3]; unfold finish; dsimp only; rw [a3, hop]
                  · rw [c4]; unfold finish; dsimp only; rw [a4, hor]
                · cases h4
          · cases hasome
        · cases hc
    · rw [if_neg hroot] at h4 ho'
      cases h4
      rw [ho']
      exact ⟨a1, a2, by rw [a3, hop], by rw [a4, hor], fun h => absurd h hroot⟩
  have fin : ∀ (s4 : St), (if o1.isDecl = true then manageDeclare t >>= fun _ => pure false else pure true) s4 = Res.ok y s' →
      ((s4.heap t).tvn = o'.tvn ∧ (s4.heap t).cpt = o'.cpt ∧ (s4.heap t).pt = p ∧ (s4.heap t).rt = r ∧ (lower p = ROOT → t ∈ s4.terms)) →
      ((s'.heap t).tvn = o'.tvn ∧ (s'.heap t).cpt = o'.cpt ∧ (s'.heap t).pt = p ∧ (s'.heap t).rt = r ∧ (lower p = ROOT → t ∈ s'.terms)) := by
    intro s4 h4 hk
    have hp : Pres DeclOnly (if o1.isDecl = true then manageDeclare t >>= fun _ => (pure false : M Bool) else pure true) :=
      Pres.ite (Pres.bind (pres_manageDeclare t) fun _ => Pres.pure _) (Pres.pure _)
    have := hp s4
    rw [h4] at this
    obtain ⟨d1, d2, rfl⟩ := this
    exact hk
  by_cases hroot : lower p = ROOT
  · rw [if_pos hroot] at h
    rw [bind_run] at h
    cases hq : sectionAddTerm s.p.lastSec t s3 with
    | err e s4 => rw [hq] at h; cases h
    | ok u s4 =>
      rw [hq] at h
      exact fin s4 h (key u s4 (by rw [if_pos hroot]; exact hq))
  · rw [if_neg hroot] at h
    exact fin s3 h (key () s3 (by rw [if_neg hroot]; rfl))

theorem consume_dress {s s' : St} {t : Nat} {load : Bool} {u : Unit} {p r₀ : Str} (hf : JustMade s t)
    (hn : substSynonym s.p.declTerms (s.heap t).pt (s.heap t).rt = .ok (p, r₀)) (hv : ValueName p (remapRecord s.p.paramMap r₀))
    (he : p ≠ ELIDED) (h : consume load t s = .ok u s') {o : Obj}
    (ho : o = dress s { s.heap t with pt := p, rt := remapRecord s.p.paramMap r₀, sec := some s.p.lastSec })
    {o' : Obj} (ho' : o' = if lower p = ROOT then finish s (s.heap s.p.lastSec).defTvn o else o) :
    (s'.heap t).tvn = o'.tvn ∧ (s'.heap t).cpt = o'.cpt ∧ (s'.heap t).pt = p ∧ (s'.heap t).rt = remapRecord s.p.paramMap r₀ := by
  unfold consume at h
  rw [bind_run] at h
  cases hb : iterBody t s with
  | err e s2 => rw [hb] at h; cases h
  | ok y s2 =>
    rw [hb] at h
    dsimp only at h
    obtain ⟨h1, h2, h3, h4, h5⟩ := iterBody_dress hf hn hv he hb ho ho'
    have : s' = s2 := by
      split at h
      · unfold loadBody at h
        rw [bind_run, obj_run] at h
        dsimp only at h
        have hj : (s2.heap t).joinLc = dotJoin (lower p) (lower (remapRecord s.p.paramMap r₀)) := by unfold Obj.joinLc; rw [h3, h4]
        rw [hj, if_neg hv.2.2, if_neg hv.2.1, h3] at h
        split at h
        · next hroot =>
          unfold docAddTerm at h
          rw [bind_run, get_run] at h
          dsimp only at h
          rw [if_pos (h5 hroot)] at h
          cases h; rfl
        · rw [assert_run] at h
          split at h
          · cases h; rfl
          · cases h
      · cases h; rfl
    rw [this]
    exact ⟨h1, h2, h3, h4⟩

/-- The object made by `Term(...)` without section. -/
theorem newTermObj_made {F : Prop} {cls : Cls} {n : Str} {v : Val} {args : List Str} {par : Option Nat} {col t : Nat} {d : Bool} {s s1 : St}
    (w : WF F s) (h : newTermObj cls n v args par none col d s = .ok t s1) (hc : cls.isSection = false) :
    JustMade s1 t ∧ s1.p = s.p ∧ s1.declTerms = s.declTerms ∧ (s1.heap s1.p.lastSec).defTvn = (s.heap s.p.lastSec).defTvn ∧
      ∃ p r, splitTermLower n = .ok (p, r) ∧ (s1.heap t).rt = r ∧
        (s1.heap t).pt = (match par with | none => p | some q => if p = ROOT then (s.heap q).rt else p) := by
  unfold newTermObj at h
  rw [bind_run, lift_run] at h
  cases hn : splitTermLower n with
  | error e => rw [hn] at h; cases h
  | ok x =>
    obtain ⟨p, r⟩ := x
    rw [hn] at h
    dsimp only at h
    have key : ∀ o : Obj, o.sec = none → o.tvn = py!"@value" → o.cls = cls →
        JustMade ({ s with next := s.next + 1 }.setObj s.next o) s.next ∧
        (({ s with next := s.next + 1 }.setObj s.next o).heap s.p.lastSec).defTvn = (s.heap s.p.lastSec).defTvn := by
      intro o o1 o2 o3
      have hlt := w.pSec.1
      have hx : ({ s with next := s.next + 1 }.setObj s.next o).heap s.p.lastSec = s.heap s.p.lastSec := by
        rw [heap_setObj, if_neg (Nat.ne_of_lt hlt)]
      refine ⟨⟨?_, ?_, Nat.ne_of_gt hlt, by rw [heap_setObj_self]; exact o1, by rw [heap_setObj_self]; exact o2,
        by rw [heap_setObj_self, o3]; exact hc⟩, by rw [hx]⟩
      · intro hm; exact absurd (w.termsLt _ hm).1 (Nat.lt_irrefl _)
      · show s.next ∉ (({ s with next := s.next + 1 }.setObj s.next o).heap s.p.lastSec).terms
        rw [hx]; intro hm; exact absurd (w.secTermsLt _ _ hm) (Nat.lt_irrefl _)
    cases par with
    | none =>
      dsimp only at h
      rw [alloc_run] at h
      cases h
      obtain ⟨k1, k2⟩ := key { Obj.blank with cls := cls, raw := n, pt := p, rt := r, value := v.mk, args := args.map strip, sec := none, col := col, isDecl := d } rfl rfl rfl
      exact ⟨k1, rfl, rfl, k2, p, r, rfl, by rw [heap_setObj_self], by rw [heap_setObj_self]⟩
    | some q =>
      dsimp only at h
      simp only [bind_run, obj_run] at h
      by_cases ha : lower (s.heap q).rt = lower (if p = ROOT then (s.heap q).rt else p)
      · rw [assert_run, if_pos (by simpa using ha)] at h
        dsimp only at h
        rw [alloc_run] at h
        cases h
        obtain ⟨k1, k2⟩ := key { Obj.blank with cls := cls, raw := n, pt := if p = ROOT then (s.heap q).rt else p, rt := r, value := v.mk, args := args.map strip, parent := some q, sec := none, col := col, isDecl := d } rfl rfl rfl
        exact ⟨k1, rfl, rfl, k2, p, r, rfl, by rw [heap_setObj_self], by rw [heap_setObj_self]⟩
      · rw [assert_run, if_neg (by simpa using ha)] at h
        cases h

theorem rowTerm_made {F : Prop} {d : Bool} {c : Str} {rest : List Str} {s s1 : St} {t : Nat} (w : WF F s)
    (h : rowTerm d (c :: rest) s = .ok t s1) {p r : Str} (hc : splitTermLower c = .ok (p, r)) (hv : ValueName p r) :
    JustMade s1 t ∧ s1.p = s.p ∧ s1.declTerms = s.declTerms ∧ (s1.heap s1.p.lastSec).defTvn = (s.heap s.p.lastSec).defTvn ∧
      (s1.heap t).pt = p ∧ (s1.heap t).rt = r := by
  unfold rowTerm at h
  have hn : normalizeTerm c = .ok (dotJoin p r) := by unfold normalizeTerm; rw [hc]; rfl
  have h2 := splitTermLower_again hc
  simp only [bind_run, lift_run, List.headD_cons, hn, get_run] at h
  have fin : ∀ cl : Cls, cl.isSection = false → newTermObj cl (dotJoin p r) (Val.str (((c :: rest)[1]?).getD [])) ((c :: rest).drop 2) none none 1 d s =
      .ok t s1 → JustMade s1 t ∧ s1.p = s.p ∧ s1.declTerms = s.declTerms ∧ (s1.heap s1.p.lastSec).defTvn = (s.heap s.p.lastSec).defTvn ∧
      (s1.heap t).pt = p ∧ (s1.heap t).rt = r := by
    intro cl hcl hh
    obtain ⟨m1, m2, m3, m4, p', r', m5, m6, m7⟩ := newTermObj_made w hh hcl
    rw [h2] at m5; cases m5
    exact ⟨m1, m2, m3, m4, m7, m6⟩
  cases hk : parserTermClass s (dotJoin p r) with
  | term => rw [hk] at h; exact fin _ rfl h
  | user n => rw [hk] at h; exact fin _ rfl h
  | «section» =>
    rw [hk] at h
    dsimp only at h
    exfalso
    have no : ∀ args : List Str, (newTermObj .section (dotJoin p r) (Val.str (((c :: rest)[1]?).getD [])) args none none 1 d >>= fun i => obj i >>= fun o =>
        M.assert (decide (o.joinLc = py!"root.section" ∨ o.joinLc = py!"root.root")) >>= fun _ => pure i) s ≠ .ok t s1 := by
      intro args h
      unfold newTermObj at h
      simp only [bind_run, lift_run, h2, alloc_run, obj_run, heap_setObj_self, assert_run] at h
      have : ¬ (Obj.joinLc { Obj.blank with cls := .section, raw := dotJoin p r, pt := p, rt := r, value := (Val.str (((c :: rest)[1]?).getD [])).mk, args := args.map strip, sec := none, col := 1, isDecl := d } = py!"root.section" ∨
          Obj.joinLc { Obj.blank with cls := .section, raw := dotJoin p r, pt := p, rt := r, value := (Val.str (((c :: rest)[1]?).getD [])).mk, args := args.map strip, sec := none, col := 1, isDecl := d } = py!"root.root") := by
        rintro (h | h)
        · exact hv.2.1 h
        · exact hv.2.2 h
      rw [if_neg (by simpa using this)] at h
      cases h
    unfold newSectionObj at h
    rw [ite_run] at h
    split at h
    · exact no _ h
    · rw [bind_run, lift_run] at h
      split at h
      · next args s2 hargs =>
        split at hargs
        · cases hargs; exact no _ h
        · cases hargs
      · cases h
  | root => rw [hk] at h; cases h

theorem argTerm_made {F : Prop} {d : Bool} {q col : Nat} {v : Str} {s s1 : St} {t : Nat} (w : WF F s)
    (h : argTerm d q col v s = .ok t s1) {R : Str} (hR : (s.heap q).rt = R) (hg : GoodName R) :
    JustMade s1 t ∧ s1.p = s.p ∧ s1.declTerms = s.declTerms ∧ (s1.heap s1.p.lastSec).defTvn = (s.heap s.p.lastSec).defTvn ∧
      (s1.heap t).pt = R ∧ (s1.heap t).rt = natStr col := by
  unfold argTerm at h
  simp only [bind_run, get_run, hR, hg.low] at h
  have hname : R ++ '.' :: natStr col = dotJoin R (natStr col) := rfl
  rw [hname] at h
  have h2 : splitTermLower (dotJoin R (natStr col)) = .ok (R, natStr col) :=
    splitTermLower_join hg.nonempty hg.stripped (strip_natStr col) hg.nodot (not_mem_natStr (by decide) col) hg.low (lower_natStr col)
  have fin : ∀ cl : Cls, cl.isSection = false → newTermObj cl (dotJoin R (natStr col)) (Val.str v) [] (some q) none (col + 2) d s = .ok t s1 →
      JustMade s1 t ∧ s1.p = s.p ∧ s1.declTerms = s.declTerms ∧ (s1.heap s1.p.lastSec).defTvn = (s.heap s.p.lastSec).defTvn ∧
      (s1.heap t).pt = R ∧ (s1.heap t).rt = natStr col := by
    intro cl hcl hh
    obtain ⟨m1, m2, m3, m4, p', r', m5, m6, m7⟩ := newTermObj_made w hh hcl
    rw [h2] at m5; cases m5
    refine ⟨m1, m2, m3, m4, ?_, m6⟩
    rw [m7]; dsimp only; rw [hR]; split <;> rfl
  cases hk : parserTermClass s (dotJoin R (natStr col)) with
  | term => rw [hk] at h; exact fin _ rfl h
  | user n => rw [hk] at h; exact fin _ rfl h
  | «section» => rw [hk] at h; cases h
  | root => rw [hk] at h; cases h

/-- What the declarations known in state `s` mean for the value name `tvn` and the type of children `cpt` of a term called `name`, read
by the parser. The parser's own table comes first. The document's table, which holds what earlier loads have declared, is looked up for
root-level terms. -/
structure Governed (s : St) (name : Str) (rootLevel : Prop) (tvn cpt : Str) : Prop where
  tvn_declared : ∀ v, declares s.p.declTerms name (py!"termvaluename") = some v → v ≠ [] →
    (declares s.declTerms name (py!"termvaluename") = none ∨ declares s.declTerms name (py!"termvaluename") = some v) → tvn = v
  cpt_declared : ∀ v, declares s.p.declTerms name (py!"childpropertytype") = some v → v ≠ [] →
    (declares s.declTerms name (py!"childpropertytype") = none ∨ declares s.declTerms name (py!"childpropertytype") = some v) → cpt = v
  tvn_default : declares s.p.declTerms name (py!"termvaluename") = none →
    (declares s.declTerms name (py!"termvaluename") = none ∨ ¬ rootLevel) → s.p.defTvn ≠ [] → tvn = s.p.defTvn
  cpt_default : declares s.p.declTerms name (py!"childpropertytype") = none →
    (declares s.declTerms name (py!"childpropertytype") = none ∨ ¬ rootLevel) → cpt = py!"any"
  tvn_doc : declares s.p.declTerms name (py!"termvaluename") = none → rootLevel → s.p.defTvn = (s.heap s.p.lastSec).defTvn →
    ∀ v, declares s.declTerms name (py!"termvaluename") = some v → tvn = v
  cpt_doc : declares s.p.declTerms name (py!"childpropertytype") = none → rootLevel →
    ∀ v, declares s.declTerms name (py!"childpropertytype") = some v → cpt = v

theorem governed {s : St} {o o' : Obj} {o0 : Obj} {p r : Str} (ho : o = dress s { o0 with pt := p, rt := r, sec := some s.p.lastSec })
    (ho' : o' = if lower p = ROOT then finish s (s.heap s.p.lastSec).defTvn o else o) :
    Governed s (dotJoin p r) (lower p = ROOT) o'.tvn o'.cpt := by
  have t1 : o.tvn = (declares s.p.declTerms (dotJoin p r) (py!"termvaluename")).getD s.p.defTvn := by
    rw [ho, ← declProp_declares]; rfl
  have c1 : o.cpt = (declares s.p.declTerms (dotJoin p r) (py!"childpropertytype")).getD (py!"any") := by
    rw [ho, ← declProp_declares]; rfl
  have j1 : o.join = dotJoin p r := by rw [ho]; rfl
  have t2 : o'.tvn = if lower p = ROOT ∧ (o.tvn = [] ∨ o.tvn = (s.heap s.p.lastSec).defTvn) then
      (declares s.declTerms (dotJoin p r) (py!"termvaluename")).getD (s.heap s.p.lastSec).defTvn else o.tvn := by
    rw [ho']
    by_cases hr : lower p = ROOT
    · rw [if_pos hr]
      simp only [hr, true_and]
      unfold finish
      rw [declProp_declares, j1]
    · simp only [if_neg hr, hr, false_and, if_false]
  have c2 : o'.cpt = if lower p = ROOT ∧ (o.cpt = [] ∨ o.cpt = py!"any") then
      (declares s.declTerms (dotJoin p r) (py!"childpropertytype")).getD (py!"any") else o.cpt := by
    rw [ho']
    by_cases hr : lower p = ROOT
    · rw [if_pos hr]
      simp only [hr, true_and]
      unfold finish
      rw [declProp_declares, declProp_declares, j1]
    · simp only [if_neg hr, hr, false_and, if_false]
  refine ⟨?_, ?_, ?_, ?_, ?_, ?_⟩
  · intro v hv h0 hD
    rw [hv] at t1
    rw [t2, t1]
    simp only [Option.getD_some]
    split
    · next hc =>
      rcases hc.2 with h | h
      · exact absurd h h0
      · rcases hD with hD | hD
        · rw [hD]; exact h.symm
        · rw [hD]; rfl
    · rfl
  · intro v hv h0 hD
    rw [hv] at c1
    rw [c2, c1]
    simp only [Option.getD_some]
    split
    · next hc =>
      rcases hc.2 with h | h
      · exact absurd h h0
      · rcases hD with hD | hD
        · rw [hD]; exact h.symm
        · rw [hD]; rfl
    · rfl
  · intro hv hD h0
    rw [hv] at t1
    rw [t2, t1]
    simp only [Option.getD_none]
    split
    · next hc =>
      rcases hc.2 with h | h
      · exact absurd h h0
      · rcases hD with hD | hD
        · rw [hD]; exact h.symm
        · exact absurd hc.1 hD
    · rfl
  · intro hv hD
    rw [hv] at c1
    rw [c2, c1]
    simp only [Option.getD_none]
    split
    · next hc =>
      rcases hD with hD | hD
      · rw [hD]; rfl
      · exact absurd hc.1 hD
    · rfl
  · intro hv hr he v hD
    rw [hv] at t1
    rw [t2, t1]
    simp only [Option.getD_none]
    rw [if_pos ⟨hr, .inr he⟩, hD]; rfl
  · intro hv hr v hD
    rw [hv] at c1
    rw [c2, c1]
    simp only [Option.getD_none]
    simp [hr, hD]

theorem Governed.congr {s s1 : St} {n tvn cpt : Str} {R : Prop} (g : Governed s1 n R tvn cpt) (m2 : s1.p = s.p) (m3 : s1.declTerms = s.declTerms)
    (m4 : (s1.heap s1.p.lastSec).defTvn = (s.heap s.p.lastSec).defTvn) : Governed s n R tvn cpt := by
  obtain ⟨g1, g2, g3, g4, g5, g6⟩ := g
  rw [m4] at g5
  rw [m2, m3] at g1 g2 g3 g4 g5 g6
  exact ⟨g1, g2, g3, g4, g5, g6⟩

theorem consume_governed {s s' : St} {t : Nat} {load : Bool} {u : Unit} {p r₀ r : Str} (hf : JustMade s t)
    (hn : substSynonym s.p.declTerms (s.heap t).pt (s.heap t).rt = .ok (p, r₀)) (hr : remapRecord s.p.paramMap r₀ = r) (hv : ValueName p r)
    (he : p ≠ ELIDED) (h : consume load t s = .ok u s') :
    (s'.heap t).join = dotJoin p r ∧ Governed s (dotJoin p r) (lower p = ROOT) (s'.heap t).tvn (s'.heap t).cpt := by
  subst hr
  obtain ⟨a1, a2, a3, a4⟩ := consume_dress hf hn hv he h rfl rfl
  refine ⟨by unfold Obj.join; rw [a3, a4], ?_⟩
  rw [a1, a2]
  exact governed rfl rfl

/-- **C35**, rows: a term read from a row with a full name (not a synonym, not a column number, not `Section`, `Root` or `Header`) gets
what is declared for its name, and the current defaults if nothing is. What is missing: rows with an elided parent, for which the claim
is false (`C35_elided_witness`). -/
theorem C35_rows_partial {F : Prop} {d load : Bool} {c : Str} {rest : List Str} {s s1 s' : St} {t : Nat} {u : Unit} (w : WF F s)
    (hrow : rowTerm d (c :: rest) s = .ok t s1) {p r : Str} (hc : splitTermLower c = .ok (p, r))
    (hsyn : (synonyms s.p.declTerms).get? (dotJoin p r) = none) (hint : pyInt r = none) (hv : ValueName p r) (he : p ≠ ELIDED)
    (h : consume load t s1 = .ok u s') :
    (s'.heap t).join = dotJoin p r ∧ Governed s (dotJoin p r) (lower p = ROOT) (s'.heap t).tvn (s'.heap t).cpt := by
  obtain ⟨m1, m2, m3, m4, m5, m6⟩ := rowTerm_made w hrow hc hv
  obtain ⟨q1, q2, q3, q4, q5, q6, q7⟩ := splitTermLower_cases hc
  have hsub : substSynonym s1.p.declTerms (s1.heap t).pt (s1.heap t).rt = .ok (p, r) := by
    unfold substSynonym; rw [m2, m5, m6, q6, q7, hsyn]
  have hrm : remapRecord s1.p.paramMap r = r := by unfold remapRecord; rw [hint]
  obtain ⟨g1, g2⟩ := consume_governed m1 hsub hrm hv he h
  exact ⟨g1, g2.congr m2 m3 m4⟩

/-- **C35**, argument cells: the same holds for the term made from an argument cell, whose name is the name of its term and its
column. -/
theorem C35_cells {F : Prop} {d load : Bool} {q col : Nat} {v R col' : Str} {s s1 s' : St} {t : Nat} {u : Unit} (w : WF F s)
    (hcell : argTerm d q col v s = .ok t s1) (hR : (s.heap q).rt = R) (hg : GoodName R) (hcol : s.p.paramMap[col]? = some col')
    (hsyn : (synonyms s.p.declTerms).get? (dotJoin R (natStr col)) = none) (hv : ValueName R col') (he : R ≠ ELIDED)
    (h : consume load t s1 = .ok u s') :
    (s'.heap t).join = dotJoin R col' ∧ Governed s (dotJoin R col') (lower R = ROOT) (s'.heap t).tvn (s'.heap t).cpt := by
  obtain ⟨m1, m2, m3, m4, m5, m6⟩ := argTerm_made w hcell hR hg
  have hsub : substSynonym s1.p.declTerms (s1.heap t).pt (s1.heap t).rt = .ok (R, natStr col) := by
    unfold substSynonym; rw [m2, m5, m6, hg.low, lower_natStr, hsyn]
  have hrm : remapRecord s1.p.paramMap (natStr col) = col' := by
    unfold remapRecord pyIndex
    rw [pyInt_natStr, m2]
    dsimp only
    rw [if_pos (Int.natCast_nonneg _), Int.toNat_natCast, hcol]; rfl
  obtain ⟨g1, g2⟩ := consume_governed m1 hsub hrm hv he h
  exact ⟨g1, g2.congr m2 m3 m4⟩

/-! Concrete cases -/
/-- One declare file, `d.csv`, whose declarations are those of `Verif/Props/Declare.lean`. -/
def exFiles : Files :=
  ⟨fun t => if t = py!"d.csv" then some exDeclRows else none, fun _ n => if n = py!"d.csv" then some (py!"d.csv") else none⟩
/-- A document that declares its terms in that file and then opens a section and a table. -/
def exTabRows : List (List Str) := [[py!"Declare", py!"d.csv"], [py!"Section", py!"Data", py!"Column"], [py!"Table", py!"t1"]]
/-- After reading these rows. -/
def exTab : St := after (parseRows exFiles 3 (py!"m.csv") exTabRows) exDoc

theorem exTab_reach : Reach (fun _ => True) exTab := by
  unfold exTab exDoc
  exact Reach.step (.parse exFiles 3 (py!"m.csv") exTabRows) (.new exEnv _) trivial trivial

/-- The hypotheses of `C35_rows_partial` can be met; the column gets its declared type. -/
example : ((after (consume true 16) (after (rowTerm false [py!"Table.Column", py!"c1"]) exTab)).heap 16).cpt = py!"sequence" :=
  (C35_rows_partial (d := false) (load := true) (u := ()) (t := 16) (exTab_reach.wf (F := False) fun f => f.elim) (ok_after (by decide +kernel)) (p := py!"table")
    (r := py!"column") (by decide) (by decide +kernel) (by decide) ⟨by decide, by decide, by decide⟩ (by decide) (ok_after (by decide +kernel))).2.cpt_declared
    (py!"sequence") (by decide +kernel) (by decide) (by decide +kernel)

/-- The hypotheses of `C35_cells` can be met; the cell of a table in the column called `Column` gets the declared type as well. -/
example : ((after (consume true 16) (after (argTerm false 15 0 (py!"c1")) exTab)).heap 16).cpt = py!"sequence" :=
  (C35_cells (d := false) (load := true) (u := ()) (t := 16) (R := py!"table") (col' := py!"column") (exTab_reach.wf (F := False) fun f => f.elim)
    (ok_after (by decide +kernel)) (by decide +kernel) ⟨by decide, by decide, by decide, by decide⟩ (by decide +kernel) (by decide +kernel)
    ⟨by decide, by decide, by decide⟩ (by decide)
    (ok_after (by decide +kernel))).2.cpt_declared (py!"sequence") (by decide +kernel) (by decide) (by decide +kernel)

/-- **C35** does not hold for rows with an elided parent. Both rows below give a `Table.Column`, which is declared to be a sequence; only
the one that was spelt out is one. -/
theorem C35_elided_witness :
    (parseRows exFiles 3 (py!"m.csv") (exTabRows ++ [[py!".Column", py!"c1"], [py!"Table.Column", py!"c2"]]) exDoc).val = .ok () ∧
    let s := after (parseRows exFiles 3 (py!"m.csv") (exTabRows ++ [[py!".Column", py!"c1"], [py!"Table.Column", py!"c2"]])) exDoc
    (s.heap 15).children = [16, 17] ∧ (s.heap 16).join = py!"table.column" ∧ (s.heap 17).join = py!"table.column" ∧
    declares s.p.declTerms (py!"table.column") (py!"childpropertytype") = some (py!"sequence") ∧
    (s.heap 16).cpt = py!"any" ∧ (s.heap 17).cpt = py!"sequence" := by
  decide +kernel

/-- **C36** does not hold: reading the declare file adds its section and its root-level terms to the document. -/
theorem C36_witness :
    let s := after (parseRows exFiles 3 (py!"m.csv") [[py!"Declare", py!"d.csv"]]) exDoc
    (parseRows exFiles 3 (py!"m.csv") [[py!"Declare", py!"d.csv"]] exDoc).val = .ok () ∧ s.sections.keys = [py!"root", py!"declaredterms"] ∧
    s.terms.map (fun t => (s.heap t).join) = [py!"root.declare", py!"root.section", py!"root.section", py!"root.declaresection",
      py!"root.declareterm", py!"root.declareterm"] := by
  decide +kernel

/-- Two declare files with one inheritance each. -/
def inhFiles : Files :=
  { rows := fun n =>
      if n = py!"a.csv" then some [[py!"Section", py!"DeclaredTerms", py!"Section", py!"InheritsFrom"], [py!"DeclareSection", py!"Data"],
        [py!"DeclareTerm", py!"Sql", py!"Data", py!"Root.Datafile"]]
      else if n = py!"b.csv" then some [[py!"Section", py!"DeclaredTerms", py!"Section", py!"InheritsFrom"], [py!"DeclareSection", py!"Data"],
        [py!"DeclareTerm", py!"Grid", py!"Data", py!"ROOT.Table"]]
      else none
    decl := fun _ n => some n }
/-- A document that uses the first. -/
def inhDoc : St := after (parseRows inhFiles 3 (py!"m.csv") [[py!"Declare", py!"a.csv"], [py!"Sql", py!"x"]]) exDoc
/-- The same, after loading further rows that use the second. -/
def inhDoc2 : St := after (parseRows inhFiles 3 (py!"m.csv") [[py!"Declare", py!"b.csv"], [py!"Grid", py!"y"]]) inhDoc
/-- The further rows alone. -/
def inhDoc3 : St := after (parseRows inhFiles 3 (py!"m.csv") [[py!"Declare", py!"b.csv"], [py!"Grid", py!"y"]]) exDoc

/-- The declared inheritance is in effect. -/
example : inhDoc.derived = [(py!"root.datafile", [py!"root.sql"])] ∧ (find inhDoc (py!"Root.Datafile")).toOption.map List.length = some 1 := by
  decide +kernel

/-- **C12** fails for a document that is loaded in two steps: inheritances declared in the second step are recorded as declared, but are not
used, because the parser takes the table of the document if that is not empty (metatab/parser.py:125-126). Read first, the same rows
are found. -/
theorem C12_second_load_witness :
    ((inhDoc2.declTerms.get? (py!"root.grid")).bind fun e => e.props.get? (py!"inheritsfrom")) = some (py!"ROOT.Table") ∧
    find inhDoc2 (py!"Root.Table") = .ok [] ∧ (find inhDoc2 (py!"Root.Grid")).toOption.map List.length = some 1 ∧
    (find inhDoc3 (py!"Root.Table")).toOption.map List.length = some 1 := by
  decide +kernel

end Metatab
