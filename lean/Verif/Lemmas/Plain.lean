import Verif.Model.Parser
import Verif.Lemmas.Monad
import Verif.Lemmas.Dict
/-! What reading one value-bearing term does to the state, as one explicit update.

`consume` is a long chain of small updates. For a term that is not a section, header or declaration its effect is the single update
`place`: the term gets its final attributes, is appended to its parent's children and, at root level, to the lists of terms of the
current section and the document. -/
namespace Metatab
open Py

/-- The attributes taken from the declarations the parser has read. -/
def dress (s : St) (o : Obj) : Obj :=
  { o with cpt := declProp s.p.declTerms o.join (py!"childpropertytype") (py!"any")
           tvn := declProp s.p.declTerms o.join (py!"termvaluename") s.p.defTvn
           valid := some (s.p.declTerms.has o.joinLc)
           options := splitOn ',' (declProp s.p.declTerms o.join (py!"options") []) }

/-- The attributes root-level terms take from the declarations of the document. -/
def finish (s : St) (dflt : Str) (o : Obj) : Obj :=
  { o with cpt := if o.cpt = [] ∨ o.cpt = py!"any" then declProp s.declTerms o.join (py!"childpropertytype") (py!"any") else o.cpt
           tvn := if o.tvn = [] ∨ o.tvn = dflt then declProp s.declTerms o.join (py!"termvaluename") dflt else o.tvn }

/-- A term is named by its row: it neither has an elided parent nor is it an argument cell. -/
def Named (p : Str) (col : Nat) : Prop := p ≠ ELIDED ∧ col ≤ 1
instance (p : Str) (col : Nat) : Decidable (Named p col) := by unfold Named; infer_instance

/-- Parser state after a term. -/
def nextP (ps : PSt) (p r : Str) (col t : Nat) : PSt :=
  if Named p col then { ps with lastParent := r, lastMap := (ps.lastMap.set ELIDED t).set r t } else ps

/-- The name under which the parent is looked up. -/
def parentKey (ps : PSt) (p : Str) (col : Nat) : Str := if Named p col then p else ps.lastParent

/-- The parent part of the name in the end. -/
def finalPt (ps : PSt) (p : Str) : Str := if p = ELIDED then ps.lastParent else p

/-- The final object for a term with names `p`, `r` under the parent `q`. -/
def finalObj (s : St) (o : Obj) (p r : Str) (q : Nat) : Obj :=
  let o1 := { dress s { o with pt := p, rt := r, sec := some s.p.lastSec } with pt := finalPt s.p p, parent := some q }
  if lower (finalPt s.p p) = ROOT then finish s (s.heap s.p.lastSec).defTvn o1 else o1

/-- Put object `o` at `t`, below `q`; at root level also into the lists of terms. -/
def place (s : St) (t q : Nat) (o : Obj) (ps : PSt) : St :=
  { s with
    heap := fun j => if j = t then o else
      { s.heap j with children := if j = q then (s.heap j).children ++ [t] else (s.heap j).children
                      terms := if lower o.pt = ROOT ∧ j = s.p.lastSec then (s.heap j).terms ++ [t] else (s.heap j).terms }
    terms := if lower o.pt = ROOT then s.terms ++ [t] else s.terms
    p := ps }

/-- A term object the parser has just built. -/
structure FreshTerm (s : St) (t : Nat) : Prop where
  children : (s.heap t).children = []
  notListed : t ∉ s.terms
  notInSec : t ∉ (s.heap s.p.lastSec).terms
  notSec : t ≠ s.p.lastSec
  sec : (s.heap t).sec = none
  tvn : (s.heap t).tvn = py!"@value"
  doc : (s.heap t).isDecl = false
  cls : (s.heap t).cls.isSection = false

/-- A name that stands for a value. -/
def ValueName (p r : Str) : Prop :=
  dotJoin (lower p) (lower r) ≠ py!"root.header" ∧ dotJoin (lower p) (lower r) ≠ py!"root.section" ∧
  dotJoin (lower p) (lower r) ≠ py!"root.root"


theorem setObj_self (s : St) (i : Nat) : s.setObj i (s.heap i) = s := by
  unfold St.setObj; congr 1; funext j; split <;> simp_all
theorem setObj_setObj (s : St) (i : Nat) (a b : Obj) : (s.setObj i a).setObj i b = s.setObj i b := by
  unfold St.setObj; congr 1; funext j; split <;> simp_all
theorem heap_setObj_self (s : St) (i : Nat) (o : Obj) : (s.setObj i o).heap i = o := by simp

/-- What the end of `add_term` does to a root-level term. -/
theorem addTermFinish_run {s : St} {t x : Nat} (hs : (s.heap t).sec = some x)
    (hv : lower (finish s (s.heap x).defTvn (s.heap t)).tvn ∉ reservedTvn) :
    addTermFinish t s = .ok () (s.setObj t (finish s (s.heap x).defTvn (s.heap t))) := by
  unfold addTermFinish finish at *
  simp only [bind_run, get_run, hs]
  by_cases h1 : (s.heap t).cpt = [] ∨ (s.heap t).cpt = py!"any"
  · by_cases h2 : (s.heap t).tvn = [] ∨ (s.heap t).tvn = (s.heap x).defTvn
    · simp only [if_pos h1, if_pos h2] at *
      unfold setTvn
      simp [hv, setObj_setObj, hs]
    · simp only [if_pos h1, if_neg h2] at *
      simp [hs]
  · by_cases h2 : (s.heap t).tvn = [] ∨ (s.heap t).tvn = (s.heap x).defTvn
    · simp only [if_neg h1, if_pos h2] at *
      unfold setTvn
      simp [hv, hs]
    · simp only [if_neg h1, if_neg h2] at *
      rw [← hs]
      show _ = Res.ok () (s.setObj t (s.heap t))
      rw [setObj_self]; rfl

theorem setSection_run {s : St} {t x : Nat} (hs : (s.heap t).sec = none) (hv : (s.heap t).tvn = py!"@value")
    (hc : (s.heap t).cls.isSection = false) : setSection t (some x) s = .ok () (s.setObj t { s.heap t with sec := some x }) := by
  unfold setSection
  have h1 : propertyNames s t = [] := by unfold propertyNames; rw [hc, hs]; rfl
  have h2 : lower (py!"@value") ≠ py!"section" := by decide
  simp only [bind_run, get_run, hv, h1, if_neg h2, ite_run, upd_run, List.map_nil, List.not_mem_nil, if_false]

theorem applyDecl_run {s : St} {t : Nat} (hv : lower (dress s (s.heap t)).tvn ∉ reservedTvn) :
    applyDecl t s = .ok () (s.setObj t (dress s (s.heap t))) := by
  unfold applyDecl dress setTvn at *
  simp only [bind_run, get_run, upd_run, if_neg hv, setObj_setObj, heap_setObj_self]
  rfl

theorem addChild_run {s : St} {q t : Nat} (hq : q ≠ t) (hn : (s.heap t).joinLc ≠ py!"datafile.section") :
    addChild q t s = .ok () ((s.setObj q { s.heap q with children := (s.heap q).children ++ [t] }).setObj t
      { s.heap t with parent := some q }) := by
  unfold addChild
  have h : Obj.joinLc { s.heap t with parent := some q } = (s.heap t).joinLc := rfl
  simp only [bind_run, upd_run, obj_run, heap_setObj, if_neg hq.symm, if_true, h, assert_run, decide_eq_true_eq, ne_eq, hn,
    not_false_iff, decide_true]

theorem setOwnership_run {s : St} {t : Nat} (hs : (s.heap t).sec.isSome) (hc : (s.heap t).children = []) :
    setOwnership t s = .ok () s := by
  unfold setOwnership setOwnershipF
  simp only [bind_run, get_run, obj_run, assert_run, hs, if_true, hc, forL, pure_run]

theorem sectionAddTerm_run {s : St} {t x : Nat} (hx : t ≠ x) (hs : (s.heap t).sec = some x) (hc : (s.heap t).children = [])
    (hr : lower (s.heap t).pt = ROOT) (hcl : (s.heap t).cls.isSection = false) (hn : t ∉ s.terms) (hnx : t ∉ (s.heap x).terms)
    (hv : lower (finish s (s.heap x).defTvn (s.heap t)).tvn ∉ reservedTvn) :
    sectionAddTerm x t s = .ok () (({ s with terms := s.terms ++ [t] }.setObj x { s.heap x with terms := (s.heap x).terms ++ [t] }).setObj t
      (finish s (s.heap x).defTvn (s.heap t))) := by
  unfold sectionAddTerm
  have hadd : docAddTermCore t (s.setObj x { s.heap x with terms := (s.heap x).terms ++ [t] }) =
      .ok () (({ s with terms := s.terms ++ [t] }.setObj x { s.heap x with terms := (s.heap x).terms ++ [t] }).setObj t
      (finish s (s.heap x).defTvn (s.heap t))) := by
    unfold docAddTermCore
    have h1 : (s.setObj x { s.heap x with terms := (s.heap x).terms ++ [t] }).terms = s.terms := rfl
    simp only [bind_run, get_run, h1, if_neg hn, heap_setObj, if_neg hx, hs, assert_run, hcl, Option.isSome_some, true_or, decide_true, if_true, ite_run,
      modify_run]
    set s1 : St := { (s.setObj x { s.heap x with terms := (s.heap x).terms ++ [t] }) with terms := s.terms ++ [t] } with hs1
    have e1 : s1.heap t = s.heap t := by simp [hs1, hx]
    have e2 : (s1.heap x).defTvn = (s.heap x).defTvn := by simp [hs1]
    have e3 : s1.declTerms = s.declTerms := rfl
    have := addTermFinish_run (s := s1) (t := t) (x := x) (by rw [e1]; exact hs) (by
      rw [e1, e2]; unfold finish; rw [e3]; exact hv)
    simp only [Bool.false_eq_true, if_false]
    rw [this, e1, e2]
    rfl
  simp only [bind_run, get_run, if_pos hnx, if_pos hr, upd_run, hadd]
  rw [setOwnership_run (by simp [finish, hs]) (by simp [finish, hc])]
  simp [finish, hs]


/-- The conditions under which a term with names `p`, `r` can be placed below `q`. -/
structure Placeable (s : St) (t : Nat) (p r : Str) (q : Nat) : Prop where
  name : ValueName p r
  found : (nextP s.p p r (s.heap t).col t).lastMap.get? (parentKey s.p p (s.heap t).col) = some q
  other : q ≠ t
  ordinary : dotJoin (lower (finalPt s.p p)) (lower r) ≠ py!"datafile.section"
  tvn : lower (dress s { s.heap t with pt := p, rt := r, sec := some s.p.lastSec }).tvn ∉ reservedTvn
  tvn' : lower (finalObj s (s.heap t) p r q).tvn ∉ reservedTvn
  notSelf : dotJoin (lower (finalPt s.p p)) (lower r) ≠ py!"root.root" ∧ dotJoin (lower (finalPt s.p p)) (lower r) ≠ py!"root.section"

theorem placeTerm_run {s : St} {t q : Nat} {p r : Str} (hp : (s.heap t).pt = p) (hr : (s.heap t).rt = r)
    (hf : (nextP s.p p r (s.heap t).col t).lastMap.get? (parentKey s.p p (s.heap t).col) = some q) (hq : q ≠ t)
    (ho : dotJoin (lower (finalPt s.p p)) (lower r) ≠ py!"datafile.section") :
    placeTerm t s = .ok () (({ s with p := nextP s.p p r (s.heap t).col t }.setObj q
      { s.heap q with children := (s.heap q).children ++ [t] }).setObj t { s.heap t with pt := finalPt s.p p, parent := some q }) := by
  unfold placeTerm
  simp only [bind_run, get_run, hp]
  by_cases h1 : p = ELIDED
  · have hn : ¬ Named p (s.heap t).col := fun h => h.1 h1
    simp only [nextP, parentKey, if_neg hn] at hf ⊢
    simp only [if_pos h1, bind_run, upd_run, attach, get_run]
    have e : (s.setObj t { s.heap t with pt := s.p.lastParent }).p = s.p := rfl
    simp only [e, hf]
    have hfp : finalPt s.p p = s.p.lastParent := if_pos h1
    rw [addChild_run hq (by
      rw [heap_setObj_self]; rw [hfp] at ho; unfold Obj.joinLc; rw [hr]; exact ho)]
    rw [heap_setObj_self, hfp]
    congr 1
    unfold St.setObj
    simp only
    congr 1
    funext j
    simp only [if_neg hq]
    split <;> simp_all
  · simp only [if_neg h1]
    have hfp : finalPt s.p p = p := if_neg h1
    rw [hfp] at ho ⊢
    by_cases h2 : 1 < (s.heap t).col
    · have hn : ¬ Named p (s.heap t).col := fun h => by have := h.2; omega
      simp only [nextP, parentKey, if_neg hn] at hf ⊢
      simp only [if_pos h2, attach, bind_run, get_run, hf]
      rw [addChild_run hq (by unfold Obj.joinLc; rw [hr, hp]; exact ho)]
      rw [← hp]
    · have hn : Named p (s.heap t).col := ⟨h1, by omega⟩
      simp only [nextP, parentKey, if_pos hn] at hf ⊢
      simp only [if_neg h2, attach, bind_run, get_run, updP, modify_run, hr, hf]
      rw [addChild_run hq (by unfold Obj.joinLc; simp only; rw [hr, hp]; exact ho)]
      simp only
      rw [← hp]; simp only [hr]

theorem iterBody_run {s : St} {t q : Nat} {p r₀ : Str} (hf : FreshTerm s t)
    (hn : substSynonym s.p.declTerms (s.heap t).pt (s.heap t).rt = .ok (p, r₀))
    (h : Placeable s t p (remapRecord s.p.paramMap r₀) q) :
    iterBody t s = .ok true (place s t q (finalObj s (s.heap t) p (remapRecord s.p.paramMap r₀) q)
      (nextP s.p p (remapRecord s.p.paramMap r₀) (s.heap t).col t)) := by
  set r := remapRecord s.p.paramMap r₀ with hr
  unfold iterBody
  simp only [bind_run, get_run, lift_run, hn, upd_run, ← hr]
  obtain ⟨o1, ho1⟩ : ∃ o1 : Obj, o1 = { s.heap t with pt := p, rt := r, sec := some s.p.lastSec } := ⟨_, rfl⟩
  have e0 : setSection t (some s.p.lastSec) (s.setObj t { s.heap t with pt := p, rt := r }) = .ok () (s.setObj t o1) := by
    rw [setSection_run (by simp [hf.sec]) (by simp [hf.tvn]) (by simp [hf.cls]), ho1, heap_setObj_self, setObj_setObj]
  rw [e0]
  simp only [heap_setObj_self, obj_run]
  have hj : o1.joinLc = dotJoin (lower p) (lower r) := by rw [ho1]; rfl
  obtain ⟨n1, n2, n3⟩ := h.name
  have hcls : o1.cls.isSection = false := by rw [ho1]; exact hf.cls
  have hdecl : o1.isDecl = false := by rw [ho1]; exact hf.doc
  simp only [hj, n1, n2, n3, if_false, bind_run, hcls, hdecl, Bool.false_eq_true, pure_run, ite_run]
  have e1 : dress (s.setObj t o1) o1 = dress s o1 := rfl
  rw [applyDecl_run (by rw [heap_setObj_self, e1, ho1]; exact h.tvn)]
  simp only [heap_setObj_self, setObj_setObj, e1]
  set s2 : St := s.setObj t (dress s o1) with hs2
  have hp2 : s2.p = s.p := rfl
  have h2 : s2.heap t = dress s o1 := by rw [hs2, heap_setObj_self]
  have hcol : (s2.heap t).col = (s.heap t).col := by rw [h2, ho1]; rfl
  obtain ⟨o3, ho3⟩ : ∃ o3 : Obj, o3 = { s2.heap t with pt := finalPt s.p p, parent := some q } := ⟨_, rfl⟩
  obtain ⟨s3, hs3⟩ : ∃ s3 : St, s3 = ({ s2 with p := nextP s.p p r (s.heap t).col t }.setObj q
    { s2.heap q with children := (s2.heap q).children ++ [t] }).setObj t o3 := ⟨_, rfl⟩
  have e2 : placeTerm t s2 = .ok () s3 := by
    rw [placeTerm_run (s := s2) (t := t) (q := q) (p := p) (r := r) (by rw [h2, ho1]; rfl) (by rw [h2, ho1]; rfl)
      (by rw [hp2, hcol]; exact h.found) h.other (by rw [hp2]; exact h.ordinary), hs3, ho3, hp2, hcol]
  rw [e2]
  simp only [obj_run]
  have h3 : s3.heap t = o3 := by rw [hs3]; exact heap_setObj_self _ _ _
  have ho3p : o3.pt = finalPt s.p p := by rw [ho3]
  rw [h3]
  have hx : t ≠ s.p.lastSec := hf.notSec
  by_cases hroot : lower (finalPt s.p p) = ROOT
  · have hroot' : lower o3.pt = ROOT := by rw [ho3p]; exact hroot
    rw [if_pos hroot']
    have hfin : finalObj s (s.heap t) p r q = finish s (s.heap s.p.lastSec).defTvn o3 := by
      unfold finalObj; rw [if_pos hroot, ho3, h2, ho1]
    have hd : (s3.heap s.p.lastSec).defTvn = (s.heap s.p.lastSec).defTvn := by
      simp only [hs3, heap_setObj, if_neg hx.symm, hs2]
      by_cases hxq : s.p.lastSec = q
      · rw [if_pos hxq, if_neg h.other, ← hxq]
      · rw [if_neg hxq]
    have ht3 : (s3.heap s.p.lastSec).terms = (s.heap s.p.lastSec).terms := by
      simp only [hs3, heap_setObj, if_neg hx.symm, hs2]
      by_cases hxq : s.p.lastSec = q
      · rw [if_pos hxq, if_neg h.other, ← hxq]
      · rw [if_neg hxq]
    rw [sectionAddTerm_run (s := s3) hx (by rw [h3, ho3, h2, ho1]; rfl) (by rw [h3, ho3, h2, ho1]; exact hf.children) (by rw [h3]; exact hroot')
      (by rw [h3, ho3, h2, ho1]; exact hf.cls) (by rw [hs3]; exact hf.notListed) (by rw [ht3]; exact hf.notInSec)
      (by rw [hd, h3]; have := h.tvn'; rw [hfin] at this; rw [hs3]; exact this)]
    rw [hd, h3]
    have e5 : finish s3 (s.heap s.p.lastSec).defTvn o3 = finalObj s (s.heap t) p r q := by rw [hfin, hs3]; rfl
    rw [e5]
    have hpt : (finalObj s (s.heap t) p r q).pt = finalPt s.p p := by rw [hfin, ← ho3p]; rfl
    refine congrArg (Res.ok true) ?_
    unfold place
    rw [hpt, if_pos hroot]
    simp only [hroot, true_and]
    unfold St.setObj
    simp only [hs3, St.setObj, hs2]
    refine St.ext rfl (funext fun j => ?_) rfl rfl rfl rfl rfl rfl rfl rfl rfl rfl
    dsimp only
    by_cases hjt : j = t
    · simp [hjt]
    · simp only [if_neg hjt, if_neg hx.symm, if_neg h.other]
      by_cases hjx : j = s.p.lastSec
      · subst hjx
        by_cases hjq : s.p.lastSec = q
        · simp [hjq]
        · simp [hjq]
      · by_cases hjq : j = q
        · subst hjq; simp [hjx]
        · simp [hjx, hjq]
  · have hroot' : ¬ lower o3.pt = ROOT := by rw [ho3p]; exact hroot
    rw [if_neg hroot']
    have hfin : finalObj s (s.heap t) p r q = o3 := by
      unfold finalObj; rw [if_neg hroot, ho3, h2, ho1]
    rw [hfin]
    refine congrArg (Res.ok true) ?_
    unfold place
    rw [if_neg hroot']
    simp only [hroot', false_and, if_false]
    simp only [hs3, St.setObj, hs2]
    refine St.ext rfl (funext fun j => ?_) rfl rfl rfl rfl rfl rfl rfl rfl rfl rfl
    dsimp only
    by_cases hjt : j = t
    · simp [hjt]
    · simp only [if_neg hjt, if_neg h.other]
      by_cases hjq : j = q
      · subst hjq; simp
      · simp [hjq]

theorem finalObj_pt (s : St) (o : Obj) (p r : Str) (q : Nat) : (finalObj s o p r q).pt = finalPt s.p p := by
  unfold finalObj; dsimp only; split <;> rfl
theorem finalObj_rt (s : St) (o : Obj) (p r : Str) (q : Nat) : (finalObj s o p r q).rt = r := by
  unfold finalObj; dsimp only; split <;> rfl
theorem finalObj_parent (s : St) (o : Obj) (p r : Str) (q : Nat) : (finalObj s o p r q).parent = some q := by
  unfold finalObj; dsimp only; split <;> rfl
theorem finalObj_sec (s : St) (o : Obj) (p r : Str) (q : Nat) : (finalObj s o p r q).sec = some s.p.lastSec := by
  unfold finalObj; dsimp only; split <;> rfl
theorem finalObj_value (s : St) (o : Obj) (p r : Str) (q : Nat) : (finalObj s o p r q).value = o.value := by
  unfold finalObj; dsimp only; split <;> rfl
theorem finalObj_args (s : St) (o : Obj) (p r : Str) (q : Nat) : (finalObj s o p r q).args = o.args := by
  unfold finalObj; dsimp only; split <;> rfl
theorem finalObj_children (s : St) (o : Obj) (p r : Str) (q : Nat) : (finalObj s o p r q).children = o.children := by
  unfold finalObj; dsimp only; split <;> rfl
theorem finalObj_cls (s : St) (o : Obj) (p r : Str) (q : Nat) : (finalObj s o p r q).cls = o.cls := by
  unfold finalObj; dsimp only; split <;> rfl

/-- Reading a value-bearing term is one update of the state. -/
theorem consume_run {load : Bool} {s : St} {t q : Nat} {p r₀ : Str} (hf : FreshTerm s t)
    (hn : substSynonym s.p.declTerms (s.heap t).pt (s.heap t).rt = .ok (p, r₀))
    (h : Placeable s t p (remapRecord s.p.paramMap r₀) q) :
    consume load t s = .ok () (place s t q (finalObj s (s.heap t) p (remapRecord s.p.paramMap r₀) q)
      (nextP s.p p (remapRecord s.p.paramMap r₀) (s.heap t).col t)) := by
  unfold consume
  simp only [bind_run, iterBody_run hf hn h]
  cases load with
  | false => rfl
  | true =>
    set o := finalObj s (s.heap t) p (remapRecord s.p.paramMap r₀) q with ho
    have hpt : o.pt = finalPt s.p p := finalObj_pt ..
    have hrt : o.rt = remapRecord s.p.paramMap r₀ := finalObj_rt ..
    have hpa : o.parent = some q := finalObj_parent ..
    simp only [Bool.and_self, if_true, loadBody, bind_run, obj_run]
    have ht : (place s t q o (nextP s.p p (remapRecord s.p.paramMap r₀) (s.heap t).col t)).heap t = o := by simp [place]
    rw [ht]
    have hj : o.joinLc = dotJoin (lower (finalPt s.p p)) (lower (remapRecord s.p.paramMap r₀)) := by
      unfold Obj.joinLc; rw [hpt, hrt]
    rw [hj, if_neg h.notSelf.1, if_neg h.notSelf.2]
    by_cases hroot : lower o.pt = ROOT
    · rw [if_pos hroot]
      unfold docAddTerm
      have : t ∈ (place s t q o (nextP s.p p (remapRecord s.p.paramMap r₀) (s.heap t).col t)).terms := by
        simp [place, hroot]
      simp only [bind_run, get_run, this, if_true, pure_run]
    · rw [if_neg hroot, hpa]; rfl

end Metatab
