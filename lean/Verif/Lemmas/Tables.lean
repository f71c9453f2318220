import Verif.Lemmas.Monad
import Verif.Model.Parser
/-! The tables of declarations that the parser builds change only when a declaration is read. -/
namespace Metatab
open Py

/-- The document's tables of declarations and classes are the same. -/
structure DocTab (s s' : St) : Prop where
  terms : s'.declTerms = s.declTerms
  secs : s'.declSecs = s.declSecs
  sup : s'.superTerms = s.superTerms
  der : s'.derived = s.derived
  cls : s'.classes = s.classes

/-- The parser's and the document's tables are the same. -/
structure SameTab (s s' : St) : Prop where
  terms : s'.p.declTerms = s.p.declTerms
  secs : s'.p.declSecs = s.p.declSecs
  doc : DocTab s s'

theorem DocTab.rfl' {s : St} : DocTab s s := ⟨rfl, rfl, rfl, rfl, rfl⟩
theorem DocTab.trans {s s' s'' : St} (h1 : DocTab s s') (h2 : DocTab s' s'') : DocTab s s'' :=
  ⟨h2.terms.trans h1.terms, h2.secs.trans h1.secs, h2.sup.trans h1.sup, h2.der.trans h1.der, h2.cls.trans h1.cls⟩

instance : Pre SameTab where
  refl _ := ⟨rfl, rfl, .rfl'⟩
  trans h1 h2 := ⟨h2.terms.trans h1.terms, h2.secs.trans h1.secs, h1.doc.trans h2.doc⟩

/-- A relation that holds whenever the tables are the same. -/
class TabRel (R : St → St → Prop) : Prop extends Pre R where
  same : ∀ {s s'}, SameTab s s' → R s s'

instance : TabRel SameTab where
  same h := h

theorem Pres.ofSame {R : St → St → Prop} [TabRel R] {α : Type} {m : M α} (h : Pres SameTab m) : Pres R m := fun s => TabRel.same (h s)

theorem tab_upd (t : Nat) (f : Obj → Obj) : Pres SameTab (upd t f) := fun _ => ⟨rfl, rfl, ⟨rfl, rfl, rfl, rfl, rfl⟩⟩
theorem tab_alloc (o : Obj) : Pres SameTab (alloc o) := fun _ => ⟨rfl, rfl, ⟨rfl, rfl, rfl, rfl, rfl⟩⟩
theorem tab_setTvn (t : Nat) (v : Str) : Pres SameTab (setTvn t v) := by
  unfold setTvn; exact Pres.ite (Pres.raise _) (tab_upd _ _)

/-- Split a computation into its steps and close the steps named. -/
macro "pres " "[" ls:term,* "]" : tactic => do
  let alts ← ls.getElems.mapM fun l => `(tactic| exact $l)
  `(tactic| repeat' first
      | exact Pres.pure _ | exact Pres.mpure _ | exact Pres.raise _ | exact Pres.get | exact Pres.obj _ | exact Pres.lift _
      | exact Pres.assert _ | exact tab_upd _ _ | exact tab_alloc _ | exact tab_setTvn _ _
      $[| $alts:tactic]*
      | refine Pres.forL ?_ _ | refine Pres.bind ?_ ?_ | refine Pres.ite ?_ ?_ | with_reducible intro _ | split | dsimp only)

theorem tab_newTermObj (c : Cls) (n : Str) (v : Val) (a : List Str) (p x : Option Nat) (col : Nat) (b : Bool) :
    Pres SameTab (newTermObj c n v a p x col b) := by
  unfold newTermObj; pres []
theorem tab_newSectionObj (n : Str) (v : Val) (a : List Str) (b : Bool) : Pres SameTab (newSectionObj n v a b) := by
  unfold newSectionObj; pres [tab_newTermObj _ _ _ _ _ _ _ _]
theorem tab_construct (c : Cls) (n : Str) (v : Val) (p x : Option Nat) : Pres SameTab (construct c n v p x) := by
  unfold construct; pres [tab_newTermObj _ _ _ _ _ _ _ _, tab_newSectionObj _ _ _ _]
theorem tab_newChild0 (t : Nat) (n : Str) (v : Val) : Pres SameTab (newChild0 t n v) := by
  unfold newChild0; pres [tab_construct _ _ _ _ _]
theorem tab_newChildren (t : Nat) (kw : List (Str × Val)) : Pres SameTab (newChildren t kw) := by
  unfold newChildren; pres [tab_newChild0 _ _ _]
theorem tab_getOrNewChild0 (t : Nat) (n : Str) (v : Val) : Pres SameTab (getOrNewChild0 t n v) := by
  unfold getOrNewChild0; pres [tab_construct _ _ _ _ _]
theorem tab_setItemSome (t : Nat) (n : Str) (v : Val) : Pres SameTab (setItemSome t n v) := by
  unfold setItemSome; pres [tab_getOrNewChild0 _ _ _]
theorem tab_setSectionTerm (t v : Nat) : Pres SameTab (setSectionTerm t v) := by
  unfold setSectionTerm; pres [tab_setItemSome _ _ _]
theorem tab_modify {f : St → St} (h : ∀ s, SameTab s (f s)) : Pres SameTab (M.modify f) := h
theorem tab_addSection (x : Nat) : Pres SameTab (addSection x) := by
  unfold addSection; pres [tab_modify fun _ => ⟨rfl, rfl, ⟨rfl, rfl, rfl, rfl, rfl⟩⟩]
theorem tab_setOwnershipF (f t : Nat) : Pres SameTab (setOwnershipF f t) := by
  induction f generalizing t with
  | zero => exact Pres.raise _
  | succ f ih => unfold setOwnershipF; pres [ih _]
theorem tab_setOwnership (t : Nat) : Pres SameTab (setOwnership t) := by
  unfold setOwnership; pres [tab_setOwnershipF _ _]
theorem tab_addTermFinish (t : Nat) : Pres SameTab (addTermFinish t) := by
  unfold addTermFinish; pres []
theorem tab_docAddTermCore (t : Nat) : Pres SameTab (docAddTermCore t) := by
  unfold docAddTermCore; pres [tab_addTermFinish _, tab_addSection _, tab_modify fun _ => ⟨rfl, rfl, ⟨rfl, rfl, rfl, rfl, rfl⟩⟩]
theorem tab_sectionAddTerm (x t : Nat) : Pres SameTab (sectionAddTerm x t) := by
  unfold sectionAddTerm; pres [tab_docAddTermCore _, tab_setOwnership _]
theorem tab_docAddTerm (t : Nat) : Pres SameTab (docAddTerm t) := by
  unfold docAddTerm
  pres [tab_addTermFinish _, tab_addSection _, tab_setSectionTerm _ _, tab_sectionAddTerm _ _, tab_modify fun _ => ⟨rfl, rfl, ⟨rfl, rfl, rfl, rfl, rfl⟩⟩]
theorem tab_removeTermF (f t : Nat) : Pres SameTab (removeTermF f t) := by
  induction f generalizing t with
  | zero => exact Pres.raise _
  | succ f ih => unfold removeTermF; pres [ih _, tab_addSection _, tab_setSectionTerm _ _, tab_modify fun _ => ⟨rfl, rfl, ⟨rfl, rfl, rfl, rfl, rfl⟩⟩]
theorem tab_removeTerm (t : Nat) : Pres SameTab (removeTerm t) := by
  unfold removeTerm; pres [tab_removeTermF _ _]
theorem tab_removeChild (t c : Nat) : Pres SameTab (removeChild t c) := by
  unfold removeChild; pres [tab_removeTerm _]
theorem tab_setItem (t : Nat) (n : Str) (v : Val) : Pres SameTab (setItem t n v) := by
  unfold setItem; pres [tab_removeChild _ _, tab_setItemSome _ _ _]
theorem tab_newTerm (x : Nat) (n : Str) (v : Val) (kw : List (Str × Val)) : Pres SameTab (newTerm x n v kw) := by
  unfold newTerm; pres [tab_construct _ _ _ _ _, tab_newChildren _ _, tab_docAddTerm _]
theorem tab_getOrNewTerm (x : Nat) (n : Str) (v : Val) (kw : List (Str × Val)) : Pres SameTab (getOrNewTerm x n v kw) := by
  unfold getOrNewTerm; pres [tab_newTerm _ _ _ _, tab_getOrNewChild0 _ _ _]
theorem tab_setItemAny (t : Nat) (n : Str) (v : Val) : Pres SameTab (setItemAny t n v) := by
  unfold setItemAny; pres [tab_getOrNewTerm _ _ _ _, tab_setItem _ _ _]
theorem tab_setSection (t : Nat) (v : Option Nat) : Pres SameTab (setSection t v) := by
  unfold setSection; pres [tab_setItemAny _ _ _]
theorem tab_addChild (t c : Nat) : Pres SameTab (addChild t c) := by
  unfold addChild; pres []
theorem tab_updP {f : PSt → PSt} (h : ∀ p, (f p).declTerms = p.declTerms ∧ (f p).declSecs = p.declSecs) : Pres SameTab (updP f) :=
  fun s => ⟨(h s.p).1, (h s.p).2, ⟨rfl, rfl, rfl, rfl, rfl⟩⟩
theorem tab_applyDecl (t : Nat) : Pres SameTab (applyDecl t) := by
  unfold applyDecl; pres []
theorem tab_attach (n : Str) (e : Err) (t : Nat) : Pres SameTab (attach n e t) := by
  unfold attach; pres [tab_addChild _ _]
theorem tab_placeTerm (t : Nat) : Pres SameTab (placeTerm t) := by
  unfold placeTerm; pres [tab_attach _ _ _, tab_updP fun _ => ⟨rfl, rfl⟩]
theorem tab_rowTerm (d : Bool) (row : List Str) : Pres SameTab (rowTerm d row) := by
  unfold rowTerm; pres [tab_newTermObj _ _ _ _ _ _ _ _, tab_newSectionObj _ _ _ _]
theorem tab_argTerm (d : Bool) (t col : Nat) (v : Str) : Pres SameTab (argTerm d t col v) := by
  unfold argTerm; pres [tab_newTermObj _ _ _ _ _ _ _ _]
theorem tab_loadBody (t : Nat) : Pres SameTab (loadBody t) := by
  unfold loadBody; pres [tab_addSection _, tab_docAddTerm _]

section
variable {R : St → St → Prop} [TabRel R]

theorem tabR_iterBody (hM : ∀ t, Pres R (manageDeclare t)) (t : Nat) : Pres R (iterBody t) := by
  unfold iterBody
  pres [(tab_setSection _ _).ofSame, (tab_upd _ _).ofSame, (tab_applyDecl _).ofSame, (tab_placeTerm _).ofSame,
    (tab_sectionAddTerm _ _).ofSame, Pres.ofSame (tab_updP fun _ => ⟨rfl, rfl⟩), hM _]

theorem tabR_consume (hM : ∀ t, Pres R (manageDeclare t)) (load : Bool) (t : Nat) : Pres R (consume load t) := by
  unfold consume; pres [tabR_iterBody hM _, (tab_loadBody _).ofSame]

theorem tabR_argLoop (hM : ∀ t, Pres R (manageDeclare t)) (load d : Bool) (t col : Nat) (vs : List Str) :
    Pres R (argLoop load d t col vs) := by
  induction vs generalizing col with
  | nil => exact Pres.pure _
  | cons v vs ih => unfold argLoop; pres [(tab_argTerm _ _ _ _).ofSame, tabR_consume hM _ _, ih _]

theorem tabR_yield (hM : ∀ t, Pres R (manageDeclare t)) (load d : Bool) (t : Nat) : Pres R (yieldWithArgs load d t) := by
  unfold yieldWithArgs; pres [tabR_consume hM _ _, tabR_argLoop hM _ _ _ _ _]

theorem tabR_genRows (hM : ∀ t, Pres R (manageDeclare t)) {files : Files} {sub : Str → Bool → M Unit} (hsub : ∀ a b, Pres R (sub a b))
    (load d : Bool) (dir ref : Str) (x : Nat) (rows : List (List Str)) : Pres R (genRows files sub load d dir ref x rows) := by
  induction rows generalizing x with
  | nil => exact Pres.pure _
  | cons row rows ih =>
    unfold genRows
    pres [(tab_rowTerm _ _).ofSame, tabR_consume hM _ _, tabR_yield hM _ _ _, hsub _ _, ih _]

theorem tabR_gen (hM : ∀ t, Pres R (manageDeclare t)) (files : Files) (load : Bool) (f : Nat) (d : Bool) (dir ref : Str)
    (rows : List (List Str)) : Pres R (gen files load f d dir ref rows) := by
  induction f generalizing d dir ref rows with
  | zero => exact Pres.raise _
  | succ f ih =>
    unfold gen
    refine Pres.bind Pres.get fun s => Pres.bind (tabR_genRows hM ?_ _ _ _ _ _ _) fun _ => Pres.pure _
    intro a b; split
    · exact Pres.raise _
    · exact ih _ _ _ _
end
end Metatab
