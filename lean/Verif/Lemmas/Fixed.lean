import Verif.Model.Parser
import Verif.Lemmas.Monad
/-! Reading rows changes neither the given name, the cells, the class nor the column of an object. -/
namespace Metatab
open Py

/-- The attributes of an object that are only set when it is built. -/
structure SameBirth (o o' : Obj) : Prop where
  raw : o'.raw = o.raw
  args : o'.args = o.args
  cls : o'.cls = o.cls
  col : o'.col = o.col
  isDecl : o'.isDecl = o.isDecl

theorem SameBirth.refl (o : Obj) : SameBirth o o := ⟨rfl, rfl, rfl, rfl, rfl⟩
theorem SameBirth.trans {a b c : Obj} (h : SameBirth a b) (k : SameBirth b c) : SameBirth a c :=
  ⟨k.raw.trans h.raw, k.args.trans h.args, k.cls.trans h.cls, k.col.trans h.col, k.isDecl.trans h.isDecl⟩

/-- No object is lost, and what objects were built with stays. -/
structure Fixed (s s' : St) : Prop where
  next : s.next ≤ s'.next
  birth : ∀ j, j < s.next → SameBirth (s.heap j) (s'.heap j)

instance : Pre Fixed where
  refl s := ⟨Nat.le_refl _, fun _ _ => .refl _⟩
  trans h k := ⟨Nat.le_trans h.next k.next, fun j hj => (h.birth j hj).trans (k.birth j (Nat.lt_of_lt_of_le hj h.next))⟩

theorem fx_upd {t : Nat} {f : Obj → Obj} (h : ∀ o, SameBirth o (f o)) : Pres Fixed (upd t f) := by
  intro s
  refine ⟨Nat.le_refl _, fun j _ => ?_⟩
  show SameBirth _ ((s.setObj t (f (s.heap t))).heap j)
  rw [heap_setObj]
  split
  · next e => subst e; exact h _
  · exact .refl _
theorem fx_alloc (o : Obj) : Pres Fixed (alloc o) := by
  intro s
  refine ⟨Nat.le_succ _, fun j hj => ?_⟩
  show SameBirth _ (({ s with next := s.next + 1 }.setObj s.next o).heap j)
  rw [heap_setObj, if_neg (Nat.ne_of_lt hj)]
  exact .refl _
theorem fx_modify {f : St → St} (h : ∀ s, (f s).next = s.next ∧ (f s).heap = s.heap) : Pres Fixed (M.modify f) := by
  intro s
  refine ⟨Nat.le_of_eq (h s).1.symm, fun j _ => ?_⟩
  show SameBirth _ ((f s).heap j)
  rw [(h s).2]; exact .refl _

/-- Split a computation into its steps and close the steps named. -/
macro "fixd " "[" ls:term,* "]" : tactic => do
  let alts ← ls.getElems.mapM fun l => `(tactic| exact $l)
  `(tactic| repeat' first
      | exact Pres.pure _ | exact Pres.mpure _ | exact Pres.raise _ | exact Pres.get | exact Pres.obj _ | exact Pres.lift _
      | exact Pres.assert _ | exact fx_upd fun _ => ⟨rfl, rfl, rfl, rfl, rfl⟩ | exact fx_alloc _ | exact fx_modify fun _ => ⟨rfl, rfl⟩
      $[| $alts:tactic]*
      | refine Pres.forL ?_ _ | refine Pres.bind ?_ ?_ | refine Pres.ite ?_ ?_ | with_reducible intro _ | split | dsimp only)

theorem fx_setTvn (t : Nat) (v : Str) : Pres Fixed (setTvn t v) := by unfold setTvn; fixd []
theorem fx_newTermObj (c : Cls) (n : Str) (v : Val) (a : List Str) (p x : Option Nat) (col : Nat) (b : Bool) :
    Pres Fixed (newTermObj c n v a p x col b) := by
  unfold newTermObj; fixd []
theorem fx_newSectionObj (n : Str) (v : Val) (a : List Str) (b : Bool) : Pres Fixed (newSectionObj n v a b) := by
  unfold newSectionObj; fixd [fx_newTermObj _ _ _ _ _ _ _ _]
theorem fx_construct (c : Cls) (n : Str) (v : Val) (p x : Option Nat) : Pres Fixed (construct c n v p x) := by
  unfold construct; fixd [fx_newTermObj _ _ _ _ _ _ _ _, fx_newSectionObj _ _ _ _]
theorem fx_newChild0 (t : Nat) (n : Str) (v : Val) : Pres Fixed (newChild0 t n v) := by
  unfold newChild0; fixd [fx_construct _ _ _ _ _]
theorem fx_newChildren (t : Nat) (kw : List (Str × Val)) : Pres Fixed (newChildren t kw) := by
  unfold newChildren; fixd [fx_newChild0 _ _ _]
theorem fx_getOrNewChild0 (t : Nat) (n : Str) (v : Val) : Pres Fixed (getOrNewChild0 t n v) := by
  unfold getOrNewChild0; fixd [fx_construct _ _ _ _ _]
theorem fx_setItemSome (t : Nat) (n : Str) (v : Val) : Pres Fixed (setItemSome t n v) := by
  unfold setItemSome; fixd [fx_getOrNewChild0 _ _ _]
theorem fx_setSectionTerm (t v : Nat) : Pres Fixed (setSectionTerm t v) := by
  unfold setSectionTerm; fixd [fx_setItemSome _ _ _]
theorem fx_addSection (x : Nat) : Pres Fixed (addSection x) := by
  unfold addSection; fixd []
theorem fx_setOwnershipF (f t : Nat) : Pres Fixed (setOwnershipF f t) := by
  induction f generalizing t with
  | zero => exact Pres.raise _
  | succ f ih => unfold setOwnershipF; fixd [ih _]
theorem fx_setOwnership (t : Nat) : Pres Fixed (setOwnership t) := by
  unfold setOwnership; fixd [fx_setOwnershipF _ _]
theorem fx_addTermFinish (t : Nat) : Pres Fixed (addTermFinish t) := by
  unfold addTermFinish; fixd []
theorem fx_docAddTermCore (t : Nat) : Pres Fixed (docAddTermCore t) := by
  unfold docAddTermCore; fixd [fx_addTermFinish _, fx_addSection _]
theorem fx_sectionAddTerm (x t : Nat) : Pres Fixed (sectionAddTerm x t) := by
  unfold sectionAddTerm; fixd [fx_docAddTermCore _, fx_setOwnership _]
theorem fx_docAddTerm (t : Nat) : Pres Fixed (docAddTerm t) := by
  unfold docAddTerm
  fixd [fx_addTermFinish _, fx_addSection _, fx_setSectionTerm _ _, fx_sectionAddTerm _ _]
theorem fx_removeTermF (f t : Nat) : Pres Fixed (removeTermF f t) := by
  induction f generalizing t with
  | zero => exact Pres.raise _
  | succ f ih => unfold removeTermF; fixd [ih _, fx_addSection _, fx_setSectionTerm _ _]
theorem fx_removeTerm (t : Nat) : Pres Fixed (removeTerm t) := by
  unfold removeTerm; fixd [fx_removeTermF _ _]
theorem fx_removeChild (t c : Nat) : Pres Fixed (removeChild t c) := by
  unfold removeChild; fixd [fx_removeTerm _]
theorem fx_setItem (t : Nat) (n : Str) (v : Val) : Pres Fixed (setItem t n v) := by
  unfold setItem; fixd [fx_removeChild _ _, fx_setItemSome _ _ _]
theorem fx_newTerm (x : Nat) (n : Str) (v : Val) (kw : List (Str × Val)) : Pres Fixed (newTerm x n v kw) := by
  unfold newTerm; fixd [fx_construct _ _ _ _ _, fx_newChildren _ _, fx_docAddTerm _]
theorem fx_getOrNewTerm (x : Nat) (n : Str) (v : Val) (kw : List (Str × Val)) : Pres Fixed (getOrNewTerm x n v kw) := by
  unfold getOrNewTerm; fixd [fx_newTerm _ _ _ _, fx_getOrNewChild0 _ _ _]
theorem fx_setItemAny (t : Nat) (n : Str) (v : Val) : Pres Fixed (setItemAny t n v) := by
  unfold setItemAny; fixd [fx_getOrNewTerm _ _ _ _, fx_setItem _ _ _]
theorem fx_setSection (t : Nat) (v : Option Nat) : Pres Fixed (setSection t v) := by
  unfold setSection; fixd [fx_setItemAny _ _ _]
theorem fx_addChild (t c : Nat) : Pres Fixed (addChild t c) := by
  unfold addChild; fixd []
theorem fx_updP (f : PSt → PSt) : Pres Fixed (updP f) := fx_modify fun _ => ⟨rfl, rfl⟩
theorem fx_applyDecl (t : Nat) : Pres Fixed (applyDecl t) := by
  unfold applyDecl; fixd [fx_setTvn _ _]
theorem fx_attach (n : Str) (e : Err) (t : Nat) : Pres Fixed (attach n e t) := by
  unfold attach; fixd [fx_addChild _ _]
theorem fx_placeTerm (t : Nat) : Pres Fixed (placeTerm t) := by
  unfold placeTerm; fixd [fx_attach _ _ _, fx_updP _]
theorem fx_loadBody (t : Nat) : Pres Fixed (loadBody t) := by
  unfold loadBody; fixd [fx_addSection _, fx_docAddTerm _]
theorem fx_addTermToSection (b : Bool) (td : DTerm) : Pres Fixed (addTermToSection b td) := by
  unfold addTermToSection; fixd [fx_updP _]
theorem fx_inheritLoop (sec tR ihR : Str) (f i : Nat) : Pres Fixed (inheritLoop sec tR ihR f i) := by
  induction f generalizing i with
  | zero => unfold inheritLoop; fixd []
  | succ f ih => unfold inheritLoop; fixd [ih _, fx_updP _, fx_addTermToSection _ _]
theorem fx_addInherited (td : DTerm) : Pres Fixed (addInherited td) := by
  unfold addInherited; fixd [fx_inheritLoop _ _ _ _ _]
theorem fx_addDeclaredSection (t : Nat) : Pres Fixed (addDeclaredSection t) := by
  unfold addDeclaredSection; fixd [fx_updP _]
theorem fx_addDeclaredTerm (t : Nat) : Pres Fixed (addDeclaredTerm t) := by
  unfold addDeclaredTerm; fixd [fx_updP _, fx_addTermToSection _ _, fx_addInherited _]
theorem fx_addValueSetValue (t : Nat) : Pres Fixed (addValueSetValue t) := by
  unfold addValueSetValue; fixd [fx_updP _]
theorem fx_manageDeclare (t : Nat) : Pres Fixed (manageDeclare t) := by
  unfold manageDeclare; fixd [fx_addDeclaredSection _, fx_addDeclaredTerm _, fx_addValueSetValue _]
theorem fx_iterBody (t : Nat) : Pres Fixed (iterBody t) := by
  unfold iterBody
  fixd [fx_setSection _ _, fx_applyDecl _, fx_placeTerm _, fx_sectionAddTerm _ _, fx_updP _, fx_manageDeclare _]
theorem fx_consume (load : Bool) (t : Nat) : Pres Fixed (consume load t) := by
  unfold consume; fixd [fx_iterBody _, fx_loadBody _]
theorem fx_finishLoad : Pres Fixed finishLoad := fx_modify fun _ => ⟨rfl, rfl⟩

end Metatab
