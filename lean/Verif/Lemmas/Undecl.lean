import Verif.Lemmas.Tables
/-! Only rows of declare files make objects that are marked as declarations. -/
namespace Metatab
open Py

/-- No object is newly marked as a declaration. -/
def Undecl (s s' : St) : Prop := ∀ i, (s'.heap i).isDecl = true → (s.heap i).isDecl = true

instance : Pre Undecl where
  refl _ := fun _ h => h
  trans h1 h2 := fun i h => h1 i (h2 i h)

theorem und_upd (t : Nat) {f : Obj → Obj} (h : ∀ o, (f o).isDecl = o.isDecl) : Pres Undecl (upd t f) := fun s i hi => by
  have hi : (((s.setObj t (f (s.heap t))).heap i)).isDecl = true := hi
  rw [heap_setObj] at hi
  split at hi
  · next e => rw [h] at hi; rw [e]; exact hi
  · exact hi
theorem und_alloc {o : Obj} (h : o.isDecl = false) : Pres Undecl (alloc o) := fun s i hi => by
  have hi : (({ s with next := s.next + 1 }.setObj s.next o).heap i).isDecl = true := hi
  rw [heap_setObj] at hi
  split at hi
  · rw [h] at hi; cases hi
  · exact hi
theorem und_setTvn (t : Nat) (v : Str) : Pres Undecl (setTvn t v) := by
  unfold setTvn; exact Pres.ite (Pres.raise _) (und_upd _ fun _ => rfl)

/-- Split a computation into its steps and close the steps named. -/
macro "presU " "[" ls:term,* "]" : tactic => do
  let alts ← ls.getElems.mapM fun l => `(tactic| exact $l)
  `(tactic| repeat' first
      | exact Pres.pure _ | exact Pres.mpure _ | exact Pres.raise _ | exact Pres.get | exact Pres.obj _ | exact Pres.lift _
      | exact Pres.assert _ | exact und_upd _ (fun _ => rfl) | exact und_alloc rfl | exact und_setTvn _ _
      $[| $alts:tactic]*
      | refine Pres.forL ?_ _ | refine Pres.bind ?_ ?_ | refine Pres.ite ?_ ?_ | with_reducible intro _ | split | dsimp only)

theorem und_newTermObj (c : Cls) (n : Str) (v : Val) (a : List Str) (p x : Option Nat) (col : Nat) :
    Pres Undecl (newTermObj c n v a p x col false) := by
  unfold newTermObj; presU []
theorem und_newSectionObj (n : Str) (v : Val) (a : List Str) : Pres Undecl (newSectionObj n v a false) := by
  unfold newSectionObj; presU [und_newTermObj _ _ _ _ _ _ _]
theorem und_construct (c : Cls) (n : Str) (v : Val) (p x : Option Nat) : Pres Undecl (construct c n v p x) := by
  unfold construct; presU [und_newTermObj _ _ _ _ _ _ _, und_newSectionObj _ _ _]
theorem und_newChild0 (t : Nat) (n : Str) (v : Val) : Pres Undecl (newChild0 t n v) := by
  unfold newChild0; presU [und_construct _ _ _ _ _]
theorem und_newChildren (t : Nat) (kw : List (Str × Val)) : Pres Undecl (newChildren t kw) := by
  unfold newChildren; presU [und_newChild0 _ _ _]
theorem und_getOrNewChild0 (t : Nat) (n : Str) (v : Val) : Pres Undecl (getOrNewChild0 t n v) := by
  unfold getOrNewChild0; presU [und_construct _ _ _ _ _]
theorem und_setItemSome (t : Nat) (n : Str) (v : Val) : Pres Undecl (setItemSome t n v) := by
  unfold setItemSome; presU [und_getOrNewChild0 _ _ _]
theorem und_setSectionTerm (t v : Nat) : Pres Undecl (setSectionTerm t v) := by
  unfold setSectionTerm; presU [und_setItemSome _ _ _]
theorem und_modify {f : St → St} (h : ∀ s, Undecl s (f s)) : Pres Undecl (M.modify f) := h
theorem und_addSection (x : Nat) : Pres Undecl (addSection x) := by
  unfold addSection; presU [und_modify fun _ => fun _ h => h]
theorem und_setOwnershipF (f t : Nat) : Pres Undecl (setOwnershipF f t) := by
  induction f generalizing t with
  | zero => exact Pres.raise _
  | succ f ih => unfold setOwnershipF; presU [ih _]
theorem und_setOwnership (t : Nat) : Pres Undecl (setOwnership t) := by
  unfold setOwnership; presU [und_setOwnershipF _ _]
theorem und_addTermFinish (t : Nat) : Pres Undecl (addTermFinish t) := by
  unfold addTermFinish; presU []
theorem und_docAddTermCore (t : Nat) : Pres Undecl (docAddTermCore t) := by
  unfold docAddTermCore; presU [und_addTermFinish _, und_addSection _, und_modify fun _ => fun _ h => h]
theorem und_sectionAddTerm (x t : Nat) : Pres Undecl (sectionAddTerm x t) := by
  unfold sectionAddTerm; presU [und_docAddTermCore _, und_setOwnership _]
theorem und_docAddTerm (t : Nat) : Pres Undecl (docAddTerm t) := by
  unfold docAddTerm
  presU [und_addTermFinish _, und_addSection _, und_setSectionTerm _ _, und_sectionAddTerm _ _, und_modify fun _ => fun _ h => h]
theorem und_removeTermF (f t : Nat) : Pres Undecl (removeTermF f t) := by
  induction f generalizing t with
  | zero => exact Pres.raise _
  | succ f ih => unfold removeTermF; presU [ih _, und_addSection _, und_setSectionTerm _ _, und_modify fun _ => fun _ h => h]
theorem und_removeTerm (t : Nat) : Pres Undecl (removeTerm t) := by
  unfold removeTerm; presU [und_removeTermF _ _]
theorem und_removeChild (t c : Nat) : Pres Undecl (removeChild t c) := by
  unfold removeChild; presU [und_removeTerm _]
theorem und_setItem (t : Nat) (n : Str) (v : Val) : Pres Undecl (setItem t n v) := by
  unfold setItem; presU [und_removeChild _ _, und_setItemSome _ _ _]
theorem und_newTerm (x : Nat) (n : Str) (v : Val) (kw : List (Str × Val)) : Pres Undecl (newTerm x n v kw) := by
  unfold newTerm; presU [und_construct _ _ _ _ _, und_newChildren _ _, und_docAddTerm _]
theorem und_getOrNewTerm (x : Nat) (n : Str) (v : Val) (kw : List (Str × Val)) : Pres Undecl (getOrNewTerm x n v kw) := by
  unfold getOrNewTerm; presU [und_newTerm _ _ _ _, und_getOrNewChild0 _ _ _]
theorem und_setItemAny (t : Nat) (n : Str) (v : Val) : Pres Undecl (setItemAny t n v) := by
  unfold setItemAny; presU [und_getOrNewTerm _ _ _ _, und_setItem _ _ _]
theorem und_setSection (t : Nat) (v : Option Nat) : Pres Undecl (setSection t v) := by
  unfold setSection; presU [und_setItemAny _ _ _]
theorem und_addChild (t c : Nat) : Pres Undecl (addChild t c) := by
  unfold addChild; presU []
theorem und_updP (f : PSt → PSt) : Pres Undecl (updP f) := fun _ _ h => h
theorem und_applyDecl (t : Nat) : Pres Undecl (applyDecl t) := by
  unfold applyDecl; presU []
theorem und_attach (n : Str) (e : Err) (t : Nat) : Pres Undecl (attach n e t) := by
  unfold attach; presU [und_addChild _ _]
theorem und_placeTerm (t : Nat) : Pres Undecl (placeTerm t) := by
  unfold placeTerm; presU [und_attach _ _ _, und_updP _]
theorem und_rowTerm (row : List Str) : Pres Undecl (rowTerm false row) := by
  unfold rowTerm; presU [und_newTermObj _ _ _ _ _ _ _, und_newSectionObj _ _ _]
theorem und_argTerm (t col : Nat) (v : Str) : Pres Undecl (argTerm false t col v) := by
  unfold argTerm; presU [und_newTermObj _ _ _ _ _ _ _]
theorem und_loadBody (t : Nat) : Pres Undecl (loadBody t) := by
  unfold loadBody; presU [und_addSection _, und_docAddTerm _]

end Metatab
