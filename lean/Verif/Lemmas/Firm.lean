import Verif.Model.Parser
import Verif.Lemmas.NoMeta
/-! Nothing that happens to a yielded term raises an `IncludeError`. -/
namespace Metatab
open Py

/-- The computation raises no `IncludeError`. -/
def Firm {α : Type} (m : M α) : Prop := ∀ s s', m s ≠ .err .includeError s'

namespace Firm
variable {α β : Type}
theorem pure (a : α) : Firm (Pure.pure a : M α) := fun s s' h => by cases h
theorem mpure (a : α) : Firm (M.pure a : M α) := fun s s' h => by cases h
theorem raise {e : Err} (h : e ≠ .includeError) : Firm (M.raise e : M α) := fun s s' h' => by cases h'; exact h rfl
theorem get : Firm M.get := fun s s' h => by cases h
theorem obj (i : Nat) : Firm (obj i) := fun s s' h => by cases h
theorem assert (b : Bool) : Firm (M.assert b) := fun s s' h => by
  rw [assert_run] at h
  cases b <;> cases h
theorem upd (i : Nat) (f : Obj → Obj) : Firm (upd i f) := fun s s' h => by cases h
theorem alloc (o : Obj) : Firm (alloc o) := fun s s' h => by cases h
theorem modify (f : St → St) : Firm (M.modify f) := fun s s' h => by cases h
theorem lift {f : St → Except Err α} (h : ∀ s, Calm (f s)) : Firm (M.lift f) := fun s s' e => by
  rw [lift_run] at e
  cases hf : f s with
  | ok a => rw [hf] at e; cases e
  | error x => rw [hf] at e; cases e; exact absurd (h s _ hf) (by decide)
theorem bind {m : M α} {f : α → M β} (hm : Firm m) (hf : ∀ a, Firm (f a)) : Firm (m >>= f) := fun s s' e => by
  rw [bind_run] at e
  cases h : m s with
  | err x s1 => rw [h] at e; cases e; exact hm _ _ h
  | ok a s1 => rw [h] at e; exact hf _ _ _ e
theorem ite {c : Prop} [Decidable c] {m n : M α} (hm : Firm m) (hn : Firm n) : Firm (if c then m else n) := by split <;> assumption
theorem forL {f : α → M Unit} (h : ∀ a, Firm (f a)) (l : List α) : Firm (forL f l) := by
  induction l with
  | nil => exact pure _
  | cons a l ih => exact bind (h a) fun _ => ih
end Firm

theorem calm_strCell (kv : Str × Val) : Calm (strCell kv) := by unfold strCell; calm []
theorem calm_declaredEntry (ap : Dict Val) (v : Str) : Calm (declaredEntry ap v) := by unfold declaredEntry; calm [calm_strCell _]
theorem calm_substSynonym (d : Dict DTerm) (p r : Str) : Calm (substSynonym d p r) := by unfold substSynonym; calm [calm_splitTermLower _]

/-- Split a computation into its steps and close the steps named. -/
macro "firm " "[" ls:term,* "]" : tactic => do
  let alts ← ls.getElems.mapM fun l => `(tactic| exact $l)
  `(tactic| repeat' first
      | exact Firm.pure _ | exact Firm.mpure _ | exact Firm.raise (by decide) | exact Firm.get | exact Firm.obj _
      | exact Firm.assert _ | exact Firm.upd _ _ | exact Firm.alloc _ | exact Firm.modify _
      $[| $alts:tactic]*
      | (refine Firm.lift fun _ => ?_; calm [calm_splitTermLower _, calm_find _ _ _ _, calm_findFirst _ _ _ _, calm_termFindFirst _ _ _ _,
          calm_sectionArgs _ _, calm_localName _ _ _, calm_getItem _ _ _, calm_sectionFindFirst _ _ _ _, calm_termIs _ _ _, calm_getSection _ _, calm_declaredEntry _ _,
          calm_substSynonym _ _ _]; done)
      | refine Firm.forL ?_ _ | refine Firm.bind ?_ ?_ | refine Firm.ite ?_ ?_ | with_reducible intro _ | split | dsimp only)

theorem fm_setTvn (t : Nat) (v : Str) : Firm (setTvn t v) := by unfold setTvn; firm []
theorem fm_newTermObj (c : Cls) (n : Str) (v : Val) (a : List Str) (p x : Option Nat) (col : Nat) (b : Bool) :
    Firm (newTermObj c n v a p x col b) := by
  unfold newTermObj; firm []
theorem fm_newSectionObj (n : Str) (v : Val) (a : List Str) (b : Bool) : Firm (newSectionObj n v a b) := by
  unfold newSectionObj; firm [fm_newTermObj _ _ _ _ _ _ _ _]
theorem fm_construct (c : Cls) (n : Str) (v : Val) (p x : Option Nat) : Firm (construct c n v p x) := by
  unfold construct; firm [fm_newTermObj _ _ _ _ _ _ _ _, fm_newSectionObj _ _ _ _]
theorem fm_newChild0 (t : Nat) (n : Str) (v : Val) : Firm (newChild0 t n v) := by
  unfold newChild0; firm [fm_construct _ _ _ _ _]
theorem fm_newChildren (t : Nat) (kw : List (Str × Val)) : Firm (newChildren t kw) := by
  unfold newChildren; firm [fm_newChild0 _ _ _]
theorem fm_getOrNewChild0 (t : Nat) (n : Str) (v : Val) : Firm (getOrNewChild0 t n v) := by
  unfold getOrNewChild0; firm [fm_construct _ _ _ _ _]
theorem fm_setItemSome (t : Nat) (n : Str) (v : Val) : Firm (setItemSome t n v) := by
  unfold setItemSome; firm [fm_getOrNewChild0 _ _ _]
theorem fm_setSectionTerm (t v : Nat) : Firm (setSectionTerm t v) := by
  unfold setSectionTerm; firm [fm_setItemSome _ _ _]
theorem fm_addSection (x : Nat) : Firm (addSection x) := by
  unfold addSection; firm []
theorem fm_setOwnershipF (f t : Nat) : Firm (setOwnershipF f t) := by
  induction f generalizing t with
  | zero => exact Firm.raise (by decide)
  | succ f ih => unfold setOwnershipF; firm [ih _]
theorem fm_setOwnership (t : Nat) : Firm (setOwnership t) := by
  unfold setOwnership; firm [fm_setOwnershipF _ _]
theorem fm_addTermFinish (t : Nat) : Firm (addTermFinish t) := by
  unfold addTermFinish; firm []
theorem fm_docAddTermCore (t : Nat) : Firm (docAddTermCore t) := by
  unfold docAddTermCore; firm [fm_addTermFinish _, fm_addSection _]
theorem fm_sectionAddTerm (x t : Nat) : Firm (sectionAddTerm x t) := by
  unfold sectionAddTerm; firm [fm_docAddTermCore _, fm_setOwnership _]
theorem fm_docAddTerm (t : Nat) : Firm (docAddTerm t) := by
  unfold docAddTerm
  firm [fm_addTermFinish _, fm_addSection _, fm_setSectionTerm _ _, fm_sectionAddTerm _ _]
theorem fm_removeTermF (f t : Nat) : Firm (removeTermF f t) := by
  induction f generalizing t with
  | zero => exact Firm.raise (by decide)
  | succ f ih => unfold removeTermF; firm [ih _, fm_addSection _, fm_setSectionTerm _ _]
theorem fm_removeTerm (t : Nat) : Firm (removeTerm t) := by
  unfold removeTerm; firm [fm_removeTermF _ _]
theorem fm_removeChild (t c : Nat) : Firm (removeChild t c) := by
  unfold removeChild; firm [fm_removeTerm _]
theorem fm_setItem (t : Nat) (n : Str) (v : Val) : Firm (setItem t n v) := by
  unfold setItem; firm [fm_removeChild _ _, fm_setItemSome _ _ _]
theorem fm_newTerm (x : Nat) (n : Str) (v : Val) (kw : List (Str × Val)) : Firm (newTerm x n v kw) := by
  unfold newTerm; firm [fm_construct _ _ _ _ _, fm_newChildren _ _, fm_docAddTerm _]
theorem fm_getOrNewTerm (x : Nat) (n : Str) (v : Val) (kw : List (Str × Val)) : Firm (getOrNewTerm x n v kw) := by
  unfold getOrNewTerm; firm [fm_newTerm _ _ _ _, fm_getOrNewChild0 _ _ _]
theorem fm_setItemAny (t : Nat) (n : Str) (v : Val) : Firm (setItemAny t n v) := by
  unfold setItemAny; firm [fm_getOrNewTerm _ _ _ _, fm_setItem _ _ _]
theorem fm_setSection (t : Nat) (v : Option Nat) : Firm (setSection t v) := by
  unfold setSection; firm [fm_setItemAny _ _ _]
theorem fm_addChild (t c : Nat) : Firm (addChild t c) := by
  unfold addChild; firm []
theorem fm_updP (f : PSt → PSt) : Firm (updP f) := Firm.modify _
theorem fm_applyDecl (t : Nat) : Firm (applyDecl t) := by
  unfold applyDecl; firm [fm_setTvn _ _]
theorem fm_attach (n : Str) {e : Err} (he : e ≠ .includeError) (t : Nat) : Firm (attach n e t) := by
  unfold attach; firm [fm_addChild _ _, Firm.raise he]
theorem fm_placeTerm (t : Nat) : Firm (placeTerm t) := by
  unfold placeTerm; firm [fm_attach _ (by decide) _, fm_updP _]
theorem fm_loadBody (t : Nat) : Firm (loadBody t) := by
  unfold loadBody; firm [fm_addSection _, fm_docAddTerm _]
theorem fm_addTermToSection (b : Bool) (td : DTerm) : Firm (addTermToSection b td) := by
  unfold addTermToSection; firm [fm_updP _]
theorem fm_inheritLoop (sec tR ihR : Str) (f i : Nat) : Firm (inheritLoop sec tR ihR f i) := by
  induction f generalizing i with
  | zero => unfold inheritLoop; firm []
  | succ f ih => unfold inheritLoop; firm [ih _, fm_updP _, fm_addTermToSection _ _]
theorem fm_addInherited (td : DTerm) : Firm (addInherited td) := by
  unfold addInherited; firm [fm_inheritLoop _ _ _ _ _]
theorem fm_addDeclaredSection (t : Nat) : Firm (addDeclaredSection t) := by
  unfold addDeclaredSection; firm [fm_updP _]
theorem fm_addDeclaredTerm (t : Nat) : Firm (addDeclaredTerm t) := by
  unfold addDeclaredTerm; firm [fm_updP _, fm_addTermToSection _ _, fm_addInherited _]
theorem fm_addValueSetValue (t : Nat) : Firm (addValueSetValue t) := by
  unfold addValueSetValue; firm [fm_updP _]
theorem fm_manageDeclare (t : Nat) : Firm (manageDeclare t) := by
  unfold manageDeclare; firm [fm_addDeclaredSection _, fm_addDeclaredTerm _, fm_addValueSetValue _]
theorem fm_iterBody (t : Nat) : Firm (iterBody t) := by
  unfold iterBody
  firm [fm_setSection _ _, fm_applyDecl _, fm_placeTerm _, fm_sectionAddTerm _ _, fm_updP _, fm_manageDeclare _]
theorem fm_consume (load : Bool) (t : Nat) : Firm (consume load t) := by
  unfold consume; firm [fm_iterBody _, fm_loadBody _]
theorem fm_finishLoad : Firm finishLoad := Firm.modify _

theorem fm_rowTerm (d : Bool) (row : List Str) : Firm (rowTerm d row) := by
  unfold rowTerm; firm [fm_newSectionObj _ _ _ _, fm_newTermObj _ _ _ _ _ _ _ _]
theorem fm_argTerm (d : Bool) (t k : Nat) (v : Str) : Firm (argTerm d t k v) := by
  unfold argTerm; firm [fm_newTermObj _ _ _ _ _ _ _ _]

end Metatab
