import Verif.Model.History
import Verif.Lemmas.StepsParse
import Verif.Lemmas.StepsVersion
import Verif.Lemmas.StepsClean
/-! Every reachable state is well-formed. -/
namespace Metatab
open Py

theorem newDoc_wf (F : Prop) (env : Env) (classes : Dict Cls) : WF F (newDoc env classes) := by
  have hc : ∀ i, ((newDoc env classes).heap i).children = [] := by intro i; simp only [newDoc]; split <;> rfl
  have ht : ∀ i, ((newDoc env classes).heap i).terms = [] := by intro i; simp only [newDoc]; split <;> rfl
  have hp : ∀ i, ((newDoc env classes).heap i).parent = none := by intro i; simp only [newDoc]; split <;> rfl
  have hs : ∀ i, ((newDoc env classes).heap i).sec = none := by intro i; simp only [newDoc]; split <;> rfl
  constructor
  · exact Nat.zero_lt_one
  · rfl
  · intro i hi
    have : i ≠ 0 := Nat.pos_iff_ne_zero.1 hi
    simp [newDoc, this]
  · intro t h; cases h
  · exact List.nodup_nil
  · intro kv h
    simp only [newDoc, List.mem_cons, List.not_mem_nil, or_false] at h
    subst h
    exact ⟨Nat.zero_lt_one, rfl, by decide⟩
  · simp [newDoc, Dict.keys]
  · intro x t h; rw [ht] at h; cases h
  · intro x; rw [ht]; exact List.nodup_nil
  · intro x t h; rw [hc] at h; cases h
  · intro x t h; rw [hp] at h; cases h
  · intro x t h; rw [hs] at h; cases h
  · exact ⟨Nat.zero_lt_one, rfl⟩
  · intro kv h
    simp only [newDoc, initP, List.mem_cons, List.not_mem_nil, or_false] at h
    rcases h with rfl | rfl <;> exact Nat.zero_lt_one
  · intro i; simp only [newDoc]; split
    · exact ⟨(show lower rootObj.pt = rootObj.pt by decide), (show lower rootObj.rt = rootObj.rt by decide)⟩
    · exact ⟨rfl, rfl⟩
  · exact initP_low
  · intro _ x t h; rw [hc] at h; cases h
  · intro _ x t h; rw [hc] at h; cases h
  · intro _ x t h; rw [hc] at h; cases h
  · intro _ x; rw [hc]; exact List.nodup_nil

/-- A call that does not attach a child by hand. -/
def Op.noAddChild : Op → Prop
  | .addChild _ _ => False
  | _ => True

theorem tri_drop {α : Type} {C : Cap} {m : M α} {Q : α → St → Prop} {s : St} (h : Tri C m Q s) :
    Tri C (do let _ ← m) (fun _ _ => True) s := tri_bind h fun _ _ _ _ => tri_mpure trivial

/-- A call that does not take away the section of a term. -/
def Op.keepsSection : Op → Prop
  | .setSection _ none => False
  | _ => True

theorem tri_anyOp {F U : Prop} {s : St} {op : Op} (hv : op.valid s) (hF : F → op.noAddChild) (hU : ¬ op.keepsSection → U) :
    Tri (Cap.any F U) op.run (fun _ _ => True) s := by
  have g := Cap.any_good F U s.next
  cases op with
  | parse => exact tri_parseRows
  | loadDeclarations => exact tri_loadDeclarations
  | newSection => exact tri_drop tri_newSection
  | getOrNewSection => exact tri_drop tri_getOrNewSection
  | addSection => exact tri_drop (tri_addSection hv.1)
  | delSection => exact tri_delSection
  | sortSections => exact tri_sortSections
  | docAddTerm => exact tri_docAddTerm hv g
  | removeTerm => exact tri_removeTerm hv g
  | create => exact tri_drop (tri_newTermObj hv.2.1 hv.2.2)
  | newTerm => exact tri_drop (tri_newTerm hv g)
  | getOrNewTerm => exact tri_drop (tri_getOrNewTerm hv g)
  | sectionAddTerm => exact tri_sectionAddTerm hv.1.1 hv.2 g
  | sectionRemoveTerm => exact tri_sectionRemoveTerm hv.1.1 hv.2 g
  | cleanSection => exact tri_cleanSection g
  | setTerms => exact tri_setTerms hv.1 hv.2 g
  | sortByTerm => exact tri_sortByTerm hv.1
  | addArg => exact tri_addArg hv.1
  | removeArg => exact tri_removeArg hv.1
  | sectionDelItem =>
    refine tri_get (tri_ite (fun _ => tri_raise) fun _ => tri_pure trivial)
  | newChild => exact tri_drop (tri_newChild hv g)
  | getOrNewChild => exact tri_drop (tri_getOrNewChild hv g)
  | removeChild => exact tri_removeChild hv.1 g
  | addChild => exact tri_addChild hv.1 hv.2 (fun f => hF f) g
  | setItem => exact tri_setItemAny hv g
  | setValue => exact tri_setValue hv
  | setSection => exact tri_setSection hv.1 hv.2 (fun e _ => hU (by subst e; exact id)) g
  | registerClass => exact tri_modify' (.tables _ _ _ _ _ trivial) trivial
  | unregisterClass => exact tri_modify' (.tables _ _ _ _ _ trivial) trivial
  | ensureIdentifier => exact tri_ensureIdentifier g
  | updateVersion => exact tri_drop (tri_updateVersion g)
  | updateName => exact tri_drop (tri_updateName g)
  | asVersion => exact tri_drop (tri_identityName g)
  | cleanse => exact tri_cleanse g
  | cleanUnused => exact tri_cleanUnused g
  | setAttr => exact tri_drop (tri_setAttr hv g)

theorem tri_op {F : Prop} {s : St} {op : Op} (hv : op.valid s) (hF : F → op.noAddChild) : Tri (Cap.all F) op.run (fun _ _ => True) s :=
  tri_anyOp hv hF fun _ => trivial

theorem after_steps {α : Type} {C : Cap} {m : M α} {Q : α → St → Prop} {s : St} (h : Tri C m Q s) (w : WF C.strict s) :
    Steps C s (after m s) := by
  have := h w
  unfold wp at this
  unfold after
  cases hm : m s <;> rw [hm] at this
  · exact this.1
  · exact this

theorem Reach.wf {F : Prop} {allow : Op → Prop} {s : St} (h : Reach allow s) (hF : F → ∀ op, allow op → op.noAddChild) : WF F s := by
  induction h with
  | new env classes => exact newDoc_wf F env classes
  | step op h ha hv ih => exact (after_steps (tri_op hv fun f => hF f op ha) ih).wf ih

/-- Every listed term of a document has a section or is called `root.root`, unless a section was taken away from a term. -/
theorem Reach.sited {allow : Op → Prop} {s : St} (h : Reach allow s) (hU : ∀ op, allow op → op.keepsSection) : AllSited s := by
  induction h with
  | new env classes => intro t ht; cases ht
  | step op h ha hv ih =>
    have w : WF False _ := h.wf fun f => f.elim
    exact (after_steps (tri_anyOp (F := False) (U := False) hv (fun f => f.elim) fun k => k (hU op ha)) w).sited id w ih

end Metatab
