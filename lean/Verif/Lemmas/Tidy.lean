import Verif.Lemmas.OpTables
import Verif.Lemmas.Reach
import Verif.Spec.DictOutline
/-! # Documents without declared value names and types

No call except reading rows and declarations gives a term a value name or a type. -/
namespace Metatab
open Py

/-- The object has the default value name and type. -/
structure PlainObj (o : Obj) : Prop where
  tvn : o.tvn = py!"@value"
  cpt : o.cpt = py!"any"
  dflt : o.defTvn = py!"@value"

/-- No declared value names and types, and no object that has one. -/
structure Tidy (s : St) : Prop where
  tvn : ∀ n d, declProp s.declTerms n (py!"termvaluename") d = d
  cpt : ∀ n, declProp s.declTerms n (py!"childpropertytype") (py!"any") = py!"any"
  objs : ∀ i, PlainObj (s.heap i)

/-- Whatever its outcome, the computation keeps a tidy document tidy. -/
def Tidies {α : Type} (m : M α) : Prop := ∀ s, Tidy s → Tidy (m s).st

namespace Tidies
variable {α β : Type}
theorem pure (a : α) : Tidies (Pure.pure a : M α) := fun _ h => h
theorem mpure (a : α) : Tidies (M.pure a) := fun _ h => h
theorem raise (e : Err) : Tidies (M.raise e : M α) := fun _ h => h
theorem lift (f : St → Except Err α) : Tidies (M.lift f) := fun s h => by rw [lift_run]; split <;> exact h
theorem assert (b : Bool) : Tidies (M.assert b) := fun s h => by rw [assert_run]; split <;> exact h
theorem bind {m : M α} {f : α → M β} (h1 : Tidies m) (h2 : ∀ a, Tidies (f a)) : Tidies (m >>= f) := fun s h => by
  have := h1 s h
  rw [bind_run]
  cases e : m s with
  | ok a s' => rw [e] at this; exact h2 a s' this
  | err x s' => rw [e] at this; exact this
theorem getBind {f : St → M β} (h : ∀ s, Tidy s → Tidies (f s)) : Tidies (M.get >>= f) := fun s hs => by
  rw [bind_run, get_run]; exact h s hs s hs
theorem objBind {f : Obj → M β} (t : Nat) (h : ∀ o, PlainObj o → Tidies (f o)) : Tidies (obj t >>= f) := fun s hs => by
  rw [bind_run, obj_run]; exact h _ (hs.objs t) s hs
theorem ite {c : Prop} [Decidable c] {a b : M α} (h1 : Tidies a) (h2 : Tidies b) : Tidies (if c then a else b) := by split <;> assumption
theorem forL {γ : Type} {f : γ → M Unit} (h : ∀ a, Tidies (f a)) (l : List γ) : Tidies (Metatab.forL f l) := by
  induction l with
  | nil => exact pure _
  | cons a l ih => exact bind (h a) fun _ => ih
end Tidies

theorem td_upd (t : Nat) {f : Obj → Obj} (h : ∀ o, PlainObj o → PlainObj (f o)) : Tidies (upd t f) := fun s hs => by
  show Tidy (s.setObj t (f (s.heap t)))
  refine ⟨hs.tvn, hs.cpt, fun i => ?_⟩
  rw [heap_setObj]
  split
  · exact h _ (hs.objs t)
  · exact hs.objs i
theorem td_alloc {o : Obj} (h : PlainObj o) : Tidies (alloc o) := fun s hs => by
  show Tidy ({ s with next := s.next + 1 }.setObj s.next o)
  refine ⟨hs.tvn, hs.cpt, fun i => ?_⟩
  rw [heap_setObj]
  split
  · exact h
  · exact hs.objs i
theorem td_setTvn (t : Nat) {v : Str} (h : v = py!"@value") : Tidies (setTvn t v) := by
  unfold setTvn
  exact .ite (.raise _) (td_upd _ fun o ho => ⟨h, ho.cpt, ho.dflt⟩)
theorem td_modify {f : St → St} (h : ∀ s, Tidy s → Tidy (f s)) : Tidies (M.modify f) := h

/-- Split a computation into its steps and close the steps named. -/
macro "presT " "[" ls:term,* "]" : tactic => do
  let alts ← ls.getElems.mapM fun l => `(tactic| with_reducible exact $l)
  `(tactic| repeat' first
      | with_reducible exact Tidies.pure _ | with_reducible exact Tidies.mpure _ | with_reducible exact Tidies.raise _
      | with_reducible exact Tidies.lift _ | with_reducible exact Tidies.assert _
      | (with_reducible refine td_upd _ ?_; exact fun _ h => ⟨h.tvn, h.cpt, h.dflt⟩)
      | (with_reducible refine td_alloc ?_; exact ⟨rfl, rfl, rfl⟩)
      | (with_reducible refine td_setTvn _ ?_; refine Eq.trans (Tidy.tvn ?_ _ _) (PlainObj.tvn ?_) <;> assumption)
      | (with_reducible refine td_modify ?_; exact fun _ h => ⟨h.tvn, h.cpt, h.objs⟩)
      $[| $alts:tactic]*
      | with_reducible refine Tidies.forL ?_ _ | with_reducible refine Tidies.getBind ?_ | with_reducible refine Tidies.objBind _ ?_
      | with_reducible refine Tidies.bind ?_ ?_ | with_reducible refine Tidies.ite ?_ ?_
      | with_reducible intro _ | split | dsimp only)

theorem td_newTermObj (c : Cls) (n : Str) (v : Val) (a : List Str) (p x : Option Nat) (col : Nat) (b : Bool) :
    Tidies (newTermObj c n v a p x col b) := by
  unfold newTermObj; presT []
theorem td_newSectionObj (n : Str) (v : Val) (a : List Str) (b : Bool) : Tidies (newSectionObj n v a b) := by
  unfold newSectionObj; presT [td_newTermObj _ _ _ _ _ _ _ _]
theorem td_construct (c : Cls) (n : Str) (v : Val) (p x : Option Nat) : Tidies (construct c n v p x) := by
  unfold construct; presT [td_newTermObj _ _ _ _ _ _ _ _, td_newSectionObj _ _ _ _]
theorem td_newChild0 (t : Nat) (n : Str) (v : Val) : Tidies (newChild0 t n v) := by
  unfold newChild0; presT [td_construct _ _ _ _ _]
theorem td_newChildren (t : Nat) (kw : List (Str × Val)) : Tidies (newChildren t kw) := by
  unfold newChildren; presT [td_newChild0 _ _ _]
theorem td_getOrNewChild0 (t : Nat) (n : Str) (v : Val) : Tidies (getOrNewChild0 t n v) := by
  unfold getOrNewChild0; presT [td_construct _ _ _ _ _]
theorem td_setItemSome (t : Nat) (n : Str) (v : Val) : Tidies (setItemSome t n v) := by
  unfold setItemSome; presT [td_getOrNewChild0 _ _ _]
theorem td_setSectionTerm (t v : Nat) : Tidies (setSectionTerm t v) := by
  unfold setSectionTerm; presT [td_setItemSome _ _ _]
theorem td_addSection (x : Nat) : Tidies (addSection x) := by
  unfold addSection; presT []
theorem td_setOwnershipF (f t : Nat) : Tidies (setOwnershipF f t) := by
  induction f generalizing t with
  | zero => exact Tidies.raise _
  | succ f ih => unfold setOwnershipF; presT [ih _]
theorem td_setOwnership (t : Nat) : Tidies (setOwnership t) := by
  unfold setOwnership; presT [td_setOwnershipF _ _]
theorem td_addTermFinish (t : Nat) : Tidies (addTermFinish t) := by
  unfold addTermFinish
  refine .getBind fun s hs => ?_
  presT []
  all_goals first
    | exact td_upd _ fun o ho => ⟨ho.tvn, hs.cpt _, ho.dflt⟩
    | exact td_setTvn _ ((hs.tvn _ _).trans (hs.objs _).dflt)
theorem td_docAddTermCore (t : Nat) : Tidies (docAddTermCore t) := by
  unfold docAddTermCore; presT [td_addTermFinish _, td_addSection _]
theorem td_sectionAddTerm (x t : Nat) : Tidies (sectionAddTerm x t) := by
  unfold sectionAddTerm; presT [td_docAddTermCore _, td_setOwnership _]
theorem td_docAddTerm (t : Nat) : Tidies (docAddTerm t) := by
  unfold docAddTerm
  presT [td_addTermFinish _, td_addSection _, td_setSectionTerm _ _, td_sectionAddTerm _ _]
theorem td_removeTermF (f t : Nat) : Tidies (removeTermF f t) := by
  induction f generalizing t with
  | zero => exact Tidies.raise _
  | succ f ih => unfold removeTermF; presT [ih _, td_addSection _, td_setSectionTerm _ _]
theorem td_removeTerm (t : Nat) : Tidies (removeTerm t) := by
  unfold removeTerm; presT [td_removeTermF _ _]
theorem td_removeChild (t c : Nat) : Tidies (removeChild t c) := by
  unfold removeChild; presT [td_removeTerm _]
theorem td_setItem (t : Nat) (n : Str) (v : Val) : Tidies (setItem t n v) := by
  unfold setItem; presT [td_removeChild _ _, td_setItemSome _ _ _]
theorem td_newTerm (x : Nat) (n : Str) (v : Val) (kw : List (Str × Val)) : Tidies (newTerm x n v kw) := by
  unfold newTerm; presT [td_construct _ _ _ _ _, td_newChildren _ _, td_docAddTerm _]
theorem td_getOrNewTerm (x : Nat) (n : Str) (v : Val) (kw : List (Str × Val)) : Tidies (getOrNewTerm x n v kw) := by
  unfold getOrNewTerm; presT [td_newTerm _ _ _ _, td_getOrNewChild0 _ _ _]
theorem td_setItemAny (t : Nat) (n : Str) (v : Val) : Tidies (setItemAny t n v) := by
  unfold setItemAny; presT [td_getOrNewTerm _ _ _ _, td_setItem _ _ _]
theorem td_setSection (t : Nat) (v : Option Nat) : Tidies (setSection t v) := by
  unfold setSection; presT [td_setItemAny _ _ _]
theorem td_addChild (t c : Nat) : Tidies (addChild t c) := by
  unfold addChild; presT []
theorem td_newSection (n : Str) (ps : List Str) : Tidies (newSection n ps) := by
  unfold newSection; presT [td_newSectionObj _ _ _ _]
theorem td_getOrNewSection (n : Str) (ps : List Str) : Tidies (getOrNewSection n ps) := by
  unfold getOrNewSection; presT [td_newSectionObj _ _ _ _]
theorem td_removeAll (ts : List Nat) : Tidies (removeAll ts) := by
  induction ts with
  | nil => exact Tidies.pure _
  | cons t ts ih => unfold removeAll; presT [ih]
theorem td_delSection (n : Str) : Tidies (delSection n) := by
  unfold delSection; presT [td_removeAll _]
theorem td_sortSections (o : List Str) : Tidies (sortSections o) := by
  unfold sortSections; presT []
theorem td_sortByTerm (x : Nat) (o : Option (List Str)) : Tidies (sortByTerm x o) := by
  unfold sortByTerm; presT []
theorem td_sectionRemoveTerm (x t : Nat) : Tidies (sectionRemoveTerm x t) := by
  unfold sectionRemoveTerm; presT [td_removeTerm _]
theorem td_cleanSection (x : Nat) : Tidies (cleanSection x) := by
  unfold cleanSection; presT [td_removeTerm _]
theorem td_sectionDelItem (x : Nat) (i : Str) : Tidies (sectionDelItem x i) := by
  unfold sectionDelItem; presT []
theorem td_setTerms (x : Nat) (ts : List Nat) (kw : List (Str × Val × List (Str × Val))) : Tidies (setTerms x ts kw) := by
  unfold setTerms; presT [td_sectionAddTerm _ _, td_newTerm _ _ _ _]
theorem td_newChild (t : Nat) (n : Str) (v : Val) (kw : List (Str × Val)) : Tidies (newChild t n v kw) := by
  unfold newChild; presT [td_newChild0 _ _ _, td_newChildren _ _, td_construct _ _ _ _ _]
theorem td_getOrNewChild (t : Nat) (n : Str) (v : Val) (kw : List (Str × Val)) : Tidies (getOrNewChild t n v kw) := by
  unfold getOrNewChild; presT [td_getOrNewChild0 _ _ _, td_newChildren _ _, td_construct _ _ _ _ _, td_newChild _ _ _ _]
theorem td_ensureIdentifier : Tidies ensureIdentifier := by
  unfold ensureIdentifier; presT [td_newTerm _ _ _ _]
theorem td_versionPart (v : Nat) (n : Str) (p : Option Nat) : Tidies (versionPart v n p) := by
  unfold versionPart; presT [td_newChild0 _ _ _]
theorem td_versionString (v : Nat) : Tidies (versionString v) := by
  unfold versionString; presT []
theorem td_updateVersion : Tidies updateVersion := by
  unfold updateVersion; presT [td_versionPart _ _ _, td_versionString _]
theorem td_identityName (m : ModVer) : Tidies (identityName m) := by
  unfold identityName; presT [td_updateVersion]
theorem td_nameTerm (c : Bool) : Tidies (nameTerm c) := by
  unfold nameTerm; presT [td_newTerm _ _ _ _]
theorem td_setName (f r : Bool) (m : ModVer) (t : Nat) : Tidies (setName f r m t) := by
  unfold setName; presT [td_identityName _]
theorem td_updateName (f c r : Bool) (m : ModVer) : Tidies (updateName f c r m) := by
  unfold updateName; presT [td_ensureIdentifier, td_nameTerm _, td_setName _ _ _ _]
theorem td_tryMetatab {m h : M Unit} (hm : Tidies m) (hh : Tidies h) : Tidies (tryMetatab m h) := by
  intro s hs
  have h1 := hm s hs
  unfold tryMetatab
  cases e : m s with
  | ok a s' => rw [e] at h1; exact h1
  | err x s' =>
    rw [e] at h1
    dsimp only
    split
    · exact hh s' h1
    · exact h1
theorem td_cleanseName : Tidies cleanseName := by
  unfold cleanseName; presT [td_getOrNewTerm _ _ _ _]
theorem td_cleanse : Tidies cleanse := by
  unfold cleanse; presT [td_ensureIdentifier, td_tryMetatab (Tidies.bind (td_updateName _ _ _ _) fun _ => Tidies.pure _) td_cleanseName]
theorem td_dropBlank (c : Nat) (ks : List Nat) : Tidies (dropBlank c ks) := by
  induction ks with
  | nil => exact Tidies.pure _
  | cons k ks ih => unfold dropBlank; presT [ih, td_removeChild _ _]
theorem td_dropBlankTables (ts : List Nat) : Tidies (dropBlankTables ts) := by
  induction ts with
  | nil => exact Tidies.pure _
  | cons t ts ih => unfold dropBlankTables; presT [ih, td_dropBlank _ _]
theorem td_addArg (x : Nat) (a : Str) (p : Bool) : Tidies (addArg x a p) := by
  unfold addArg; presT []
theorem td_removeArg (x : Nat) (a : Str) : Tidies (removeArg x a) := by
  unfold removeArg; presT []
theorem td_cleanUnused : Tidies cleanUnused := by
  unfold cleanUnused; presT [td_dropBlankTables _, td_addArg _ _ _, td_removeArg _ _]
theorem td_setPlain (x : Dict Val) (t : Nat) (i : Str) (v : Val) : Tidies (setPlain x t i v) := by
  unfold setPlain; presT []
theorem td_setAttr (x : Dict Val) (t : Nat) (i : Str) (v : Val) : Tidies (setAttr x t i v) := by
  unfold setAttr; presT [td_setPlain _ _ _ _, td_setItemAny _ _ _]


theorem td_drop {α : Type} {m : M α} (h : Tidies m) : Tidies (do let _ ← m) := Tidies.bind h fun _ => Tidies.pure _

/-- The calls that do not read rows or declarations. -/
def Op.byHand : Op → Prop
  | .parse .. | .loadDeclarations .. => False
  | _ => True

/-- No call that reads neither rows nor declarations gives a term a value name or a type. -/
theorem td_op (op : Op) (h : op.byHand) : Tidies op.run := by
  cases op <;> dsimp only [Op.run] <;> first
    | exact h.elim
    | exact td_drop (td_newSection _ _)
    | exact td_drop (td_getOrNewSection _ _)
    | exact td_drop (td_addSection _)
    | exact td_delSection _ | exact td_sortSections _ | exact td_docAddTerm _ | exact td_removeTerm _
    | exact td_drop (td_newTermObj _ _ _ _ _ _ _ _)
    | exact td_drop (td_newTerm _ _ _ _) | exact td_drop (td_getOrNewTerm _ _ _ _)
    | exact td_sectionAddTerm _ _ | exact td_sectionRemoveTerm _ _ | exact td_cleanSection _ | exact td_setTerms _ _ _
    | exact td_sortByTerm _ _ | exact td_addArg _ _ _ | exact td_removeArg _ _ | exact td_sectionDelItem _ _
    | exact td_drop (td_newChild _ _ _ _) | exact td_drop (td_getOrNewChild _ _ _ _)
    | exact td_removeChild _ _ | exact td_addChild _ _ | exact td_setItemAny _ _ _ | exact td_setSection _ _
    | exact td_ensureIdentifier | exact td_drop td_updateVersion | exact td_drop (td_updateName _ _ _ _)
    | exact td_drop (td_identityName _) | exact td_cleanse | exact td_cleanUnused | exact td_drop (td_setAttr _ _ _ _)
    | exact td_upd _ fun _ h => ⟨h.tvn, h.cpt, h.dflt⟩
    | exact td_modify fun _ h => ⟨h.tvn, h.cpt, h.objs⟩

theorem tidy_new (env : Env) (classes : Dict Cls) : Tidy (newDoc env classes) := by
  refine ⟨fun _ _ => rfl, fun _ => rfl, fun i => ?_⟩
  show PlainObj (if i = 0 then rootObj else Obj.blank)
  split <;> exact ⟨rfl, rfl, rfl⟩

theorem reach_tidy {allow : Op → Prop} (ha : ∀ op, allow op → op.byHand) {s : St} (h : Reach allow s) : Tidy s := by
  induction h with
  | new env classes => exact tidy_new env classes
  | step op h hal hv ih => rw [after_eq]; exact td_op op (ha op hal) _ ih

end Metatab
