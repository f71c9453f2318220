import Verif.Lemmas.Tables
import Verif.Lemmas.StepsParse
import Verif.Model.History
/-! Which calls change the tables of declarations and of registered classes. -/
namespace Metatab
open Py

macro "same!" : term => `(tab_modify fun _ => ⟨rfl, rfl, ⟨rfl, rfl, rfl, rfl, rfl⟩⟩)

theorem tab_newSection (n : Str) (ps : List Str) : Pres SameTab (newSection n ps) := by
  unfold newSection; pres [tab_newSectionObj _ _ _ _, same!]
theorem tab_getOrNewSection (n : Str) (ps : List Str) : Pres SameTab (getOrNewSection n ps) := by
  unfold getOrNewSection; pres [tab_newSectionObj _ _ _ _, same!]
theorem tab_removeAll (ts : List Nat) : Pres SameTab (removeAll ts) := by
  induction ts with
  | nil => exact Pres.pure _
  | cons t ts ih => unfold removeAll; pres [ih, same!]
theorem tab_delSection (n : Str) : Pres SameTab (delSection n) := by
  unfold delSection; pres [tab_removeAll _, same!]
theorem tab_sortSections (o : List Str) : Pres SameTab (sortSections o) := by
  unfold sortSections; pres [same!]
theorem tab_sortByTerm (x : Nat) (o : Option (List Str)) : Pres SameTab (sortByTerm x o) := by
  unfold sortByTerm; pres []
theorem tab_sectionRemoveTerm (x t : Nat) : Pres SameTab (sectionRemoveTerm x t) := by
  unfold sectionRemoveTerm; pres [tab_removeTerm _]
theorem tab_cleanSection (x : Nat) : Pres SameTab (cleanSection x) := by
  unfold cleanSection; pres [tab_removeTerm _]
theorem tab_sectionDelItem (x : Nat) (i : Str) : Pres SameTab (sectionDelItem x i) := by
  unfold sectionDelItem; pres []
theorem tab_setTerms (x : Nat) (ts : List Nat) (kw : List (Str × Val × List (Str × Val))) : Pres SameTab (setTerms x ts kw) := by
  unfold setTerms; pres [tab_sectionAddTerm _ _, tab_newTerm _ _ _ _]
theorem tab_newChild (t : Nat) (n : Str) (v : Val) (kw : List (Str × Val)) : Pres SameTab (newChild t n v kw) := by
  unfold newChild; pres [tab_newChild0 _ _ _, tab_newChildren _ _, tab_construct _ _ _ _ _]
theorem tab_getOrNewChild (t : Nat) (n : Str) (v : Val) (kw : List (Str × Val)) : Pres SameTab (getOrNewChild t n v kw) := by
  unfold getOrNewChild; pres [tab_getOrNewChild0 _ _ _, tab_newChildren _ _, tab_construct _ _ _ _ _, tab_newChild _ _ _ _]
theorem tab_ensureIdentifier : Pres SameTab ensureIdentifier := by
  unfold ensureIdentifier; pres [tab_newTerm _ _ _ _]
theorem tab_versionPart (v : Nat) (n : Str) (p : Option Nat) : Pres SameTab (versionPart v n p) := by
  unfold versionPart; pres [tab_newChild0 _ _ _]
theorem tab_versionString (v : Nat) : Pres SameTab (versionString v) := by
  unfold versionString; pres []
theorem tab_updateVersion : Pres SameTab updateVersion := by
  unfold updateVersion; pres [tab_versionPart _ _ _, tab_versionString _]
theorem tab_identityName (m : ModVer) : Pres SameTab (identityName m) := by
  unfold identityName; pres [tab_updateVersion]
theorem tab_nameTerm (c : Bool) : Pres SameTab (nameTerm c) := by
  unfold nameTerm; pres [tab_newTerm _ _ _ _]
theorem tab_setName (f r : Bool) (m : ModVer) (t : Nat) : Pres SameTab (setName f r m t) := by
  unfold setName; pres [tab_identityName _]
theorem tab_updateName (f c r : Bool) (m : ModVer) : Pres SameTab (updateName f c r m) := by
  unfold updateName; pres [tab_ensureIdentifier, tab_nameTerm _, tab_setName _ _ _ _]
theorem tab_tryMetatab {m h : M Unit} (hm : Pres SameTab m) (hh : Pres SameTab h) : Pres SameTab (tryMetatab m h) := by
  intro s
  have h1 := hm s
  unfold tryMetatab
  cases e : m s with
  | ok a s' => rw [e] at h1; exact h1
  | err x s' =>
    rw [e] at h1
    dsimp only
    split
    · exact Pre.trans h1 (hh s')
    · exact h1
theorem tab_cleanseName : Pres SameTab cleanseName := by
  unfold cleanseName; pres [tab_getOrNewTerm _ _ _ _]
theorem tab_cleanse : Pres SameTab cleanse := by
  unfold cleanse; pres [tab_ensureIdentifier, tab_tryMetatab (Pres.bind (tab_updateName _ _ _ _) fun _ => Pres.pure _) tab_cleanseName]
theorem tab_dropBlank (c : Nat) (ks : List Nat) : Pres SameTab (dropBlank c ks) := by
  induction ks with
  | nil => exact Pres.pure _
  | cons k ks ih => unfold dropBlank; pres [ih, tab_removeChild _ _]
theorem tab_dropBlankTables (ts : List Nat) : Pres SameTab (dropBlankTables ts) := by
  induction ts with
  | nil => exact Pres.pure _
  | cons t ts ih => unfold dropBlankTables; pres [ih, tab_dropBlank _ _]
theorem tab_cleanUnused : Pres SameTab cleanUnused := by
  unfold cleanUnused; pres [tab_dropBlankTables _]; all_goals exact tab_upd _ _
theorem tab_setPlain (x : Dict Val) (t : Nat) (i : Str) (v : Val) : Pres SameTab (setPlain x t i v) := by
  unfold setPlain; pres []
theorem tab_setAttr (x : Dict Val) (t : Nat) (i : Str) (v : Val) : Pres SameTab (setAttr x t i v) := by
  unfold setAttr; pres [tab_setPlain _ _ _ _, tab_setItemAny _ _ _]

theorem tab_drop {α : Type} {m : M α} (h : Pres SameTab m) : Pres SameTab (do let _ ← m) := Pres.bind h fun _ => Pres.pure _

/-- Every call except reading rows, reading declarations and registering classes leaves all tables alone. -/
theorem tab_op (op : Op) : (match op with
    | .parse .. | .loadDeclarations .. | .registerClass .. | .unregisterClass _ => True
    | _ => Pres SameTab op.run) := by
  cases op <;> dsimp only [Op.run] <;> first
    | exact trivial
    | exact tab_drop (tab_newSection _ _)
    | exact tab_drop (tab_getOrNewSection _ _)
    | exact tab_drop (tab_addSection _)
    | exact tab_delSection _ | exact tab_sortSections _ | exact tab_docAddTerm _ | exact tab_removeTerm _
    | exact tab_drop (tab_newTermObj _ _ _ _ _ _ _ _)
    | exact tab_drop (tab_newTerm _ _ _ _) | exact tab_drop (tab_getOrNewTerm _ _ _ _)
    | exact tab_sectionAddTerm _ _ | exact tab_sectionRemoveTerm _ _ | exact tab_cleanSection _ | exact tab_setTerms _ _ _
    | exact tab_sortByTerm _ _ | exact tab_upd _ _ | exact tab_sectionDelItem _ _
    | exact tab_drop (tab_newChild _ _ _ _) | exact tab_drop (tab_getOrNewChild _ _ _ _)
    | exact tab_removeChild _ _ | exact tab_addChild _ _ | exact tab_setItemAny _ _ _ | exact tab_setSection _ _
    | exact tab_ensureIdentifier | exact tab_drop tab_updateVersion | exact tab_drop (tab_updateName _ _ _ _)
    | exact tab_drop (tab_identityName _) | exact tab_cleanse | exact tab_cleanUnused | exact tab_drop (tab_setAttr _ _ _ _)

/-- The registered classes are the same. -/
def SameCls (s s' : St) : Prop := s'.classes = s.classes
instance : TabRel SameCls where
  refl _ := rfl
  trans h1 h2 := h2.trans h1
  same h := h.doc.cls

theorem cls_manageDeclare (t : Nat) : Pres SameCls (manageDeclare t) := by
  intro s
  obtain ⟨_, _, h⟩ := pres_manageDeclare t s
  rw [h]; rfl
theorem cls_modify {f : St → St} (h : ∀ s, (f s).classes = s.classes) : Pres SameCls (M.modify f) := h
theorem cls_parse (files : Files) (f : Nat) (p : Str) (rows : List (List Str)) : Pres SameCls (parseRows files f p rows) := by
  unfold parseRows
  exact Pres.bind (cls_modify fun _ => rfl) fun _ => Pres.bind (tabR_gen cls_manageDeclare _ _ _ _ _ _ _) fun _ => cls_modify fun _ => rfl
theorem cls_loadDeclarations (files : Files) (f : Nat) (ds : List Str) : Pres SameCls (loadDeclarations files f ds) := by
  unfold loadDeclarations
  refine Pres.ite (Pres.pure _) (Pres.bind Pres.get fun s => Pres.bind (Pres.lift _) fun ts => ?_)
  exact Pres.bind (cls_modify fun _ => rfl) fun _ => Pres.bind (tabR_gen cls_manageDeclare _ _ _ _ _ _ _) fun _ => cls_modify fun _ => rfl

theorem after_eq {α : Type} (m : M α) (s : St) : after m s = (m s).st := by unfold after; cases m s <;> rfl

end Metatab
