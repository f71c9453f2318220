import Verif.Lemmas.Monad
import Verif.Model.Clean
/-! Computations that raise no `MetatabError`. -/
namespace Metatab
open Py

/-- The error, if any, is no `MetatabError`. -/
def Calm {α : Type} (x : Except Err α) : Prop := ∀ e, x = .error e → e.isMetatab = false

namespace Calm
variable {α β : Type}
theorem ok (a : α) : Calm (.ok a) := fun _ h => by cases h
theorem pure (a : α) : Calm (Pure.pure a : Except Err α) := fun _ h => by cases h
theorem error {e : Err} (h : e.isMetatab = false) : Calm (.error e : Except Err α) := fun _ h' => by cases h'; exact h
theorem bind {x : Except Err α} {f : α → Except Err β} (hx : Calm x) (hf : ∀ a, Calm (f a)) : Calm (x >>= f) := by
  cases x with
  | error e => exact fun e' h => hx e' (by cases h; rfl)
  | ok a => exact hf a
theorem ite {c : Prop} [Decidable c] {x y : Except Err α} (hx : Calm x) (hy : Calm y) : Calm (if c then x else y) := by split <;> assumption
theorem mapM {f : α → Except Err β} (h : ∀ a, Calm (f a)) (l : List α) : Calm (l.mapM f) := by
  induction l with
  | nil => exact pure _
  | cons a l ih => rw [List.mapM_cons]; exact bind (h a) fun _ => bind ih fun _ => pure _
end Calm

/-- Split a computation into its steps and close the steps named. -/
macro "calm " "[" ls:term,* "]" : tactic => do
  let alts ← ls.getElems.mapM fun l => `(tactic| exact $l)
  `(tactic| repeat' first
      | exact Calm.ok _ | exact Calm.pure _ | exact Calm.error rfl
      $[| $alts:tactic]*
      | refine Calm.mapM ?_ _ | refine Calm.bind ?_ ?_ | refine Calm.ite ?_ ?_ | with_reducible intro _ | split | dsimp only)

theorem calm_splitTerm (t : Str) : Calm (splitTerm t) := by unfold splitTerm; calm []
theorem calm_splitTermLower (t : Str) : Calm (splitTermLower t) := by unfold splitTermLower; calm [calm_splitTerm _]
theorem calm_termIs (p r v : Str) : Calm (termIs p r v) := by unfold termIs; calm [calm_splitTermLower _]
theorem calm_localName (s : St) (t : Nat) (n : Str) : Calm (localName s t n) := by unfold localName; calm []
theorem calm_termFindFirst (s : St) (t : Nat) (n : Str) (v : Val) : Calm (termFindFirst s t n v) := by unfold termFindFirst; calm [calm_localName _ _ _]
theorem calm_inSection (s : St) (t : Nat) (x : Option (List Str)) : Calm (inSection s t x) := by
  unfold inSection sectionNameLower; calm []
theorem calm_findTest (s : St) (n : Str) (v : Val) (x : Option (List Str)) (t : Nat) : Calm (findTest s n v x t) := by
  unfold findTest; calm [calm_termIs _ _ _, calm_inSection _ _ _]
theorem calm_filterE {α : Type} {p : α → Except Err Bool} (h : ∀ a, Calm (p a)) (l : List α) : Calm (filterE p l) := by
  induction l with
  | nil => exact .ok _
  | cons a l ih => unfold filterE; calm [h _, ih]
theorem calm_treeF {h : Nat → Obj} (f t : Nat) : Calm (treeF h f t) := by
  induction f generalizing t with
  | zero => exact .error rfl
  | succ f ih => unfold treeF; calm [ih _]
theorem calm_sectionTerms (s : St) (x : Nat) : Calm (sectionTerms s x) := by
  unfold sectionTerms tree; calm [calm_treeF _ _]
theorem calm_allTerms (s : St) : Calm (allTerms s) := by unfold allTerms; calm [calm_sectionTerms _ _]
theorem calm_findOne (s : St) (n : Str) (v : Val) (x : Option (List Str)) : Calm (findOne s n v x) := by
  unfold findOne; calm [calm_allTerms _, calm_filterE (calm_findTest _ _ _ _) _]
theorem calm_find (s : St) (n : Str) (v : Val) (x : Option (List Str)) : Calm (find s n v x) := by
  unfold find findList; calm [calm_findOne _ _ _ _]
theorem calm_findFirst (s : St) (n : Str) (v : Val) (x : Option (List Str)) : Calm (findFirst s n v x) := by
  unfold findFirst; calm [calm_find _ _ _ _]
theorem calm_findFirstValue (s : St) (n : Str) (v : Val) (x : Option (List Str)) : Calm (findFirstValue s n v x) := by
  unfold findFirstValue; calm [calm_findFirst _ _ _ _]
theorem calm_docGetValue (s : St) (n : Str) (v : Val) (x : Option (List Str)) : Calm (docGetValue s n v x) := by
  unfold docGetValue; calm [calm_findFirst _ _ _ _]
theorem calm_sectionFindFirst (s : St) (x : Nat) (n : Str) (v : Val) : Calm (sectionFindFirst s x n v) := by
  unfold sectionFindFirst; calm [calm_findFirst _ _ _ _]
theorem calm_termGetItem (s : St) (t : Nat) (n : Str) : Calm (termGetItem s t n) := by
  unfold termGetItem; calm [calm_termFindFirst _ _ _ _]
theorem calm_getItem (s : St) (t : Nat) (n : Str) : Calm (getItem s t n) := by
  unfold getItem; calm [calm_sectionFindFirst _ _ _ _, calm_termGetItem _ _ _]
theorem calm_termGetValue (s : St) (t : Nat) (n : Str) (v : Val) : Calm (termGetValue s t n v) := by
  unfold termGetValue
  have := calm_getItem s t n
  calm []
  next e h1 h2 h => exact .error (this _ h)
theorem calm_getSection (s : St) (n : Str) : Calm (getSection s n) := by unfold getSection; calm []
theorem calm_versionTerm (s : St) : Calm (versionTerm s) := by
  unfold versionTerm; calm [calm_getSection _ _, calm_sectionFindFirst _ _ _ _]
theorem calm_hasSemver (s : St) : Calm (hasSemver s) := by
  unfold hasSemver; calm [calm_versionTerm _, calm_termFindFirst _ _ _ _]
theorem calm_fmtVal (v : Val) : Calm (fmtVal v) := by unfold fmtVal; calm []
theorem calm_nameParts (f : Str → Str) (l : List Val) : Calm (nameParts f l) := by
  induction l with
  | nil => exact .ok _
  | cons e es ih => unfold nameParts; calm [calm_fmtVal _, ih]
theorem calm_sectionArgs (s : St) (v : Val) : Calm (sectionArgs s v) := by unfold sectionArgs; calm []

/-- The computation raises no `MetatabError` and renames no object. -/
def Hushed {α : Type} (m : M α) : Prop := ∀ s, s.next ≤ (m s).st.next ∧ (∀ i < s.next, ((m s).st.heap i).pt = (s.heap i).pt) ∧
  ∀ e s', m s = .err e s' → e.isMetatab = false

namespace Hushed
variable {α β : Type}
theorem pure (a : α) : Hushed (Pure.pure a : M α) := fun s => ⟨Nat.le_refl _, fun _ _ => rfl, fun e s' h => by cases h⟩
theorem raise {e : Err} (h : e.isMetatab = false) : Hushed (M.raise e : M α) := fun s => ⟨Nat.le_refl _, fun _ _ => rfl, fun e s' h' => by cases h'; exact h⟩
theorem get : Hushed M.get := fun s => ⟨Nat.le_refl _, fun _ _ => rfl, fun e s' h => by cases h⟩
theorem obj (i : Nat) : Hushed (obj i) := fun s => ⟨Nat.le_refl _, fun _ _ => rfl, fun e s' h => by cases h⟩
theorem assert (b : Bool) : Hushed (M.assert b) := fun s => by
  rw [assert_run]
  cases b with
  | true => exact ⟨Nat.le_refl _, fun _ _ => rfl, fun e s' h => by cases h⟩
  | false => exact ⟨Nat.le_refl _, fun _ _ => rfl, fun e s' h => by cases h; rfl⟩
theorem lift {f : St → Except Err α} (h : ∀ s, Calm (f s)) : Hushed (M.lift f) := fun s => by
  rw [lift_run]
  have := h s
  cases hf : f s with
  | ok a => exact ⟨Nat.le_refl _, fun _ _ => rfl, fun e s' h => by cases h⟩
  | error e => exact ⟨Nat.le_refl _, fun _ _ => rfl, fun e s' h => by cases h; exact this _ hf⟩
theorem upd {i : Nat} {f : Obj → Obj} (h : ∀ o, (f o).pt = o.pt) : Hushed (upd i f) := fun s => by
  refine ⟨Nat.le_refl _, fun j _ => ?_, fun e s' h => by cases h⟩
  show ((s.setObj i _).heap j).pt = _
  rw [heap_setObj]
  split
  · next e => rw [h, e]
  · rfl
theorem alloc (o : Obj) : Hushed (alloc o) := fun s => by
  refine ⟨Nat.le_succ _, fun j hj => ?_, fun e s' h => by cases h⟩
  show ((s.setObj s.next _).heap j).pt = _
  rw [heap_setObj, if_neg (Nat.ne_of_lt hj)]
theorem modify {f : St → St} (h : ∀ s, (f s).next = s.next ∧ (f s).heap = s.heap) : Hushed (M.modify f) := fun s =>
  ⟨Nat.le_of_eq (h s).1.symm, fun i _ => by show ((f s).heap i).pt = _; rw [(h s).2], fun e s' h => by cases h⟩
theorem bind {m : M α} {f : α → M β} (hm : Hushed m) (hf : ∀ a, Hushed (f a)) : Hushed (m >>= f) := fun s => by
  have h1 := hm s
  rw [bind_run]
  cases h : m s with
  | err e s1 => rw [h] at h1; exact ⟨h1.1, h1.2.1, fun e' s' h' => by cases h'; exact h1.2.2 _ _ rfl⟩
  | ok a s1 =>
    rw [h] at h1
    have h2 := hf a s1
    exact ⟨Nat.le_trans h1.1 h2.1, fun i hi => (h2.2.1 i (Nat.lt_of_lt_of_le hi h1.1)).trans (h1.2.1 i hi), h2.2.2⟩
theorem ite {c : Prop} [Decidable c] {m n : M α} (hm : Hushed m) (hn : Hushed n) : Hushed (if c then m else n) := by split <;> assumption
theorem forL {f : α → M Unit} (h : ∀ a, Hushed (f a)) (l : List α) : Hushed (forL f l) := by
  induction l with
  | nil => exact pure _
  | cons a l ih => unfold Metatab.forL; exact bind (h a) fun _ => ih
end Hushed

/-- Split a computation into its steps and close the steps named. -/
macro "quiet " "[" ls:term,* "]" : tactic => do
  let alts ← ls.getElems.mapM fun l => `(tactic| exact $l)
  `(tactic| repeat' first
      | exact Hushed.pure _ | exact Hushed.raise rfl | exact Hushed.get | exact Hushed.obj _ | exact Hushed.assert _
      | exact Hushed.upd fun _ => rfl | exact Hushed.alloc _ | exact Hushed.modify fun _ => ⟨rfl, rfl⟩
      $[| $alts:tactic]*
      | refine Hushed.forL ?_ _ | refine Hushed.bind ?_ ?_ | refine Hushed.ite ?_ ?_ | with_reducible intro _ | split | dsimp only)

theorem quiet_setTvn (t : Nat) (v : Str) : Hushed (setTvn t v) := by unfold setTvn; quiet []
theorem quiet_newTermObj (c : Cls) (n : Str) (v : Val) (a : List Str) (p x : Option Nat) (col : Nat) (b : Bool) :
    Hushed (newTermObj c n v a p x col b) := by
  unfold newTermObj; quiet [Hushed.lift fun _ => calm_splitTermLower _]
theorem quiet_newSectionObj (n : Str) (v : Val) (a : List Str) (b : Bool) : Hushed (newSectionObj n v a b) := by
  unfold newSectionObj; quiet [Hushed.lift fun _ => calm_sectionArgs _ _, quiet_newTermObj _ _ _ _ _ _ _ _]
theorem quiet_construct (c : Cls) (n : Str) (v : Val) (p x : Option Nat) : Hushed (construct c n v p x) := by
  unfold construct; quiet [Hushed.lift fun _ => calm_sectionArgs _ _, quiet_newTermObj _ _ _ _ _ _ _ _, quiet_newSectionObj _ _ _ _]
theorem quiet_newChild0 (t : Nat) (n : Str) (v : Val) : Hushed (newChild0 t n v) := by
  unfold newChild0; quiet [quiet_construct _ _ _ _ _, quiet_setTvn _ _]
theorem quiet_newChildren (t : Nat) (kw : List (Str × Val)) : Hushed (newChildren t kw) := by
  unfold newChildren; quiet [quiet_newChild0 _ _ _]
theorem quiet_getOrNewChild0 (t : Nat) (n : Str) (v : Val) : Hushed (getOrNewChild0 t n v) := by
  unfold getOrNewChild0; quiet [quiet_construct _ _ _ _ _, Hushed.lift fun _ => calm_splitTerm _]
theorem quiet_setItemSome (t : Nat) (n : Str) (v : Val) : Hushed (setItemSome t n v) := by
  unfold setItemSome; quiet [quiet_getOrNewChild0 _ _ _, Hushed.lift fun _ => calm_termGetItem _ _ _]
theorem quiet_setSectionTerm (t v : Nat) : Hushed (setSectionTerm t v) := by
  unfold setSectionTerm; quiet [quiet_setItemSome _ _ _]
theorem quiet_addSection (x : Nat) : Hushed (addSection x) := by unfold addSection; quiet []
theorem quiet_setOwnershipF (f t : Nat) : Hushed (setOwnershipF f t) := by
  induction f generalizing t with
  | zero => exact .raise rfl
  | succ f ih => unfold setOwnershipF; quiet [ih _]
theorem quiet_setOwnership (t : Nat) : Hushed (setOwnership t) := by unfold setOwnership; quiet [quiet_setOwnershipF _ _]
theorem quiet_addTermFinish (t : Nat) : Hushed (addTermFinish t) := by unfold addTermFinish; quiet [quiet_setTvn _ _]
theorem quiet_docAddTermCore (t : Nat) : Hushed (docAddTermCore t) := by
  unfold docAddTermCore; quiet [quiet_addSection _, quiet_addTermFinish _]

/-- The computation returns an object that exists. -/
def Fresh_ (m : M Nat) : Prop := ∀ s i s', m s = .ok i s' → i < s'.next

theorem exists_alloc (o : Obj) : Fresh_ (alloc o) := fun s i s' h => by cases h; exact Nat.lt_succ_self _
theorem exists_newTermObj (c : Cls) (n : Str) (v : Val) (a : List Str) (x : Option Nat) (col : Nat) (b : Bool) :
    Fresh_ (newTermObj c n v a none x col b) := fun s i s' h => by
  unfold newTermObj at h
  rw [bind_run, lift_run] at h
  cases hs : splitTermLower n with
  | error e => rw [hs] at h; cases h
  | ok pr => rw [hs] at h; exact exists_alloc _ _ _ _ h
theorem exists_construct (c : Cls) (n : Str) (v : Val) (x : Nat) : Fresh_ (construct c n v none (some x)) := fun s i s' h => by
  unfold construct at h
  cases c with
  | term => exact exists_newTermObj _ _ _ _ _ _ _ _ _ _ h
  | user n => exact exists_newTermObj _ _ _ _ _ _ _ _ _ _ h
  | root => cases h
  | «section» =>
    simp only [Option.isSome_some, or_true, if_true, bind_run, lift_run] at h
    split at h <;> cases h

/-- A computation that raises no `MetatabError` in this state. -/
abbrev CalmAt {α : Type} (m : M α) (s : St) : Prop := wp m (fun _ _ => True) (fun e _ => e.isMetatab = false) s

theorem Hushed.bindAt {α β : Type} {m : M α} {f : α → M β} {s : St} (hm : Hushed m)
    (hf : ∀ a s', s.next ≤ s'.next → (∀ i < s.next, (s'.heap i).pt = (s.heap i).pt) → CalmAt (f a) s') : CalmAt (m >>= f) s := by
  have q := hm s
  show wp _ _ _ _
  unfold wp
  rw [bind_run]
  cases h : m s with
  | err e s1 => exact q.2.2 _ _ h
  | ok a s1 =>
    rw [h] at q
    exact hf a s1 q.1 q.2.1

theorem Hushed.at {α : Type} {m : M α} (hm : Hushed m) (s : St) : CalmAt m s := by
  show wp _ _ _ _
  unfold wp
  have q := hm s
  cases h : m s with
  | err e s1 => exact q.2.2 _ _ h
  | ok a s1 => trivial

theorem calm_sectionAddTerm {x t : Nat} {s : St} (ht : lower (s.heap t).pt = ROOT) : CalmAt (sectionAddTerm x t) s := by
  unfold sectionAddTerm
  have fin : Hushed (do let o ← obj t; M.assert (o.sec.isSome ∨ o.joinLc = py!"root.root")) := by quiet []
  show wp _ _ _ _
  rw [wp_bind, wp_get]
  dsimp only
  split
  · exact ((Hushed.upd (i := x) (f := fun o => { o with terms := o.terms ++ [t] }) fun _ => rfl).bind fun _ => (quiet_docAddTermCore t).bind fun _ => (quiet_setOwnership t).bind fun _ => fin).at s
  · exact fin.at s

/-- Adding an existing object to the document. -/
theorem calm_docAddTerm {t : Nat} {s : St} (ht : t < s.next) : CalmAt (docAddTerm t) s := by
  unfold docAddTerm
  have fin : ∀ s' : St, CalmAt (addTermFinish t) s' := fun s' => (quiet_addTermFinish t).at s'
  have root : ∀ x s', lower (s.heap t).pt = ROOT → t < s'.next → (s'.heap t).pt = (s.heap t).pt → CalmAt (do
      let y ← addSection x
      setSectionTerm t y
      let o ← obj t
      match o.sec with
      | some z => do
        sectionAddTerm z t
        addTermFinish t
      | none => do
        M.raise .attributeError
        addTermFinish t) s' := by
    intro x s1 hp h1 h2
    refine (quiet_addSection x).bindAt fun y s2 n2 p2 => (quiet_setSectionTerm t y).bindAt fun _ s3 n3 p3 => (Hushed.obj t).bindAt fun o s4 n4 p4 => ?_
    split
    · show wp _ _ _ _
      rw [wp_bind]
      exact wp_mono (calm_sectionAddTerm (by rw [p4 t (by omega), p3 t (by omega), p2 t (by omega), h2, hp])) (fun _ s' _ => fin s') fun _ _ h => h
    · exact ((Hushed.raise rfl).bind fun _ => quiet_addTermFinish t).at _
  show wp _ _ _ _
  rw [wp_bind, wp_get]
  dsimp only
  split
  · trivial
  refine (Hushed.assert _).bindAt fun _ s1 n1 p1 => ?_
  have main : ∀ s1 : St, s.next ≤ s1.next → (∀ i < s.next, (s1.heap i).pt = (s.heap i).pt) → CalmAt (match (s.heap t).sec with
      | some x =>
        if lower (s.heap t).pt = ROOT then do
          let y ← addSection x
          setSectionTerm t y
          let o ← obj t
          match o.sec with
          | some z => do
            sectionAddTerm z t
            addTermFinish t
          | none => do
            M.raise .attributeError
            addTermFinish t
        else addTermFinish t
      | none => addTermFinish t) s1 := by
    intro s1 n1 p1
    split
    · split
      · next hp => exact root _ s1 hp (by omega) (p1 t ht)
      · exact fin _
    · exact fin _
  split
  · exact (quiet_addSection t).bindAt fun _ s2 n2 p2 => main s2 (by omega) fun i hi => (p2 i (by omega)).trans (p1 i hi)
  · exact (Hushed.modify (f := fun s => { s with terms := s.terms ++ [t] }) fun _ => ⟨rfl, rfl⟩).bindAt fun _ s2 n2 p2 => main s2 (by omega) fun i hi => (p2 i (by omega)).trans (p1 i hi)

theorem calm_newTerm {x : Nat} {n : Str} {v : Val} {kw : List (Str × Val)} {s : St} {e : Err} {s' : St} (h : newTerm x n v kw s = .err e s') :
    e.isMetatab = false := by
  unfold newTerm at h
  rw [bind_run, get_run] at h
  simp only [bind_run] at h
  have q := quiet_construct (docTermClass s (lower n)) n v none (some x) s
  cases h1 : construct (docTermClass s (lower n)) n v none (some x) s with
  | err e1 s1 => rw [h1] at h; cases h; exact q.2.2 _ _ h1
  | ok t s1 =>
    rw [h1] at h
    have ht := exists_construct _ _ _ _ _ _ _ h1
    simp only at h
    have q2 := quiet_newChildren t kw s1
    cases h2 : newChildren t kw s1 with
    | err e2 s2 => rw [h2] at h; cases h; exact q2.2.2 _ _ h2
    | ok u s2 =>
      rw [h2] at h q2
      simp only at h
      cases h3 : docAddTerm t s2 with
      | err e3 s3 => rw [h3] at h; cases h; exact wp_err (calm_docAddTerm (Nat.lt_of_lt_of_le ht q2.1)) h3
      | ok u s3 => rw [h3] at h; cases h

theorem quiet_versionPart (v : Nat) (n : Str) (p : Option Nat) : Hushed (versionPart v n p) := by
  unfold versionPart; quiet [quiet_newChild0 _ _ _]
theorem quiet_versionString (v : Nat) : Hushed (versionString v) := by
  unfold versionString; quiet [Hushed.lift fun _ => calm_termFindFirst _ _ _ _, Hushed.lift fun _ => calm_fmtVal _]
theorem quiet_updateVersion : Hushed updateVersion := by
  unfold updateVersion
  quiet [Hushed.lift fun _ => calm_versionTerm _, Hushed.lift fun _ => calm_termFindFirst _ _ _ _, quiet_versionPart _ _ _, quiet_versionString _]
theorem calm_moddedVersion {mod : ModVer} (h : mod = .keep ∨ mod = .drop) (v : Val) : Calm (moddedVersion v mod) := by
  rcases h with rfl | rfl <;> exact .ok _
theorem quiet_identityName {mod : ModVer} (h : mod = .keep ∨ mod = .drop) : Hushed (identityName mod) := by
  unfold identityName
  quiet [Hushed.lift fun _ => Calm.mapM (fun _ => calm_findFirstValue _ _ _ _) _, quiet_updateVersion, Hushed.lift fun _ => calm_hasSemver _,
    Hushed.lift fun _ => calm_getSection _ _, Hushed.lift fun _ => calm_termGetValue _ _ _ _, Hushed.lift fun _ => calm_moddedVersion h _,
    Hushed.lift fun _ => calm_sectionFindFirst _ _ _ _, Hushed.lift fun _ => calm_nameParts _ _]
theorem quiet_setName {mod : ModVer} (h : mod = .keep ∨ mod = .drop) (f r : Bool) (t : Nat) : Hushed (setName f r mod t) := by
  unfold setName
  quiet [Hushed.lift fun _ => calm_docGetValue _ _ _ _, quiet_identityName h]

theorem calmAt_newTerm (x : Nat) (n : Str) (v : Val) (kw : List (Str × Val)) (s : St) : CalmAt (newTerm x n v kw) s := by
  show wp _ _ _ _
  unfold wp
  cases h : newTerm x n v kw s with
  | ok a s' => trivial
  | err e s' => exact calm_newTerm h

theorem CalmAt.bind {α β : Type} {m : M α} {f : α → M β} {s : St} (hm : CalmAt m s) (hf : ∀ a s', CalmAt (f a) s') : CalmAt (m >>= f) s := by
  show wp _ _ _ _
  rw [wp_bind]
  exact wp_mono hm (fun a s' _ => hf a s') fun _ _ h => h

theorem calmAt_ensureIdentifier (s : St) : CalmAt ensureIdentifier s := by
  unfold ensureIdentifier
  have fin : ∀ t, Hushed (do
      let o ← obj t
      if !o.value.truthy then do
        let s ← M.get
        upd t fun o => { o with value := .str (s.env.uuid s.next) }
      let o ← obj t
      M.assert o.value.truthy) := fun t => by quiet []
  refine CalmAt.bind ((Hushed.lift fun _ => calm_findFirst _ _ _ _).at s) fun a s1 => ?_
  cases a with
  | some t => exact (fin t).at s1
  | none =>
    exact CalmAt.bind ((Hushed.lift fun _ => calm_getSection _ _).at _) fun x s2 => CalmAt.bind (calmAt_newTerm _ _ _ _ _) fun t s3 => (fin t).at s3

theorem calmAt_nameTerm (c : Bool) (s : St) : CalmAt (nameTerm c) s := by
  unfold nameTerm
  refine CalmAt.bind ((Hushed.lift fun _ => calm_findFirst _ _ _ _).at s) fun a s1 => ?_
  cases a with
  | some t => exact (Hushed.pure _).at s1
  | none =>
    cases c with
    | false => exact (Hushed.pure _).at s1
    | true =>
      exact CalmAt.bind ((Hushed.lift fun _ => calm_getSection _ _).at _) fun x s2 => CalmAt.bind (calmAt_newTerm _ _ _ _ _) fun t s3 => (Hushed.pure _).at s3

theorem calmAt_updateName {mod : ModVer} (h : mod = .keep ∨ mod = .drop) (f c r : Bool) (s : St) : CalmAt (updateName f c r mod) s := by
  unfold updateName
  refine CalmAt.bind (calmAt_ensureIdentifier s) fun _ s1 => CalmAt.bind (calmAt_nameTerm c s1) fun a s2 => ?_
  cases a with
  | none => exact (Hushed.pure _).at s2
  | some t => exact (quiet_setName h f r t).at s2

end Metatab
