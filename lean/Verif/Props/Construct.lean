import Verif.Model.Construct
import Verif.Lemmas.Fixed
import Verif.Props.DeclTables
import Verif.Props.DocName
import Verif.Lemmas.Examples
/-! # C93: declarations given to the constructor -/
namespace Metatab
open Py _root_.Spec

/-! ## Terms of declare files are not loaded -/

/-- Whatever the state, a result satisfies `P`. -/
def Rets {α : Type} (P : α → Prop) (m : M α) : Prop := ∀ s a s', m s = .ok a s' → P a
theorem Rets.pure {α : Type} {P : α → Prop} {a : α} (h : P a) : Rets P (Pure.pure a : M α) := fun s b s' e => by cases e; exact h
theorem Rets.raise {α : Type} {P : α → Prop} {e : Err} : Rets P (M.raise e : M α) := fun s b s' h => by cases h
theorem Rets.bind {α β : Type} {P : β → Prop} {m : M α} {f : α → M β} (h : ∀ a, Rets P (f a)) : Rets P (m >>= f) := fun s b s' e => by
  obtain ⟨a, s1, -, e⟩ := bind_ok.1 e
  exact h a _ _ _ e

theorem assert_same {b : Bool} {u : Unit} {s s' : St} (h : M.assert b s = .ok u s') : s' = s := by
  rw [assert_run] at h
  cases b
  · cases h
  · cases h; rfl

theorem newTermObj_decl {c : Cls} {n : Str} {v : Val} {a : List Str} {p x : Option Nat} {col t : Nat} {d : Bool} {s s' : St}
    (h : newTermObj c n v a p x col d s = .ok t s') : t < s'.next ∧ (s'.heap t).isDecl = d := by
  unfold newTermObj at h
  rw [bind_run, lift_run] at h
  cases hsp : splitTermLower n with
  | error e => rw [hsp] at h; cases h
  | ok pr =>
    rw [hsp] at h
    dsimp only at h
    have fin : ∀ o : Obj, o.isDecl = d → alloc o s = .ok t s' → t < s'.next ∧ (s'.heap t).isDecl = d := by
      intro o ho h
      cases h
      exact ⟨Nat.lt_succ_self _, by show (({ s with next := s.next + 1 }.setObj s.next o).heap s.next).isDecl = d; rw [heap_setObj, if_pos rfl]; exact ho⟩
    cases p with
    | none => exact fin _ rfl h
    | some q =>
      dsimp only at h
      rw [bind_run, obj_run] at h
      dsimp only at h
      obtain ⟨u, s1, hu, h⟩ := bind_ok.1 h
      rw [assert_same hu] at h
      exact fin _ rfl h

theorem newSectionObj_decl {n : Str} {v : Val} {a : List Str} {t : Nat} {d : Bool} {s s' : St}
    (h : newSectionObj n v a d s = .ok t s') : t < s'.next ∧ (s'.heap t).isDecl = d := by
  unfold newSectionObj at h
  have fin : ∀ (l : List Str) (s : St), (do
      let i ← newTermObj Cls.section n v l none none 1 d
      let o ← obj i
      M.assert (decide (o.joinLc = py!"root.section" ∨ o.joinLc = py!"root.root"))
      pure i : M Nat) s = .ok t s' → t < s'.next ∧ (s'.heap t).isDecl = d := by
    intro l s h
    obtain ⟨i, s2, hi, h⟩ := bind_ok.1 h
    rw [bind_run, obj_run] at h
    dsimp only at h
    obtain ⟨u, s3, hu, h⟩ := bind_ok.1 h
    cases h
    rw [assert_same hu]
    exact newTermObj_decl hi
  by_cases ha : a ≠ []
  · rw [if_pos ha] at h
    exact fin _ _ h
  · rw [if_neg ha] at h
    obtain ⟨l, s1, -, h⟩ := bind_ok.1 h
    exact fin _ _ h

theorem rowTerm_decl {row : List Str} {t : Nat} {d : Bool} {s s' : St} (h : rowTerm d row s = .ok t s') : t < s'.next ∧ (s'.heap t).isDecl = d := by
  unfold rowTerm at h
  obtain ⟨n, s1, -, h⟩ := bind_ok.1 h
  rw [bind_run, get_run] at h
  dsimp only at h
  generalize parserTermClass s1 _ = c at h
  cases c with
  | «section» => exact newSectionObj_decl h
  | root => cases h
  | term => exact newTermObj_decl h
  | user n => exact newTermObj_decl h

theorem argTerm_decl {q col t : Nat} {v : Str} {d : Bool} {s s' : St} (h : argTerm d q col v s = .ok t s') : t < s'.next ∧ (s'.heap t).isDecl = d := by
  unfold argTerm at h
  rw [bind_run, get_run] at h
  dsimp only at h
  generalize parserTermClass s _ = c at h
  cases c with
  | «section» => cases h
  | root => cases h
  | term => exact newTermObj_decl h
  | user n => exact newTermObj_decl h

/-- A term of a declare file is not handed on by the parser. -/
theorem iterBody_decl {s s' : St} {t : Nat} {y : Bool} (ht : t < s.next) (hd : (s.heap t).isDecl = true) (h : iterBody t s = .ok y s') : y = false := by
  unfold iterBody at h
  rw [bind_run, get_run] at h
  dsimp only at h
  obtain ⟨pr, s0, h0, h⟩ := bind_ok.1 h
  obtain ⟨-, e0⟩ := lift_ok.1 h0
  rw [e0] at h
  obtain ⟨u, s1, h1, h⟩ := bind_ok.1 h
  obtain ⟨u2, s2, h2, h⟩ := bind_ok.1 h
  have f1 : Fixed s s1 := by
    have := fx_upd (t := t) (f := fun o => { o with pt := pr.1, rt := remapRecord s.p.paramMap pr.2 }) (fun _ => ⟨rfl, rfl, rfl, rfl, rfl⟩) s
    rw [h1] at this; exact this
  have f2 : Fixed s1 s2 := by
    have := fx_setSection t (some s.p.lastSec) s1
    rw [h2] at this; exact this
  have hd2 : (s2.heap t).isDecl = true := by
    rw [(f2.birth t (Nat.lt_of_lt_of_le ht f1.next)).isDecl, (f1.birth t ht).isDecl, hd]
  rw [bind_run, obj_run] at h
  dsimp only at h
  rw [hd2] at h
  refine (?_ : Rets (fun y => y = false) _) _ _ _ h
  have R : ∀ (m : M Unit), Rets (fun y : Bool => y = false) (m >>= fun _ => if true = true then (do manageDeclare t; return false) else return true) :=
    fun m => .bind fun _ => by rw [if_pos rfl]; exact .bind fun _ => .pure rfl
  have R' : Rets (fun y : Bool => y = false) (if true = true then (do manageDeclare t; return false) else return true) := by
    rw [if_pos rfl]; exact .bind fun _ => .pure rfl
  split
  · refine .bind fun _ => ?_
    split
    · exact .bind fun _ => .bind fun _ => .pure rfl
    · exact .raise
  · repeat' first | exact R' | exact .raise | refine .bind fun _ => ?_ | split

theorem consume_decl {s : St} {t : Nat} (ht : t < s.next) (hd : (s.heap t).isDecl = true) : consume true t s = consume false t s := by
  unfold consume
  rw [bind_run, bind_run]
  cases hb : iterBody t s with
  | err e s1 => rfl
  | ok y s1 =>
    rw [iterBody_decl ht hd hb]
    rfl

theorem argLoop_decl {t : Nat} : ∀ {vs : List Str} {col : Nat} {s : St}, argLoop true true t col vs s = argLoop false true t col vs s
  | [], _, _ => rfl
  | v :: vs, col, s => by
    unfold argLoop
    by_cases hv : strip v ≠ []
    · rw [if_pos hv, if_pos hv, bind_run, bind_run]
      cases ha : argTerm true t col v s with
      | err e s1 => rfl
      | ok c s1 =>
        dsimp only
        rw [bind_run, bind_run, consume_decl (argTerm_decl ha).1 (argTerm_decl ha).2]
        cases consume false c s1 with
        | err e s2 => rfl
        | ok u s2 => exact argLoop_decl
    · rw [if_neg hv, if_neg hv]
      exact argLoop_decl

theorem yieldWithArgs_decl {s : St} {t : Nat} (ht : t < s.next) (hd : (s.heap t).isDecl = true) :
    yieldWithArgs true true t s = yieldWithArgs false true t s := by
  unfold yieldWithArgs
  rw [bind_run, bind_run, consume_decl ht hd]
  cases consume false t s with
  | err e s1 => rfl
  | ok u s1 =>
    dsimp only
    rw [bind_run, bind_run, obj_run]
    dsimp only
    split
    · rfl
    · exact argLoop_decl

/-! ## The sections of a declare file -/

/-- All sections but the root section come from a declare file, and none of them is called `Root`. -/
structure Drafts (s : St) : Prop where
  pos : 0 < s.next
  objs : ∀ x, (s.heap x).cls.isSection = true → x < s.next ∧ (x = 0 ∨ (s.heap x).isDecl = true) ∧
    ∀ n, (s.heap x).value = .str n → (lower n = py!"root" ↔ x = 0)
  listed : ∀ kv ∈ s.sections, kv.1 ≠ py!"root" → kv.2 < s.next ∧ (s.heap kv.2).isDecl = true

/-- `Drafts` is kept. -/
def KeepDrafts (s s' : St) : Prop := Drafts s → Drafts s'

instance : Pre KeepDrafts where
  refl _ := id
  trans h1 h2 := h2 ∘ h1

/-- The object is the same to `Drafts`, unless it gets a value that is no string. -/
structure SameObjects (o o' : Obj) : Prop where
  cls : o'.cls = o.cls
  decl : o'.isDecl = o.isDecl
  value : ∀ n, o'.value = .str n → o.value = .str n

theorem kd_upd (t : Nat) {f : Obj → Obj} (h : ∀ o, SameObjects o (f o)) : Pres KeepDrafts (upd t f) := by
  intro s d
  have key : ∀ x, SameObjects (s.heap x) ((s.setObj t (f (s.heap t))).heap x) := by
    intro x
    rw [heap_setObj]
    by_cases hx : x = t
    · rw [if_pos hx, hx]; exact h _
    · rw [if_neg hx]; exact ⟨rfl, rfl, fun _ h => h⟩
  refine ⟨d.pos, fun x hx => ?_, fun kv hkv hne => ?_⟩
  · obtain ⟨h1, h2, h3⟩ := d.objs x (by rw [← (key x).cls]; exact hx)
    exact ⟨h1, h2.imp_right fun e => (key x).decl.trans e, fun n hn => h3 n ((key x).value n hn)⟩
  · obtain ⟨h1, h2⟩ := d.listed kv hkv hne
    exact ⟨h1, (key kv.2).decl.trans h2⟩
theorem drafts_alloc {o : Obj} {s : St} (d : Drafts s)
    (h : o.cls.isSection = true → o.isDecl = true ∧ ∀ n, o.value = .str n → lower n ≠ py!"root") :
    Drafts ({ s with next := s.next + 1 }.setObj s.next o) := by
  refine ⟨Nat.succ_pos _, fun x hx => ?_, fun kv hkv hne => ?_⟩
  · rw [heap_setObj] at hx ⊢
    show x < s.next + 1 ∧ _
    by_cases e : x = s.next
    · rw [if_pos e] at hx ⊢
      obtain ⟨h1, h2⟩ := h hx
      exact ⟨by omega, .inr h1, fun n hn => ⟨fun q => absurd q (h2 n hn), fun q => absurd (e.symm.trans q) (Nat.ne_of_gt d.pos)⟩⟩
    · rw [if_neg e] at hx ⊢
      obtain ⟨h1, h2⟩ := d.objs x hx
      exact ⟨by omega, h2⟩
  · obtain ⟨h1, h2⟩ := d.listed kv hkv hne
    rw [heap_setObj]
    show kv.2 < s.next + 1 ∧ _
    rw [if_neg (Nat.ne_of_lt h1)]
    exact ⟨by omega, h2⟩
theorem kd_alloc {o : Obj} (h : o.cls.isSection = false) : Pres KeepDrafts (alloc o) := fun s d =>
  drafts_alloc d fun q => by rw [h] at q; cases q
theorem kd_updP (f : PSt → PSt) : Pres KeepDrafts (updP f) := fun _ d => ⟨d.pos, d.objs, d.listed⟩
theorem kd_terms (f : St → List Nat) : Pres KeepDrafts (M.modify fun s => { s with terms := f s }) := fun _ d => ⟨d.pos, d.objs, d.listed⟩

/-- Split a computation into its steps and close the steps named. -/
macro "presD " "[" ls:term,* "]" : tactic => do
  let alts ← ls.getElems.mapM fun l => `(tactic| exact $l)
  `(tactic| repeat' first
      | exact Pres.pure _ | exact Pres.mpure _ | exact Pres.raise _ | exact Pres.get | exact Pres.obj _ | exact Pres.lift _
      | exact Pres.assert _ | exact kd_upd _ fun _ => ⟨rfl, rfl, fun _ h => h⟩ | exact kd_alloc rfl | exact kd_updP _ | exact kd_terms _
      $[| $alts:tactic]*
      | refine Pres.forL ?_ _ | refine Pres.bind ?_ ?_ | refine Pres.ite ?_ ?_ | with_reducible intro _ | split | dsimp only)

theorem kd_setTvn (t : Nat) (v : Str) : Pres KeepDrafts (setTvn t v) := by
  unfold setTvn; presD []
theorem kd_newTermObj {c : Cls} (h : c.isSection = false) (n : Str) (v : Val) (a : List Str) (p x : Option Nat) (col : Nat) (b : Bool) :
    Pres KeepDrafts (newTermObj c n v a p x col b) := by
  unfold newTermObj; presD [kd_alloc h]
theorem kd_construct (c : Cls) (n : Str) (v : Val) {p x : Option Nat} (h : p.isSome ∨ x.isSome) : Pres KeepDrafts (construct c n v p x) := by
  unfold construct
  cases c with
  | term => exact kd_newTermObj rfl _ _ _ _ _ _ _
  | user k => exact kd_newTermObj rfl _ _ _ _ _ _ _
  | root => exact Pres.raise _
  | «section» => dsimp only; rw [if_pos h]; presD []
theorem kd_newChild0 (t : Nat) (n : Str) (v : Val) : Pres KeepDrafts (newChild0 t n v) := by
  unfold newChild0; presD [kd_construct _ _ _ (.inl rfl), kd_setTvn _ _]
theorem kd_newChildren (t : Nat) (kw : List (Str × Val)) : Pres KeepDrafts (newChildren t kw) := by
  unfold newChildren; presD [kd_newChild0 _ _ _]
theorem kd_value {v : Val} (hv : ∀ n, v ≠ .str n) (t : Nat) : Pres KeepDrafts (upd t fun o => { o with value := v }) :=
  kd_upd _ fun _ => ⟨rfl, rfl, fun n h => absurd h (hv n)⟩
theorem kd_getOrNewChild0 (t : Nat) (n : Str) {v : Val} (hv : ∀ n, v ≠ .str n) : Pres KeepDrafts (getOrNewChild0 t n v) := by
  unfold getOrNewChild0; presD [kd_construct _ _ _ (.inl rfl), kd_value hv _]
theorem kd_setItemSome (t : Nat) (n : Str) {v : Val} (hv : ∀ n, v ≠ .str n) : Pres KeepDrafts (setItemSome t n v) := by
  unfold setItemSome; presD [kd_getOrNewChild0 _ _ hv, kd_value hv _]
theorem kd_setSectionTerm (t v : Nat) : Pres KeepDrafts (setSectionTerm t v) := by
  unfold setSectionTerm; presD [kd_setItemSome _ _ (fun _ h => by cases h), kd_value (fun _ h => by cases h) _]
theorem kd_addSection (x : Nat) : Pres KeepDrafts (addSection x) := by
  intro s d
  unfold addSection
  rw [bind_run, obj_run]
  dsimp only
  rw [bind_run, assert_run]
  cases hc : (s.heap x).cls.isSection with
  | false => exact d
  | true =>
    simp only [if_true]
    cases hv : (s.heap x).value with
    | none => exact d
    | int _ => exact d
    | fls => exact d
    | obj _ => exact d
    | str n =>
      dsimp only
      rw [bind_run, get_run]
      dsimp only
      cases hg : s.sections.get? (lower n) with
      | some y => exact d
      | none =>
        refine ⟨d.pos, d.objs, fun kv hkv hne => ?_⟩
        by_cases h : kv ∈ s.sections
        · exact d.listed kv h hne
        · have e : kv = (lower n, x) := by
            have hkv : kv ∈ Dict.set s.sections (lower n) x := hkv
            rw [Dict.set_append (Dict.get?_eq_none.1 hg)] at hkv
            rcases List.mem_append.1 hkv with h' | h'
            · exact absurd h' h
            · exact List.mem_singleton.1 h'
          subst e
          obtain ⟨h1, h2, h3⟩ := d.objs x hc
          have hx : x ≠ 0 := fun e => hne ((h3 n hv).2 e)
          exact ⟨h1, h2.resolve_left hx⟩
theorem kd_setOwnershipF (f t : Nat) : Pres KeepDrafts (setOwnershipF f t) := by
  induction f generalizing t with
  | zero => exact Pres.raise _
  | succ f ih => unfold setOwnershipF; presD [ih _]
theorem kd_setOwnership (t : Nat) : Pres KeepDrafts (setOwnership t) := by
  unfold setOwnership; presD [kd_setOwnershipF _ _]
theorem kd_addTermFinish (t : Nat) : Pres KeepDrafts (addTermFinish t) := by
  unfold addTermFinish; presD [kd_setTvn _ _]
theorem kd_docAddTermCore (t : Nat) : Pres KeepDrafts (docAddTermCore t) := by
  unfold docAddTermCore; presD [kd_addTermFinish _, kd_addSection _]
theorem kd_sectionAddTerm (x t : Nat) : Pres KeepDrafts (sectionAddTerm x t) := by
  unfold sectionAddTerm; presD [kd_docAddTermCore _, kd_setOwnership _]
theorem kd_docAddTerm (t : Nat) : Pres KeepDrafts (docAddTerm t) := by
  unfold docAddTerm; presD [kd_addTermFinish _, kd_addSection _, kd_setSectionTerm _ _, kd_sectionAddTerm _ _]
theorem kd_removeTermF (f t : Nat) : Pres KeepDrafts (removeTermF f t) := by
  induction f generalizing t with
  | zero => exact Pres.raise _
  | succ f ih => unfold removeTermF; presD [ih _, kd_addSection _, kd_setSectionTerm _ _]
theorem kd_removeTerm (t : Nat) : Pres KeepDrafts (removeTerm t) := by
  unfold removeTerm; presD [kd_removeTermF _ _]
theorem kd_removeChild (t c : Nat) : Pres KeepDrafts (removeChild t c) := by
  unfold removeChild; presD [kd_removeTerm _]
theorem kd_setItem (t : Nat) (n : Str) {v : Val} (hv : ∀ n, v ≠ .str n) : Pres KeepDrafts (setItem t n v) := by
  unfold setItem; presD [kd_removeChild _ _, kd_setItemSome _ _ hv]
theorem kd_newTerm (x : Nat) (n : Str) (v : Val) : Pres KeepDrafts (newTerm x n v []) := by
  unfold newTerm; presD [kd_construct _ _ _ (.inr rfl), kd_newChildren _ _, kd_docAddTerm _]
theorem kd_getOrNewTerm (x : Nat) (n : Str) {v : Val} (hv : ∀ n, v ≠ .str n) : Pres KeepDrafts (getOrNewTerm x n v []) := by
  unfold getOrNewTerm forL; presD [kd_newTerm _ _ _, kd_value hv _]
theorem kd_setItemAny (t : Nat) (n : Str) {v : Val} (hv : ∀ n, v ≠ .str n) : Pres KeepDrafts (setItemAny t n v) := by
  unfold setItemAny; presD [kd_getOrNewTerm _ _ hv, kd_setItem _ _ hv]
theorem kd_setSection (t : Nat) (v : Option Nat) : Pres KeepDrafts (setSection t v) := by
  unfold setSection
  cases v with
  | none => presD [kd_setItemAny _ _ (fun _ h => by cases h), kd_value (fun _ h => by cases h) _]
  | some i => presD [kd_setItemAny _ _ (fun _ h => by cases h), kd_value (fun _ h => by cases h) _]
theorem kd_addChild (t c : Nat) : Pres KeepDrafts (addChild t c) := by
  unfold addChild; presD []
theorem kd_applyDecl (t : Nat) : Pres KeepDrafts (applyDecl t) := by
  unfold applyDecl; presD [kd_setTvn _ _]
theorem kd_attach (n : Str) (e : Err) (t : Nat) : Pres KeepDrafts (attach n e t) := by
  unfold attach; presD [kd_addChild _ _]
theorem kd_placeTerm (t : Nat) : Pres KeepDrafts (placeTerm t) := by
  unfold placeTerm; presD [kd_attach _ _ _]
theorem kd_addTermToSection (loop : Bool) (td : DTerm) : Pres KeepDrafts (addTermToSection loop td) := by
  unfold addTermToSection; presD []
theorem kd_inheritLoop (sec tR ihR : Str) (f i : Nat) : Pres KeepDrafts (inheritLoop sec tR ihR f i) := by
  induction f generalizing i with
  | zero => exact Pres.raise _
  | succ f ih => unfold inheritLoop; presD [kd_addTermToSection _ _, ih _]
theorem kd_addInherited (td : DTerm) : Pres KeepDrafts (addInherited td) := by
  unfold addInherited; presD [kd_inheritLoop _ _ _ _ _]
theorem kd_manageDeclare (t : Nat) : Pres KeepDrafts (manageDeclare t) := by
  unfold manageDeclare addDeclaredSection addDeclaredTerm addValueSetValue
  presD [kd_addTermToSection _ _, kd_addInherited _]
theorem kd_iterBody (t : Nat) : Pres KeepDrafts (iterBody t) := by
  unfold iterBody
  presD [kd_setSection _ _, kd_applyDecl _, kd_placeTerm _, kd_sectionAddTerm _ _, kd_manageDeclare _]
theorem kd_consume (t : Nat) : Pres KeepDrafts (consume false t) := by
  unfold consume
  refine Pres.bind (kd_iterBody t) fun y => ?_
  cases y <;> exact Pres.pure _
theorem kd_argTerm (d : Bool) (t col : Nat) (v : Str) : Pres KeepDrafts (argTerm d t col v) := by
  unfold argTerm
  refine Pres.bind Pres.get fun s => ?_
  dsimp only
  generalize parserTermClass s _ = c
  cases c with
  | term => exact kd_newTermObj rfl _ _ _ _ _ _ _
  | user k => exact kd_newTermObj rfl _ _ _ _ _ _ _
  | root => exact Pres.raise _
  | «section» => exact Pres.raise _
theorem kd_argLoop (d : Bool) (t col : Nat) (vs : List Str) : Pres KeepDrafts (argLoop false d t col vs) := by
  induction vs generalizing col with
  | nil => exact Pres.pure _
  | cons v vs ih => unfold argLoop; presD [kd_argTerm _ _ _ _, kd_consume _, ih _]
theorem kd_yield (d : Bool) (t : Nat) : Pres KeepDrafts (yieldWithArgs false d t) := by
  unfold yieldWithArgs; presD [kd_consume _, kd_argLoop _ _ _ _]

theorem kd_ok {α : Type} {m : M α} (h : Pres KeepDrafts m) {s s' : St} {a : α} (e : m s = .ok a s') (d : Drafts s) : Drafts s' := by
  have := h s
  rw [e] at this
  exact this d

/-- A row of a declare file: it is no `Include`, `Declare` or `Root` row, and a section row does not name the root section. -/
def _root_.Spec.DeclRow (row : List Str) : Prop :=
  (∀ n ∈ [py!"root.include", py!"root.declare", py!"root.root"], normalizeTerm (row.headD []) ≠ .ok n) ∧
    (normalizeTerm (row.headD []) = .ok (py!"root.section") → lower (strip ((row[1]?).getD [])) ≠ py!"root")

theorem rowTerm_name {row : List Str} {t : Nat} {d : Bool} {s s' : St} (h : rowTerm d row s = .ok t s') :
    normalizeTerm (row.headD []) = .ok (s'.heap t).joinLc := by
  obtain ⟨p, r, hsp, hp, hrt, -⟩ := rowTerm_ok h
  obtain ⟨q1, q2, q3, q4, q5, q6, q7⟩ := splitTermLower_cases hsp
  have hj : (s'.heap t).joinLc = dotJoin p r := by unfold Obj.joinLc; rw [hp, hrt, q6, q7]
  rw [hj]
  unfold normalizeTerm
  rw [hsp]
  rfl

theorem newTermObj_drafts {n : Str} {v : Val} {a : List Str} {p x : Option Nat} {c : Cls} {col t : Nat} {d : Bool} {s s' : St} (hd : Drafts s)
    (hv : c.isSection = true → d = true ∧ ∀ n, v.mk = .str n → lower n ≠ py!"root") (h : newTermObj c n v a p x col d s = .ok t s') : Drafts s' := by
  unfold newTermObj at h
  rw [bind_run, lift_run] at h
  cases hsp : splitTermLower n with
  | error e => rw [hsp] at h; cases h
  | ok pr =>
    rw [hsp] at h
    dsimp only at h
    cases p with
    | none => cases h; exact drafts_alloc hd hv
    | some q =>
      dsimp only at h
      rw [bind_run, obj_run] at h
      dsimp only at h
      obtain ⟨u, s1, hu, h⟩ := bind_ok.1 h
      rw [assert_same hu] at h
      cases h
      exact drafts_alloc hd hv

theorem rowTerm_drafts {row : List Str} {t : Nat} {d : Bool} {s s' : St} (hs : Drafts s)
    (hr : ∀ n ∈ [py!"root.section", py!"root.root"], normalizeTerm (row.headD []) = .ok n → d = true ∧ lower (strip ((row[1]?).getD [])) ≠ py!"root")
    (h : rowTerm d row s = .ok t s') : Drafts s' := by
  have hn := rowTerm_name h
  unfold rowTerm at h
  obtain ⟨n, s1, h1, h⟩ := bind_ok.1 h
  obtain ⟨-, e1⟩ := lift_ok.1 h1
  rw [e1, bind_run, get_run] at h
  dsimp only at h
  generalize parserTermClass s _ = c at h
  cases c with
  | root => cases h
  | term => exact newTermObj_drafts hs (fun h => by cases h) h
  | user n => exact newTermObj_drafts hs (fun h => by cases h) h
  | «section» =>
    dsimp only at h
    unfold newSectionObj at h
    have fin : ∀ l : List Str, (do
        let i ← newTermObj Cls.section n (Val.str ((row[1]?).getD [])) l none none 1 d
        let o ← obj i
        M.assert (decide (o.joinLc = py!"root.section" ∨ o.joinLc = py!"root.root"))
        pure i : M Nat) s = .ok t s' → Drafts s' := by
      intro l h
      obtain ⟨i, s2, hi, h⟩ := bind_ok.1 h
      rw [bind_run, obj_run] at h
      dsimp only at h
      obtain ⟨u, s3, hu, h⟩ := bind_ok.1 h
      have e3 := assert_same hu
      rw [assert_run] at hu
      cases h
      subst e3
      by_cases hq : (s'.heap t).joinLc = py!"root.section" ∨ (s'.heap t).joinLc = py!"root.root"
      · obtain ⟨g1, g2⟩ := hr _ (by rcases hq with hq | hq <;> rw [hq] <;> simp) hn
        refine newTermObj_drafts hs (fun _ => ⟨g1, fun m hm => ?_⟩) hi
        unfold Val.mk at hm
        split at hm
        · cases hm; exact g2
        · cases hm
      · rw [if_neg (by simpa using hq)] at hu; cases hu
    by_cases ha : row.drop 2 ≠ []
    · rw [if_pos ha] at h
      exact fin _ h
    · rw [if_neg ha] at h
      obtain ⟨l, s2, h2, h⟩ := bind_ok.1 h
      obtain ⟨-, e2⟩ := lift_ok.1 h2
      rw [e2] at h
      exact fin _ h

/-- The rows of a declare file do the same whether the terms go on to the document or not. -/
theorem genRows_decl {files : Files} {sub sub' : Str → Bool → M Unit} {dir ref : Str} : ∀ {rows : List (List Str)} {ls : Nat} {s : St},
    Drafts s → (∀ row ∈ rows, skipRow row = false → DeclRow row) →
    genRows files sub true true dir ref ls rows s = genRows files sub' false true dir ref ls rows s
  | [], _, _, _, _ => rfl
  | row :: rows, ls, s, hs, hr => by
    have hr' : ∀ row ∈ rows, skipRow row = false → DeclRow row := fun r h => hr r (List.mem_cons_of_mem _ h)
    unfold genRows
    by_cases hk : skipRow row = true
    · rw [if_pos hk, if_pos hk]
      exact genRows_decl hs hr'
    · have hrow := hr row (List.mem_cons_self ..) (by simpa using hk)
      rw [if_neg hk, if_neg hk, bind_run, bind_run]
      cases ht : rowTerm true row s with
      | err e s1 => rfl
      | ok t s1 =>
        dsimp only
        rw [bind_run, bind_run, obj_run]
        dsimp only
        have hn := rowTerm_name ht
        have hdec := rowTerm_decl ht
        have g1 : Drafts s1 := by
          refine rowTerm_drafts hs (fun n hm hn => ?_) ht
          simp only [List.mem_cons, List.not_mem_nil, or_false] at hm
          rcases hm with e | e <;> subst e
          · exact ⟨rfl, hrow.2 hn⟩
          · exact absurd hn (hrow.1 _ (by simp))
        have hno : ¬ ((s1.heap t).joinLc = py!"root.include" ∨ (s1.heap t).joinLc = py!"root.declare") := by
          rintro (e | e) <;> rw [e] at hn
          · exact hrow.1 _ (by simp) hn
          · exact hrow.1 _ (by simp) hn
        have fin : ∀ x ls', x < s1.next → (s1.heap x).isDecl = true → (yieldWithArgs true true x >>= fun _ => genRows files sub true true dir ref ls' rows) s1 =
            (yieldWithArgs false true x >>= fun _ => genRows files sub' false true dir ref ls' rows) s1 := by
          intro x ls' hx hd
          rw [bind_run, bind_run, yieldWithArgs_decl hx hd]
          cases hy : yieldWithArgs false true x s1 with
          | err e s2 => rfl
          | ok u s2 => exact genRows_decl (kd_ok (kd_yield _ _) hy g1) hr'
        rw [if_neg hno, if_neg hno]
        by_cases hsec : (s1.heap t).joinLc = py!"root.section"
        · rw [if_pos hsec, if_pos hsec, bind_run, bind_run, lift_run]
          have hres : ∀ x, resolveSection s1 t = .ok x → x < s1.next ∧ (s1.heap x).isDecl = true := by
            intro x hx
            obtain ⟨-, -, -, -, -, hval⟩ := rowTerm_ok ht
            unfold resolveSection at hx
            rw [hval] at hx
            cases hcl : (s1.heap t).cls.isSection with
            | false => rw [hcl] at hx; cases hx
            | true =>
              rw [hcl] at hx
              cases hm : (Val.str ((row[1]?).getD [])).mk with
              | none => rw [hm] at hx; cases hx
              | int _ => rw [hm] at hx; cases hx
              | fls => rw [hm] at hx; cases hx
              | obj _ => rw [hm] at hx; cases hx
              | str n =>
                rw [hm] at hx
                have en : n = strip ((row[1]?).getD []) := by
                  unfold Val.mk at hm
                  split at hm
                  · cases hm; rfl
                  · cases hm
                have hroot : lower n ≠ py!"root" := by rw [en]; exact hrow.2 (by rw [hn, hsec])
                cases hg : s1.sections.get? (lower n) with
                | none =>
                  dsimp only at hx
                  rw [hg] at hx
                  cases hx; exact hdec
                | some y =>
                  dsimp only at hx
                  rw [hg] at hx
                  cases hx; exact g1.listed _ (Dict.mem_of_get? hg) hroot
          cases hx : resolveSection s1 t with
          | error e => rfl
          | ok x =>
            dsimp only
            exact fin x x (hres x hx).1 (hres x hx).2
        · rw [if_neg hsec, if_neg hsec]
          exact fin t ls hdec.1 hdec.2

theorem drafts_new (env : Env) (classes : Dict Cls) : Drafts (newDoc env classes) := by
  refine ⟨Nat.one_pos, fun x hx => ?_, fun kv hkv hne => ?_⟩
  · by_cases e : x = 0
    · subst e
      refine ⟨Nat.one_pos, .inl rfl, fun n hn => ⟨fun _ => rfl, fun _ => ?_⟩⟩
      have : Val.str (py!"Root") = .str n := hn
      cases this
      decide
    · have hx : ((if x = 0 then rootObj else Obj.blank : Obj)).cls.isSection = true := hx
      rw [if_neg e] at hx
      cases hx
  · rw [List.mem_singleton.1 hkv] at hne
    exact absurd rfl hne

/-! ## C93 -/

theorem find_newDoc {env : Env} {classes : Dict Cls} : find (newDoc env classes) (py!"Root.Declare") = .ok [] := by
  rfl

/-- Reading one `Declare` row: with the terms going on to the document or not, the tables come out the same. -/
theorem gen_declare {files : Files} {fuel : Nat} {env : Env} {classes : Dict Cls} {dir path d ref : Str} {u : Unit} {s' : St}
    (h1 : files.decl [] (strip d) = some ref) (h2 : files.decl dir (strip d) = some ref) (hne : ref ≠ [])
    (hrows : ∀ rows, files.rows ref = some rows → ∀ row ∈ rows, skipRow row = false → DeclRow row)
    (h : gen files true fuel false dir path [[py!"Declare", d]] (newDoc env classes) = .ok u s') :
    ∃ s'', gen files false fuel false [] [] [[py!"Declare", d]] (newDoc env classes) = .ok () s'' ∧ SameTab s'' s' := by
  have hw := newDoc_wf True env classes
  cases fuel with
  | zero => cases h
  | succ f =>
    unfold gen at h ⊢
    rw [bind_run, get_run] at h ⊢
    dsimp only at h ⊢
    obtain ⟨ls, s8, h, e⟩ := bind_ok.1 h
    cases e
    have hk : ¬ skipRow [py!"Declare", d] = true := by
      show ¬ (decide (strip (py!"Declare") = []) || startsWith (py!"#") (strip (py!"Declare"))) = true
      decide
    unfold genRows at h ⊢
    rw [if_neg hk] at h ⊢
    obtain ⟨t, s1, ht, h⟩ := bind_ok.1 h
    have hsp : splitTermLower (py!"Declare") = .ok (py!"root", py!"declare") := by decide +kernel
    have hv : ValueName (py!"root") (py!"declare") := by unfold ValueName; decide
    obtain ⟨m1, m2, m3, m4, m5, m6⟩ := rowTerm_made hw ht hsp hv
    have hj : (s1.heap t).joinLc = py!"root.declare" := by unfold Obj.joinLc; rw [m5, m6]; decide
    have hval : (s1.heap t).value = (Val.str d).mk := (rowTerm_ok ht).choose_spec.choose_spec.2.2.2
    rw [bind_run, obj_run] at h
    dsimp only at h
    rw [if_pos (Or.inr hj)] at h
    obtain ⟨tg, s2, htg, h⟩ := bind_ok.1 h
    obtain ⟨htg, e⟩ := lift_ok.1 htg
    subst e
    have hinc : ¬ (s2.heap t).joinLc = py!"root.include" := by rw [hj]; decide
    have hval2 : ∃ v, (s2.heap t).value = .str v ∧ strip v = strip d := by
      rw [hval]
      unfold resolveTarget at htg
      rw [hval] at htg
      unfold Val.mk at htg ⊢
      by_cases hd : (Val.str d).truthy = true
      · rw [if_pos hd]
        exact ⟨strip d, rfl, strip_strip d⟩
      · rw [if_neg hd] at htg; cases htg
    obtain ⟨v, hv1, hv2⟩ := hval2
    have target : ∀ d' : Str, files.decl d' (strip d) = some ref → resolveTarget files d' (s2.heap t) = .ok ref := by
      intro d' hd
      unfold resolveTarget
      rw [hv1]
      dsimp only
      rw [if_neg hinc, hv2, hd]
    rw [target _ h2] at htg
    cases htg
    split at h
    · cases h
    obtain ⟨_, s3, h3, h⟩ := bind_ok.1 h
    rw [bind_run, obj_run] at h
    dsimp only at h
    obtain ⟨_, s4, h4, h⟩ := bind_ok.1 h
    obtain ⟨_, s5, h5, h⟩ := bind_ok.1 h
    cases h
    -- the row itself
    have hsub : substSynonym s2.p.declTerms (s2.heap t).pt (s2.heap t).rt = .ok (py!"root", py!"declare") := by
      rw [m2, m5, m6]
      show substSynonym initDeclTerms (py!"root") (py!"declare") = _
      decide +kernel
    have hmap : remapRecord s2.p.paramMap (py!"declare") = py!"declare" := by
      rw [m2]
      show remapRecord [] (py!"declare") = _
      decide +kernel
    have h3' : consume false t s2 = .ok () s3 ∧ (s3.heap t).rt = py!"declare" := by
      unfold consume at h3 ⊢
      obtain ⟨y, sa, hy, h3⟩ := bind_ok.1 h3
      obtain ⟨-, -, g3, g4, g5⟩ := iterBody_dress m1 hsub (by rw [hmap]; exact hv) (by decide) hy rfl rfl
      rw [hmap] at g4
      have same : s3 = sa := by
        cases y with
        | false => cases h3; rfl
        | true =>
          have h3 : loadBody t sa = .ok _ s3 := h3
          have hja : (sa.heap t).joinLc = py!"root.declare" := by unfold Obj.joinLc; rw [g3, g4]; decide
          unfold loadBody at h3
          rw [bind_run, obj_run] at h3
          dsimp only at h3
          rw [if_neg (by rw [hja]; decide), if_neg (by rw [hja]; decide), if_pos (by rw [g3]; decide)] at h3
          unfold docAddTerm at h3
          rw [bind_run, get_run] at h3
          dsimp only at h3
          rw [if_pos (g5 (by decide))] at h3
          cases h3; rfl
      subst same
      refine ⟨?_, g4⟩
      rw [bind_run, hy]
      cases y <;> rfl
    have hs3 : Drafts s3 := by
      refine kd_ok (kd_consume t) h3'.1 (rowTerm_drafts (drafts_new env classes) (fun n hm hn => ?_) ht)
      rw [rowTerm_name ht, hj] at hn
      cases hn
      simp at hm
    -- its file
    have hflag : (decide (lower (s3.heap t).rt = py!"declare")) = true := by rw [h3'.2]; decide
    rw [hflag] at h4
    obtain ⟨rows, hr⟩ : ∃ rows, files.rows ref = some rows := by
      cases hr : files.rows ref with
      | none => rw [hr] at h4; cases h4
      | some rows => exact ⟨rows, rfl⟩
    rw [hr] at h4
    dsimp only at h4
    have h4' : gen files false f true [] ref rows s3 = .ok () s4 := by
        cases f with
        | zero => cases h4
        | succ f =>
          unfold gen at h4 ⊢
          rw [bind_run, get_run] at h4 ⊢
          dsimp only at h4 ⊢
          rw [bind_run, genRows_decl hs3 (hrows rows hr)] at h4
          exact h4
    -- the root section again
    obtain ⟨s6, h6, t6⟩ : ∃ s6, consume false (newDoc env classes).root s4 = .ok () s6 ∧ SameTab s6 s' := by
      unfold consume at h5 ⊢
      obtain ⟨y, s6, hy, h5⟩ := bind_ok.1 h5
      refine ⟨s6, ?_, ?_⟩
      · rw [bind_run, hy]
        cases y <;> rfl
      · cases y with
        | false => cases h5; exact Pre.refl _
        | true =>
          have := tab_loadBody (newDoc env classes).root s6
          rw [show loadBody (newDoc env classes).root s6 = .ok () s' from h5] at this
          exact this
    refine ⟨s6, ?_, t6⟩
    rw [bind_run, bind_run, ht]
    dsimp only
    rw [bind_run, obj_run]
    dsimp only
    rw [if_pos (Or.inr hj), bind_run, lift_run, target _ h1]
    dsimp only
    rw [if_neg hne, bind_run, h3'.1]
    dsimp only
    rw [bind_run, obj_run]
    dsimp only
    rw [hflag, hr]
    dsimp only
    rw [bind_run, h4']
    dsimp only
    rw [bind_run, h6]
    rfl

/-- **C93**, partial. What one `Declare` row declares is what the same name given to the constructor declares: if the row is read, then so
is the declaration, and the document's tables are the same. (Missing: files with `Include` and `Declare` rows of their own. The tables are
not used in the same way, see the witnesses.) -/
theorem C93_declare_row_partial {files : Files} {fuel : Nat} {env : Env} {classes : Dict Cls} {path d ref : Str} {u : Unit} {s' : St}
    (h1 : files.decl [] (strip d) = some ref) (h2 : files.decl (dirname path) (strip d) = some ref) (hne : ref ≠ [])
    (hrows : ∀ rows, files.rows ref = some rows → ∀ row ∈ rows, skipRow row = false → DeclRow row)
    (h : parseRows files fuel path [[py!"Declare", d]] (newDoc env classes) = .ok u s') :
    ∃ s'', openWith files fuel env classes [d] none = .ok () s'' ∧ s''.declTerms = s'.declTerms ∧ s''.declSecs = s'.declSecs := by
  have e0 : ({ newDoc env classes with p := initP (newDoc env classes).root } : St) = newDoc env classes := rfl
  unfold openWith loadDeclarations
  rw [if_neg (by simp)]
  simp only [bind_run, get_run, lift_run, find_newDoc, modify_run]
  rw [e0]
  unfold parseRows at h
  rw [bind_run, modify_run, e0] at h
  dsimp only at h
  obtain ⟨_, s9, hg, hf⟩ := bind_ok.1 h
  obtain ⟨s8, g8, t8⟩ := gen_declare h1 h2 hne hrows hg
  simp only [List.any_nil, List.filter_cons, List.filter_nil, Bool.false_eq_true, not_false_eq_true, decide_true, if_true, List.map_cons, List.map_nil]
  rw [g8]
  cases hf
  refine ⟨_, rfl, ?_, ?_⟩
  · show s8.declTerms.update s8.p.declTerms = s9.declTerms.update s9.p.declTerms
    rw [t8.doc.terms, t8.terms]
  · show s8.declSecs.update s8.p.declSecs = s9.declSecs.update s9.p.declSecs
    rw [t8.doc.secs, t8.secs]

/-- **C93**, partial: with declarations and a source, the document's tables hold what the declare files declared, unless the source
declares the name again. The second case includes the names every parser knows from the start. (Missing: that the source is read with
these declarations, which it is not, see `C93_witness`.) -/
theorem C93_tables_partial {files : Files} {fuel : Nat} {env : Env} {classes : Dict Cls} {decls : List Str} {path : Str} {rows : List (List Str)}
    {u : Unit} {s' : St} (hne : decls ≠ []) (h : openWith files fuel env classes decls (some (path, rows)) = .ok u s') :
    ∃ s1, openWith files fuel env classes decls none = .ok () s1 ∧
      (∀ k, s1.declTerms.get? k = s1.p.declTerms.get? k) ∧ (∀ k, s1.declSecs.get? k = s1.p.declSecs.get? k) ∧
      Added s1.declTerms s'.p.declTerms s'.declTerms ∧ Added s1.declSecs s'.p.declSecs s'.declSecs := by
  unfold openWith at h ⊢
  have l := C70_load (files := files) (fuel := fuel) (s := newDoc env classes) hne
  cases hl : loadDeclarations files fuel decls (newDoc env classes) with
  | err e s1 => rw [hl] at h; cases h
  | ok w s1 =>
    rw [hl] at h l
    dsimp only at h l ⊢
    have a := C70_parse (files := files) (fuel := fuel) (path := path) (rows := rows) (s := s1)
    rw [h] at a
    refine ⟨s1, rfl, fun k => ?_, fun k => ?_, a.1, a.2⟩
    · rw [l.1 k]; exact Option.or_none
    · rw [l.2.1 k]; exact Option.or_none

/-! Concrete cases -/

/-- A declare file with a synonym, value names, an inheritance and a section. -/
def conRows : List (List Str) :=
  [[py!"Section", py!"DeclaredTerms", py!"Section", py!"Synonym", py!"TermValueName", py!"InheritsFrom"],
   [py!"DeclareSection", py!"Data", py!"Title"],
   [py!"DeclareTerm", py!"Root.Writer", py!"Root", py!"Root.Author"],
   [py!"DeclareTerm", py!"Root.Author", py!"Root", [], py!"Name"], [py!"DeclareTerm", py!"Author.Org", py!"Root", [], py!"Org"],
   [py!"DeclareTerm", py!"Root.Sql", py!"Root", [], [], py!"Root.Datafile"]]
/-- The file. -/
def conFiles : Files := ⟨fun n => if n = py!"d.csv" then some conRows else none, fun _ n => some n⟩
/-- A source that uses the declarations. -/
def conSource : List (List Str) :=
  [[py!"Writer", py!"Ann"], [py!"Author", py!"Bob"], [py!"Author.Org", py!"Acme"], [py!"Sql", py!"q"], [py!"Section", py!"Data"],
   [py!"Datafile", py!"f", py!"t"]]
/-- The source, with the declarations given to the constructor. -/
def conGiven : Res Unit := openWith conFiles 3 exEnv initClasses [py!"d.csv"] (some ([], conSource))
/-- The source, with a `Declare` row at its start. -/
def conStated : Res Unit := openWith conFiles 3 exEnv initClasses [] (some ([], [py!"Declare", py!"d.csv"] :: conSource))
/-- The terms with their value names. -/
def conTerms (s : St) : List (Str × Str) := s.terms.map fun t => ((s.heap t).join, (s.heap t).tvn)
/-- The children with their value names. -/
def conKids (s : St) : List (Str × Str) := s.terms.flatMap fun t => (s.heap t).children.map fun c => ((s.heap c).join, (s.heap c).tvn)

/-- **C93** does not hold. Given to the constructor, the synonym is not replaced, the child does not get its value name, and the inheritance
is not used in a search; as a `Declare` row, it is. With the columns of the section it is the other way round.
The list of terms declared for the root section is lost as well. -/
theorem C93_witness :
    conGiven.val = .ok () ∧ conStated.val = .ok () ∧ conGiven.st.declTerms = conStated.st.declTerms ∧ conGiven.st.declSecs.get? (py!"data") = conStated.st.declSecs.get? (py!"data") ∧
    (conGiven.st.declSecs.get? (py!"root")).map (·.terms) = some [] ∧
    (conStated.st.declSecs.get? (py!"root")).map (·.terms) = some [py!"Root.Writer", py!"Root.Author", py!"Author.Org", py!"Root.Sql"] ∧
    (conTerms conGiven.st).drop 8 = [(py!"root.writer", py!"@value"), (py!"root.author", py!"Name"), (py!"root.sql", py!"@value"),
      (py!"root.datafile", py!"@value")] ∧
    (conTerms conStated.st).drop 8 = [(py!"root.author", py!"Name"), (py!"root.author", py!"Name"), (py!"root.sql", py!"@value"),
      (py!"root.datafile", py!"@value")] ∧
    (conKids conGiven.st).drop 11 = [(py!"author.org", py!"@value"), (py!"datafile.title", py!"@value")] ∧
    (conKids conStated.st).drop 11 = [(py!"author.org", py!"Org"), (py!"datafile.0", py!"@value")] ∧
    (find conGiven.st (py!"Root.Datafile")).toOption.map List.length = some 1 ∧
    (find conStated.st (py!"Root.Datafile")).toOption.map List.length = some 2 := by
  decide +kernel

/-- A declaration of a name the parsers know from the start is undone when a source is read: the parser's own entry replaces it. -/
theorem C93_builtin_witness :
    let files : Files := ⟨fun n => if n = py!"d.csv" then some [[py!"Section", py!"DeclaredTerms", py!"TermValueName"],
      [py!"DeclareTerm", py!"Root.Synonym", py!"Name"]] else none, fun _ n => some n⟩
    let at' := fun r : Res Unit => ((r.st.declTerms.get? (py!"root.synonym")).bind fun e => e.props.get? (py!"termvaluename"))
    at' (openWith files 3 exEnv initClasses [py!"d.csv"] none) = some (py!"Name") ∧
    (openWith files 3 exEnv initClasses [py!"d.csv"] (some ([], [[py!"Title", py!"T"]]))).val = .ok () ∧
    at' (openWith files 3 exEnv initClasses [py!"d.csv"] (some ([], [[py!"Title", py!"T"]]))) ≠ some (py!"Name") ∧
    at' (openWith files 3 exEnv initClasses [] (some ([], [[py!"Declare", py!"d.csv"], [py!"Title", py!"T"]]))) = some (py!"Name") := by
  decide +kernel

/-- The hypotheses of `C93_declare_row_partial` can be met. -/
example : ∃ s'', openWith conFiles 3 exEnv initClasses [py!" d.csv"] none = .ok () s'' ∧ s''.declTerms.has (py!"author.org") = true := by
  obtain ⟨s'', h1, h2, -⟩ := C93_declare_row_partial (files := conFiles) (fuel := 3) (env := exEnv) (classes := initClasses) (path := py!"dir/m.csv")
    (d := py!" d.csv") (ref := py!"d.csv") (u := ()) (by decide) (by decide) (by decide)
    (fun rows h => by
      have : some conRows = some rows := h
      cases this
      unfold DeclRow
      decide +kernel)
    (ok_after (by decide +kernel))
  refine ⟨s'', h1, ?_⟩
  rw [h2]
  decide +kernel

/-- The hypotheses of `C93_tables_partial` can be met. -/
example : Added (after (fun _ => openWith conFiles 3 exEnv initClasses [py!"d.csv"] none) exDoc).declTerms conGiven.st.p.declTerms conGiven.st.declTerms := by
  obtain ⟨s1, h1, -, -, h2, -⟩ := C93_tables_partial (files := conFiles) (fuel := 3) (env := exEnv) (classes := initClasses) (decls := [py!"d.csv"])
    (path := []) (rows := conSource) (u := ()) (s' := conGiven.st) (by decide) (by
      have : conGiven.val = .ok () := by decide +kernel
      unfold conGiven at this ⊢
      revert this
      cases openWith conFiles 3 exEnv initClasses [py!"d.csv"] (some ([], conSource)) <;> intro h <;> first | rfl | cases h)
  unfold after
  rw [h1]
  exact h2

end Metatab
