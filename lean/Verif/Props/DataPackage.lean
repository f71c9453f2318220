import Verif.Model.DataPackage
import Verif.Spec.Package
import Verif.Props.DocDict
import Verif.Lemmas.DictCheck
import Verif.Lemmas.Examples
import Verif.Props.Names
import Verif.Props.DocName
/-! # C56: conversion to a data package -/
namespace Metatab
open Py _root_.Spec

/-! ## Conversions raise no `KeyError` -/

theorem add_noKey (a b : DVal) : a.add b ≠ .error .keyError := by
  unfold DVal.add
  split <;> simp

theorem bind_noKey {α β : Type} {x : Except Err α} {f : α → Except Err β} (hx : x ≠ .error .keyError) (hf : ∀ a, x = .ok a → f a ≠ .error .keyError) :
    (x >>= f) ≠ .error .keyError := by
  cases x with
  | error e => intro h; exact hx (by cases h; rfl)
  | ok a => exact hf a rfl

theorem dictChild_noKey {d : Dict DVal} {rt cpt : Str} {conv : Except Err DVal} (hl : lower rt = rt) (hc : conv ≠ .error .keyError) :
    dictChild d rt cpt conv ≠ .error .keyError := by
  have hp : ∀ (g : DVal → Dict DVal), (do let v ← conv; return g v) ≠ (.error .keyError : Except Err (Dict DVal)) := fun g =>
    bind_noKey hc fun a _ h => by cases h
  unfold dictChild
  dsimp only
  rw [hl]
  split
  · exact hp _
  split
  · refine bind_noKey hc fun a _ => ?_
    cases d.get? rt with
    | none => intro h; cases h
    | some x => cases x <;> (intro h; cases h)
  split
  · refine bind_noKey ?_ fun a _ => bind_noKey hc fun v _ => bind_noKey (add_noKey _ _) fun r _ h => by cases h
    cases d.get? rt with
    | none => intro h; cases h
    | some x => exact add_noKey _ _
  split
  · exact bind_noKey hc fun v _ => bind_noKey (add_noKey _ _) fun r _ h => by cases h
  · cases d.get? rt with
    | none => exact hp _
    | some x => cases x <;> exact hp _

theorem kidsDict_noKey {rvn : Bool} : ∀ {ks : List Tree} {d : Dict DVal},
    (∀ k ∈ ks, lower k.obj.rt = k.obj.rt ∧ k.toDict rvn ≠ .error .keyError) → kidsDict rvn d ks ≠ .error .keyError
  | [], _, _ => by rw [kidsDict]; intro h; cases h
  | k :: ks, d, h => by
    rw [kidsDict]
    have hk := h k List.mem_cons_self
    exact bind_noKey (dictChild_noKey hk.1 hk.2) fun d' _ => kidsDict_noKey fun k' hk' => h k' (List.mem_cons_of_mem _ hk')

theorem treeF_noKey {h : Nat → Obj} : ∀ {f t : Nat}, treeF h f t ≠ .error .keyError
  | 0, _ => by intro e; cases e
  | f + 1, t => by
    have key : ∀ l : List Nat, l.mapM (treeF h f) ≠ .error .keyError := by
      intro l
      induction l with
      | nil => intro e; cases e
      | cons a l ih =>
        rw [List.mapM_cons]
        exact bind_noKey treeF_noKey fun _ _ => bind_noKey ih fun _ _ e => by cases e
    show ((h t).children.mapM (treeF h f) >>= fun ks => (.ok (Tree.node t (h t) ks) : Except Err Tree)) ≠ .error .keyError
    exact bind_noKey (key _) fun _ _ e => by cases e

theorem toDict_noKey {rvn : Bool} {h : Nat → Obj} (hl : ∀ i, lower (h i).rt = (h i).rt) : ∀ {f t : Nat} {tr : Tree},
    treeF h f t = .ok tr → tr.toDict rvn ≠ .error .keyError
  | 0, _, _, e => by cases e
  | f + 1, t, tr, e => by
    obtain ⟨ks, hk, rfl⟩ := treeF_iff.1 e
    have key : ∀ k ∈ ks, lower k.obj.rt = k.obj.rt ∧ k.toDict rvn ≠ .error .keyError := by
      intro k hm
      obtain ⟨c, -, hc⟩ := forall₂_mem_right hk hm
      exact ⟨by rw [treeF_obj hc]; exact hl c, toDict_noKey hl hc⟩
    cases ks with
    | nil => rw [Tree.toDict]; intro e; cases e
    | cons k ks => rw [Tree.toDict]; exact bind_noKey (kidsDict_noKey key) fun _ _ e => by cases e

theorem termAsDict_noKey {rvn : Bool} {t : Nat} {s s' : St} (hl : ∀ i, lower (s.heap i).rt = (s.heap i).rt) :
    termAsDict rvn t s ≠ .err .keyError s' := by
  unfold termAsDict
  rw [lift_run]
  have : (do let tr ← tree s t; tr.toDict rvn) ≠ .error .keyError := bind_noKey treeF_noKey fun tr h => toDict_noKey hl h
  intro h
  generalize (do let tr ← tree s t; tr.toDict rvn) = x at this h
  cases x with
  | ok a => cases h
  | error e => cases h; exact this rfl

theorem sectionAsDict_noKey {rvn : Bool} {t : Nat} {s s' : St} (hl : ∀ i, lower (s.heap i).rt = (s.heap i).rt) :
    sectionAsDict rvn t s ≠ .err .keyError s' := by
  rw [sectionAsDict_run]
  have hl' : ∀ i, lower ((swapped s t).heap i).rt = ((swapped s t).heap i).rt := by
    intro i; unfold swapped; rw [heap_setObj]; split
    · exact hl t
    · exact hl i
  cases h : termAsDict rvn t (swapped s t) with
  | ok d _ => intro e; cases e
  | err e _ => intro e'; cases e'; exact termAsDict_noKey hl' h

theorem asDict_noKey {t : Nat} {s s' : St} (hl : ∀ i, lower (s.heap i).rt = (s.heap i).rt) : asDict t s ≠ .err .keyError s' := by
  unfold asDict
  rw [bind_run, obj_run]
  dsimp only
  cases (s.heap t).cls with
  | root =>
    intro h
    dsimp only at h
    unfold rootAsDict at h
    rw [bind_run] at h
    cases hs : sectionAsDict true t s with
    | err e s2 => rw [hs] at h; cases h; exact sectionAsDict_noKey hl hs
    | ok d s2 => rw [hs] at h; cases d <;> cases h
  | «section» => exact sectionAsDict_noKey hl
  | term => exact termAsDict_noKey hl
  | user n => exact termAsDict_noKey hl

theorem asDict_same {t : Nat} {s s' : St} {v : DVal} (h : asDict t s = .ok v s') : s' = s := by
  have hsec : ∀ {v : DVal} {s' : St}, sectionAsDict true t s = .ok v s' → s' = s := by
    intro v s' h
    rw [sectionAsDict_run] at h
    cases ht : termAsDict true t (swapped s t) with
    | ok d s2 => rw [ht] at h; cases h; rfl
    | err e s2 => rw [ht] at h; cases h
  unfold asDict at h
  rw [bind_run, obj_run] at h
  dsimp only at h
  cases hc : (s.heap t).cls with
  | root => rw [hc] at h; obtain ⟨v', h, -⟩ := rootAsDict_ok h; exact hsec h
  | «section» => rw [hc] at h; exact hsec h
  | term => rw [hc] at h; exact (termAsDict_iff.1 h).1
  | user n => rw [hc] at h; exact (termAsDict_iff.1 h).1

/-! ## The schemas -/

theorem pyEq_refl (a : Val) : Val.pyEq a a = true := by
  cases a <;> simp [Val.pyEq]

theorem pyEq_iff (a b : Val) : Val.pyEq a b = true ↔ a = b ∨ (a = .fls ∧ b = .int 0) ∨ (a = .int 0 ∧ b = .fls) := by
  cases a <;> cases b <;> simp [Val.pyEq]

theorem vGet_vSet {α : Type} (d : List (Val × α)) (k k' : Val) (v : α) :
    vGet (vSet d k v) k' = if Val.pyEq k k' then some v else vGet d k' := by
  induction d with
  | nil => rfl
  | cons a d ih =>
    obtain ⟨x, y⟩ := a
    unfold vSet
    by_cases h : Val.pyEq x k = true
    · rw [if_pos h]
      unfold vGet
      have : Val.pyEq x k' = Val.pyEq k k' := by
        rw [Bool.eq_iff_iff, pyEq_iff, pyEq_iff]
        rw [pyEq_iff] at h
        rcases h with rfl | ⟨rfl, rfl⟩ | ⟨rfl, rfl⟩
        · rfl
        · cases k' <;> simp [eq_comm]
        · cases k' <;> simp [eq_comm]
      rw [this]
      split <;> rfl
    · rw [if_neg h]
      show (if Val.pyEq x k' then some y else vGet (vSet d k v) k') = _
      rw [ih]
      by_cases h1 : Val.pyEq x k' = true
      · rw [if_pos h1]
        have : ¬ Val.pyEq k k' = true := by
          intro h2
          rw [pyEq_iff] at h h1 h2
          apply h
          rcases h1 with rfl | ⟨rfl, rfl⟩ | ⟨rfl, rfl⟩ <;> rcases h2 with rfl | ⟨rfl, e⟩ | ⟨rfl, e⟩ <;> simp_all
        rw [if_neg this]
        unfold vGet
        rw [if_pos h1]
      · rw [if_neg h1]
        congr 1
        show _ = (if Val.pyEq x k' then some y else vGet d k')
        rw [if_neg h1]

/-- The table `t` shows its columns as `c`. -/
def Shows (s : St) (t : Nat) (c : DVal) : Prop := ∃ d : Dict DVal, asDict t s = .ok (.dict d) s ∧ d.get? (py!"column") = some c

theorem columnOf_ok {d c : DVal} : columnOf d = .ok c ↔ ∃ l : Dict DVal, d = .dict l ∧ l.get? (py!"column") = some c := by
  cases d with
  | dict l =>
    unfold columnOf
    cases h : Dict.get? l (py!"column") with
    | none => simp [h]
    | some x => simp [h]
  | val v => cases v <;> simp [columnOf]
  | list l => simp [columnOf]

theorem schemasOf_ok {s s' : St} {tabs : List (Val × DVal)} : ∀ {ts : List Nat} {acc : List (Val × DVal)},
    schemasOf acc ts s = .ok tabs s' → s' = s ∧ (∀ t ∈ ts, ∃ c, Shows s t c) ∧
    ∀ v, (match lastWith s ts v with
      | some t => ∃ c, Shows s t c ∧ vGet tabs v = some c
      | none => vGet tabs v = vGet acc v)
  | [], acc, h => by
    cases h
    exact ⟨rfl, (by intro t ht; cases ht), fun v => rfl⟩
  | t :: ts, acc, h => by
    unfold schemasOf at h
    rw [bind_run, obj_run] at h
    dsimp only at h
    obtain ⟨d, s1, hd, ha⟩ := bind_ok.1 h
    have e := asDict_same hd
    rw [e] at hd ha
    obtain ⟨c, s2, hc, hb⟩ := bind_ok.1 ha
    obtain ⟨hc2, e2⟩ := lift_ok.1 hc
    rw [e2] at hb
    obtain ⟨l, rfl, hl⟩ := columnOf_ok.1 hc2
    have hs : Shows s t c := ⟨l, hd, hl⟩
    obtain ⟨e, h1, h2⟩ := schemasOf_ok hb
    refine ⟨e, ?_, ?_⟩
    · intro u hu
      rcases List.mem_cons.1 hu with rfl | hu
      · exact ⟨c, hs⟩
      · exact h1 u hu
    · intro v
      have := h2 v
      rw [vGet_vSet] at this
      have hl : lastWith s (t :: ts) v = if Val.pyEq (s.heap t).value v then some ((lastWith s ts v).getD t) else lastWith s ts v := by
        unfold lastWith
        rw [List.filter_cons]
        split
        · rw [List.getLast?_cons]
        · rfl
      rw [hl]
      by_cases hv : Val.pyEq (s.heap t).value v = true
      · rw [if_pos hv] at this ⊢
        cases hh : lastWith s ts v with
        | none => rw [hh] at this; exact ⟨c, hs, this⟩
        | some u => rw [hh] at this; exact this
      · rw [if_neg hv] at this ⊢; exact this

/-! ## The fields -/

theorem mapType_ok {o : Option DVal} {t : DVal} (h : mapType (o.getD (.val .none)) = .ok t) : t = typeEntry o := by
  cases o with
  | none => cases h; rfl
  | some v =>
    cases v with
    | list l => cases h
    | dict l => cases h
    | val v =>
      cases v with
      | str u =>
        cases h
        show DVal.ofStr _ = DVal.val (.str (typeName u))
        unfold DVal.ofStr typeName typeMap
        simp only [Dict.get?_cons, Dict.get?_nil, @eq_comm _ _ u]
        repeat' split
        all_goals simp_all
      | none => cases h; rfl
      | int i => cases h; rfl
      | fls => cases h; rfl
      | obj i => cases h; rfl

theorem copyProp_get (c d : Dict DVal) (p n : Str) :
    (copyProp c d p).get? n = if n = p ∧ ((c.get? n).filter DVal.truthy).isSome then (c.get? n).filter DVal.truthy else d.get? n := by
  unfold copyProp
  by_cases h : n = p
  · subst h
    cases hc : c.get? n with
    | none => simp
    | some v => cases hv : v.truthy <;> simp [hv, Option.filter]
  · rw [if_neg (fun h' => h h'.1)]
    cases hc : c.get? p with
    | none => rfl
    | some v =>
      dsimp only
      split
      · rw [Dict.get?_set, if_neg (Ne.symm h)]
      · rfl

theorem copyProp_nodup {c d : Dict DVal} (h : d.keys.Nodup) (p : Str) : (copyProp c d p).keys.Nodup := by
  unfold copyProp
  split
  · split
    · exact Dict.nodup_set h _ _
    · exact h
  · exact h

theorem mkField_ok {c f : DVal} (h : mkField c = .ok f) : ∃ cd, c = .dict cd ∧ IsField cd f := by
  cases c with
  | val v => cases v <;> cases h
  | list l => cases h
  | dict cd =>
    refine ⟨cd, rfl, ?_⟩
    unfold mkField at h
    obtain ⟨t, ht, e⟩ := except_bind_ok.1 h
    cases e
    refine ⟨_, rfl, Dict.nodup_set ?_ _ _, fun n => ?_⟩
    · exact copyProp_nodup (copyProp_nodup (copyProp_nodup (by simp [Dict.keys]) _) _) _
    · rw [Dict.get?_set, mapType_ok ht]
      by_cases h0 : n = py!"type"
      · subst h0; simp
      · rw [if_neg (Ne.symm h0), if_neg h0]
        show (copyProp cd (copyProp cd (copyProp cd [] (py!"name")) (py!"title")) (py!"description")).get? n = _
        rw [copyProp_get, copyProp_get, copyProp_get]
        by_cases h1 : n = py!"name" ∨ n = py!"title" ∨ n = py!"description"
        · rw [if_pos h1]
          cases hf : (Dict.get? cd n).filter DVal.truthy with
          | none => simp
          | some v => rcases h1 with rfl | rfl | rfl <;> simp
        · rw [if_neg h1]
          rw [if_neg (fun h => h1 (.inr (.inr h.1))), if_neg (fun h => h1 (.inr (.inl h.1))), if_neg (fun h => h1 (.inl h.1))]
          rfl

theorem mkResource_ok {r : Dict Val} {c e : DVal} (h : mkResource r c = .ok e) :
    ∃ cols fields, dIter c = .ok cols ∧ List.Forall₂ (fun k f => ∃ cd, k = .dict cd ∧ IsField cd f) cols fields ∧ IsResource r fields e := by
  unfold mkResource at h
  obtain ⟨u, hu, h⟩ := except_bind_ok.1 h
  obtain ⟨n, hn, h⟩ := except_bind_ok.1 h
  obtain ⟨cs, hcs, h⟩ := except_bind_ok.1 h
  obtain ⟨fs, hfs, h⟩ := except_bind_ok.1 h
  cases h
  have hk : ∀ {k : Str} {v : Val}, keyed r k = .ok v → r.get? k = some v := by
    intro k v h
    unfold keyed at h
    cases hr : r.get? k with
    | none => rw [hr] at h; cases h
    | some w => rw [hr] at h; cases h; rfl
  exact ⟨cs, fs, hcs, (mapM_iff.1 hfs).imp fun _ _ h => mkField_ok h, u, n, hk hu, hk hn, rfl⟩

/-- The fields are those of the columns when these are a list of dicts. What else can be passed as columns without an error has none in it. -/
def _root_.Spec.FieldsOf (c : DVal) (fields : List DVal) : Prop :=
  (∃ cds : List (Dict DVal), c = .list (cds.map .dict) ∧ List.Forall₂ IsField cds fields) ∨ ((c = .dict [] ∨ c = .ofStr []) ∧ fields = [])

theorem dIter_fields {c : DVal} {cols fields : List DVal} (h : dIter c = .ok cols)
    (hf : List.Forall₂ (fun k f => ∃ cd, k = .dict cd ∧ IsField cd f) cols fields) : FieldsOf c fields := by
  cases c with
  | list l =>
    cases h
    left
    clear * - hf
    induction hf with
    | nil => exact ⟨[], rfl, .nil⟩
    | cons h _ ih =>
      obtain ⟨cd, rfl, h⟩ := h
      obtain ⟨cds, e, hr⟩ := ih
      refine ⟨cd :: cds, ?_, .cons h hr⟩
      cases e; rfl
  | dict d =>
    cases h
    right
    cases d with
    | nil => cases hf; exact ⟨.inl rfl, rfl⟩
    | cons e d =>
      cases hf with
      | cons h _ => obtain ⟨cd, e, -⟩ := h; cases e
  | val v =>
    cases v with
    | str t =>
      cases h
      right
      cases t with
      | nil => cases hf; exact ⟨.inr rfl, rfl⟩
      | cons e d =>
        cases hf with
        | cons h _ => obtain ⟨cd, e, -⟩ := h; cases e
    | none => cases h
    | int i => cases h
    | fls => cases h
    | obj i => cases h

/-- The data file has a name and a schema. -/
def described (s : St) (tables : List Nat) (r : Dict Val) : Bool := (tableFor s tables r).isSome

theorem mkResources_ok {s s' : St} {ts : List Nat} {tabs : List (Val × DVal)} (ht : schemasOf [] ts s = .ok tabs s') :
    ∀ {rs : List (Dict Val)} {es : List DVal}, mkResources tabs rs = .ok es →
    List.Forall₂ (fun r e => ∃ tb c, tableFor s ts r = some tb ∧ Shows s tb c ∧ mkResource r c = .ok e) (rs.filter (described s ts)) es
  | [], es, h => by cases h; exact .nil
  | r :: rs, es, h => by
    obtain ⟨-, -, hv⟩ := schemasOf_ok ht
    have hget : ∀ v, match lastWith s ts v with | some t => ∃ c, Shows s t c ∧ vGet tabs v = some c | none => vGet tabs v = none := hv
    have key : ∀ c e, columnsFor tabs r = some c → mkResource r c = .ok e → ∃ tb, tableFor s ts r = some tb ∧ Shows s tb c := by
      intro c e hc he
      obtain ⟨_, _, _, _, _, n, _, hn, _⟩ := mkResource_ok he
      unfold columnsFor at hc
      unfold tableFor
      rw [hn] at hc ⊢
      simp only [Option.getD_some, Option.bind_some] at hc ⊢
      have h1 := hget n
      cases hl : lastWith s ts n with
      | some t =>
        rw [hl] at h1
        obtain ⟨c', hs, hg⟩ := h1
        rw [hg] at hc
        cases hc
        exact ⟨t, rfl, hs⟩
      | none =>
        rw [hl] at h1
        have h1' : vGet tabs n = none := h1
        rw [h1'] at hc
        simp only [Option.isSome_none, Bool.false_eq_true, if_false] at hc
        cases htb : r.get? (py!"table") with
        | none => rw [htb] at hc; cases hc
        | some w =>
          rw [htb] at hc
          have h2 := hget w
          cases hl2 : lastWith s ts w with
          | some t =>
            rw [hl2] at h2
            obtain ⟨c', hs, hg⟩ := h2
            have : vGet tabs w = some c := hc
            rw [hg] at this
            cases this
            exact ⟨t, hl2, hs⟩
          | none =>
            rw [hl2] at h2
            have h2' : vGet tabs w = none := h2
            have : vGet tabs w = some c := hc
            rw [h2'] at this
            cases this
    have key2 : columnsFor tabs r = none → tableFor s ts r = none := by
      intro hc
      unfold columnsFor at hc
      unfold tableFor
      cases hn : r.get? (py!"name") with
      | none => rfl
      | some n =>
        rw [hn] at hc
        simp only [Option.getD_some, Option.bind_some] at hc ⊢
        have h1 := hget n
        cases hl : lastWith s ts n with
        | some t =>
          rw [hl] at h1
          obtain ⟨c', hs, hg⟩ := h1
          rw [hg] at hc
          cases hc
        | none =>
          rw [hl] at h1
          have h1' : vGet tabs n = none := h1
          rw [h1'] at hc
          simp only [Option.isSome_none, Bool.false_eq_true, if_false] at hc
          cases htb : r.get? (py!"table") with
          | none => rfl
          | some w =>
            rw [htb] at hc
            have h2 := hget w
            show lastWith s ts w = none
            cases hl2 : lastWith s ts w with
            | none => rfl
            | some t =>
              rw [hl2] at h2
              obtain ⟨c', hs, hg⟩ := h2
              have : vGet tabs w = none := hc
              rw [hg] at this
              cases this
    unfold mkResources at h
    cases hc : columnsFor tabs r with
    | none =>
      rw [hc] at h
      rw [List.filter_cons, if_neg (by unfold described; rw [key2 hc]; exact Bool.false_ne_true)]
      exact mkResources_ok ht h
    | some c =>
      rw [hc] at h
      obtain ⟨e, he, h⟩ := except_bind_ok.1 h
      obtain ⟨es', hes, h⟩ := except_bind_ok.1 h
      cases h
      obtain ⟨tb, htb, hs⟩ := key c e hc he
      rw [List.filter_cons, if_pos (by unfold described; rw [htb]; rfl)]
      exact .cons ⟨tb, c, htb, hs, he⟩ (mkResources_ok ht hes)

theorem isDatafile_iff (o : Obj) : termIs o.pt o.rt (py!"root.datafile") = .ok (isDatafile o) := by
  rw [show py!"root.datafile" = py!"root" ++ '.' :: py!"datafile" from rfl, C02_qualified _ _ ⟨by decide, by decide, by decide⟩ ⟨by decide, by decide, by decide⟩]
  congr 1
  unfold isDatafile PartMatches
  rw [Bool.eq_iff_iff, Bool.and_eq_true, decide_eq_true_iff, decide_eq_true_iff, decide_eq_true_iff]
  have h1 : lower (py!"root") = py!"root" := by decide
  have h2 : lower (py!"datafile") = py!"datafile" := by decide
  rw [h1, h2]
  constructor
  · rintro ⟨a | a, b | b⟩
    · cases a
    · cases a
    · cases b
    · exact ⟨a.symm, b.symm⟩
  · rintro ⟨a, b⟩; exact ⟨.inr a.symm, .inr b.symm⟩

theorem fileResources_ok {s : St} : ∀ {ts : List Nat} {rs : List (Dict Val)}, fileResources s ts = .ok rs →
    List.Forall₂ (fun t r => argProps s t = .ok r) (ts.filter fun t => isDatafile (s.heap t)) rs
  | [], rs, h => by cases h; exact .nil
  | t :: ts, rs, h => by
    unfold fileResources at h
    have ht := isDatafile_iff (s.heap t)
    dsimp only at h
    rw [ht] at h
    cases hb : isDatafile (s.heap t) with
    | false =>
      rw [hb] at h
      rw [List.filter_cons, hb]
      exact fileResources_ok h
    | true =>
      rw [hb] at h
      rw [List.filter_cons, hb]
      have h' : (argProps s t >>= fun r => fileResources s ts >>= fun rs => .ok (r :: rs)) = .ok rs := h
      obtain ⟨r, hr, h'⟩ := except_bind_ok.1 h'
      obtain ⟨rs', hrs, h'⟩ := except_bind_ok.1 h'
      cases h'
      exact .cons hr (fileResources_ok hrs)

/-! ## What goes beside the resources -/

theorem termAsDict_nodup {rvn : Bool} {t : Nat} {s s' : St} {d : Dict DVal} (h : termAsDict rvn t s = .ok (.dict d) s') : d.keys.Nodup := by
  by_cases hk : (s.heap t).children = []
  · rw [C08_leaf rvn hk] at h; cases h
  · obtain ⟨d', hf, e⟩ := termAsDict_kids h hk
    cases e
    unfold dictValue
    split
    · exact Dict.nodup_set hf.nodup _ _
    · exact hf.nodup

theorem asDict_nodup {t : Nat} {s s' : St} {d : Dict DVal} (h : asDict t s = .ok (.dict d) s') : d.keys.Nodup := by
  have hsec : ∀ {d : Dict DVal} {s' : St}, sectionAsDict true t s = .ok (.dict d) s' → d.keys.Nodup := by
    intro d s' h
    rw [sectionAsDict_run] at h
    cases ht : termAsDict true t (swapped s t) with
    | ok d' s2 => rw [ht] at h; cases h; exact termAsDict_nodup ht
    | err e s2 => rw [ht] at h; cases h
  unfold asDict at h
  rw [bind_run, obj_run] at h
  dsimp only at h
  cases hc : (s.heap t).cls with
  | root =>
    rw [hc] at h
    obtain ⟨v', h2, hv⟩ := rootAsDict_ok h
    rcases hv with ⟨l, rfl, e⟩ | ⟨hn, e⟩
    · cases e; exact Dict.nodup_del (hsec h2) _
    · exact absurd e.symm (hn _)
  | «section» => rw [hc] at h; exact hsec h
  | term => rw [hc] at h; exact termAsDict_nodup h
  | user n => rw [hc] at h; exact termAsDict_nodup h

/-- The entries the section `Identity` contributes. -/
def _root_.Spec.IdentityEntries (s : St) (d : Dict DVal) : Prop :=
  match getSection s (py!"identity") with
  | .error _ => d = []
  | .ok y => asDict y s = .ok (.dict d) s ∨ ((asDict y s = .ok (.val (.str [])) s) ∧ d = [])

theorem getSection_err {s : St} {n : Str} {e : Err} (h : getSection s n = .error e) : e = .keyError := by
  unfold getSection at h
  split at h <;> cases h
  rfl

theorem get?_reverse {α : Type} {d : Dict α} (h : d.keys.Nodup) (x : Str) : Dict.get? d.reverse x = d.get? x := by
  have hr : (Dict.keys d.reverse).Nodup := by
    unfold Dict.keys at h ⊢
    rw [List.map_reverse]
    exact List.nodup_reverse.2 h
  cases hd : d.get? x with
  | some v => exact Dict.get?_of_mem hr (List.mem_reverse.2 (Dict.mem_of_get? hd))
  | none =>
    rw [Dict.get?_eq_none] at hd ⊢
    unfold Dict.keys at hd ⊢
    rw [List.map_reverse, List.mem_reverse]
    exact hd

theorem packageBase_ok {s s' : St} {dp : Dict DVal} (hl : ∀ i, lower (s.heap i).rt = (s.heap i).rt) (h : packageBase s = .ok dp s') :
    s' = s ∧ ∃ (x : Nat) (rd idd : Dict DVal), getSection s (py!"root") = .ok x ∧ asDict x s = .ok (.dict rd) s ∧ IdentityEntries s idd ∧ idd.keys.Nodup ∧
      ∀ n, dp.get? n = (idd.get? n).or (rd.get? n) := by
  unfold packageBase at h
  obtain ⟨x, s1, hx, h1⟩ := bind_ok.1 h
  obtain ⟨hx', e1⟩ := lift_ok.1 hx
  rw [e1] at h1
  obtain ⟨v, s2, hv, h2⟩ := bind_ok.1 h1
  have e2 := asDict_same hv
  rw [e2] at h2 hv
  cases v with
  | val v => cases h2
  | list v => cases h2
  | dict rd =>
    dsimp only at h2
    unfold tryKey at h2
    rw [bind_run, lift_run] at h2
    cases hy : getSection s (py!"identity") with
    | error e =>
      rw [hy] at h2
      cases getSection_err hy
      cases h2
      refine ⟨rfl, x, dp, [], hx', hv, ?_, (by simp [Dict.keys]), fun n => by simp⟩
      unfold IdentityEntries; rw [hy]
    | ok y =>
      rw [hy] at h2
      dsimp only at h2
      rw [bind_run] at h2
      cases hd : asDict y s with
      | err e s3 =>
        rw [hd] at h2
        dsimp only at h2
        split at h2
        · next he => rw [he] at hd; exact absurd hd (asDict_noKey hl)
        · cases h2
      | ok w s3 =>
        have e3 := asDict_same hd
        rw [e3] at hd
        rw [hd] at h2
        dsimp only at h2
        rw [lift_run] at h2
        have hid : ∀ idd, (asDict y s = .ok (.dict idd) s ∨ ((asDict y s = .ok (.val (.str [])) s) ∧ idd = [])) → IdentityEntries s idd := by
          intro idd h; unfold IdentityEntries; rw [hy]; exact h
        cases w with
        | dict idd =>
          cases h2
          have hn := asDict_nodup hd
          exact ⟨rfl, x, rd, idd, hx', hv, hid _ (.inl hd), hn, fun n => by rw [Dict.get?_update, get?_reverse hn]⟩
        | list l =>
          cases l with
          | nil =>
            exfalso
            clear * - hd
            unfold asDict at hd
            rw [bind_run, obj_run] at hd
            dsimp only at hd
            have hterm : ∀ {t : Nat} {s s' : St}, termAsDict true t s ≠ .ok (.list []) s' := by
              intro t s s' h
              by_cases hk : (s.heap t).children = []
              · rw [C08_leaf true hk] at h; cases h
              · obtain ⟨d', hf, e⟩ := termAsDict_kids h hk; cases e
            have hsec : ∀ {t : Nat} {s s' : St}, sectionAsDict true t s ≠ .ok (.list []) s' := by
              intro t s s' h
              rw [sectionAsDict_run] at h
              cases ht : termAsDict true t (swapped s t) with
              | ok d' s2 => rw [ht] at h; cases h; exact hterm ht
              | err e s2 => rw [ht] at h; cases h
            cases hc : (s.heap y).cls with
            | root =>
              rw [hc] at hd
              obtain ⟨v', h, hv⟩ := rootAsDict_ok hd
              rcases hv with ⟨l, rfl, e⟩ | ⟨-, rfl⟩
              · cases e
              · exact hsec h
            | «section» => rw [hc] at hd; exact hsec hd
            | term => rw [hc] at hd; exact hterm hd
            | user n => rw [hc] at hd; exact hterm hd
          | cons a l => exact absurd h2 (by intro h; cases h)
        | val w =>
          cases w with
          | str t =>
            cases t with
            | nil => cases h2; exact ⟨rfl, x, dp, [], hx', hv, hid _ (.inr ⟨hd, rfl⟩), (by simp [Dict.keys]), fun n => by simp⟩
            | cons a t => exact absurd h2 (by intro h; cases h)
          | none => exact absurd h2 (by intro h; cases h)
          | int i => exact absurd h2 (by intro h; cases h)
          | fls => exact absurd h2 (by intro h; cases h)
          | obj i => exact absurd h2 (by intro h; cases h)

/-- The columns of a table that are shown as a list: they are declared `sequence`, or not declared and more than one. -/
def _root_.Spec.ColumnsListed (s : St) (cols : List Nat) : Prop :=
  (∀ c ∈ cols, (s.heap c).cpt = py!"sequence") ∨ ((∀ c ∈ cols, (s.heap c).cpt ∉ specialTypes) ∧ 2 ≤ cols.length)

theorem shows_columns {allow : Op → Prop} {s : St} (r : Reach allow s) {tb : Nat} {c : DVal} {cols : List DVal} (h : Shows s tb c) (hc : (s.heap tb).cls.isSection = false)
    (hv : lower (s.heap tb).tvn ≠ py!"column") (hl : ColumnsListed s (namedIn s (s.heap tb).children (py!"column"))) (hi : dIter c = .ok cols) :
    List.Forall₂ (fun c d => termAsDict true c s = .ok d s) (namedIn s (s.heap tb).children (py!"column")) cols := by
  obtain ⟨d, hd, hg⟩ := h
  have hd' : termAsDict true tb s = .ok (.dict d) s := by
    unfold asDict at hd
    rw [bind_run, obj_run] at hd
    dsimp only at hd
    cases hcl : (s.heap tb).cls with
    | root => rw [hcl] at hc; cases hc
    | «section» => rw [hcl] at hc; cases hc
    | term => rw [hcl] at hd; exact hd
    | user n => rw [hcl] at hd; exact hd
  by_cases hk : (s.heap tb).children = []
  · rw [C08_leaf true hk] at hd'; cases hd'
  obtain ⟨d', hf, e⟩ := termAsDict_kids hd' hk
  cases e
  have w : WF False s := r.wf fun f => f.elim
  have hent := hf.entry w (py!"column")
  have hva : ¬ ValueAt true (s.heap tb) (py!"column") := fun h => hv (by have := h.2; simpa [valueName] using this.symm)
  rw [dictValue_get hva] at hg
  rw [hg] at hent
  have hc2 : c = .list ((namedIn s (s.heap tb).children (py!"column")).map (convOf s true)) := by
    rcases hl with hs | ⟨ha, h2⟩
    · have := hent.seq hs
      generalize (namedIn s (s.heap tb).children (py!"column")) = l at this
      cases l with
      | nil => cases this
      | cons a l => cases this; rfl
    · have := hent.any ha
      generalize (namedIn s (s.heap tb).children (py!"column")) = l at this h2
      match l, h2 with
      | a :: b :: l, _ => cases this; rfl
  rw [hc2] at hi
  cases hi
  rw [List.forall₂_map_right_iff, List.forall₂_same]
  intro c hc
  exact hf.conv c (List.mem_filter.1 hc).1

/-- **C56** (what is listed). When `convert_to_datapackage` returns, the document is as before and the result is a dict with a name. Its
list of resources has one entry for each `Datafile` term of the section `Resources` that has a name and is described by a table of the
section `Schema`, in the order of the document. The entry has the URL as path, the name, and the fields made of the columns of the
table: one for each column, in their order, with the mapped type, when the columns are shown as a list; the result has no fields made
of anything else. All other entries are those of
the section `Root` with those of `Identity` put over them. Partial because the code fails for documents it should convert: see
`C56_single_witness` and `C56_identifier_witness`. -/
theorem C56_resources_partial {allow : Op → Prop} {s s' : St} (rc : Reach allow s) {v : DVal} (h : convertToDatapackage s = .ok v s') :
    s' = s ∧ ∃ (d : Dict DVal) (x y : Nat) (es : List DVal), v = .dict d ∧ getSection s (py!"schema") = .ok x ∧
      getSection s (py!"resources") = .ok y ∧ d.get? (py!"resources") = some (.list es) ∧
      (∃ rs : List (Dict Val), List.Forall₂ (fun t r => argProps s t = .ok r) ((s.heap y).terms.filter fun t => isDatafile (s.heap t)) rs ∧
        List.Forall₂ (fun r e => ∃ tb fields, tableFor s (s.heap x).terms r = some tb ∧ IsResource r fields e ∧
          (∃ c, Shows s tb c ∧ FieldsOf c fields) ∧
          ((s.heap tb).cls.isSection = false → lower (s.heap tb).tvn ≠ py!"column" →
            ColumnsListed s (namedIn s (s.heap tb).children (py!"column")) →
            List.Forall₂ (fun c f => ∃ cd, termAsDict true c s = .ok (.dict cd) s ∧ IsField cd f)
              (namedIn s (s.heap tb).children (py!"column")) fields))
          (rs.filter fun r => (tableFor s (s.heap x).terms r).isSome) es) ∧
      ∃ (z : Nat) (rd idd : Dict DVal), getSection s (py!"root") = .ok z ∧ asDict z s = .ok (.dict rd) s ∧ IdentityEntries s idd ∧
        (∀ n, n ≠ py!"resources" → n ≠ py!"name" → d.get? n = (idd.get? n).or (rd.get? n)) ∧
        (d.get? (py!"name")).isSome ∧ ∀ w, (idd.get? (py!"name")).or (rd.get? (py!"name")) = some w → d.get? (py!"name") = some w := by
  have w : WF False s := rc.wf fun f => f.elim
  have hl : ∀ i, lower (s.heap i).rt = (s.heap i).rt := fun i => (w.low i).2
  unfold convertToDatapackage at h
  obtain ⟨dp, s1, hb, h1⟩ := bind_ok.1 h
  obtain ⟨e1, z, rd, idd, hz, hrd, hid, -, hdp⟩ := packageBase_ok hl hb
  rw [e1] at h1
  obtain ⟨dp2, s2, hn, h2⟩ := bind_ok.1 h1
  obtain ⟨hn', e2⟩ := lift_ok.1 hn
  rw [e2] at h2
  obtain ⟨tabs, s3, ht, h3⟩ := bind_ok.1 h2
  have ht' : ∃ x, getSection s (py!"schema") = .ok x ∧ schemasOf [] (s.heap x).terms s = .ok tabs s3 := by
    unfold tableSchemas tryKey at ht
    rw [bind_run, lift_run] at ht
    cases hx : getSection s (py!"schema") with
    | error e => rw [hx] at ht; cases getSection_err hx; cases ht
    | ok x =>
      rw [hx] at ht
      dsimp only at ht
      rw [bind_run, obj_run] at ht
      dsimp only at ht
      refine ⟨x, rfl, ?_⟩
      cases hs : schemasOf [] (s.heap x).terms s with
      | ok a s4 => rw [hs] at ht; exact ht
      | err e s4 =>
        rw [hs] at ht
        dsimp only at ht
        split at ht <;> cases ht
  obtain ⟨x, hx, hs⟩ := ht'
  have e3 := (schemasOf_ok hs).1
  rw [e3] at h3
  obtain ⟨y, s4, hy, h4⟩ := bind_ok.1 h3
  obtain ⟨hy', e4⟩ := lift_ok.1 hy
  rw [e4] at h4
  obtain ⟨rs, s5, hrs, h5⟩ := bind_ok.1 h4
  obtain ⟨hrs', e5⟩ := lift_ok.1 hrs
  rw [e5] at h5
  obtain ⟨ds, s6, hds, h6⟩ := bind_ok.1 h5
  obtain ⟨hds', e6⟩ := lift_ok.1 hds
  rw [e6] at h6
  cases h6
  refine ⟨rfl, _, x, y, ds, rfl, hx, hy', Dict.get?_set_self _ _ _, ⟨rs, fileResources_ok hrs', ?_⟩, z, rd, idd, hz, hrd, hid, ?_⟩
  · refine (mkResources_ok hs hds').imp ?_
    rintro r e ⟨tb, c, htb, hsh, hmk⟩
    obtain ⟨cols, fields, hit, hff, hres⟩ := mkResource_ok hmk
    refine ⟨tb, fields, htb, hres, ⟨c, hsh, dIter_fields hit hff⟩, fun hc hv hcl => ?_⟩
    have := shows_columns rc hsh hc hv hcl hit
    clear * - this hff
    generalize namedIn s (s.heap tb).children (py!"column") = l at this
    induction this generalizing fields with
    | nil => cases hff; exact .nil
    | cons h _ ih =>
      cases hff with
      | cons h' hr =>
        obtain ⟨cd, rfl, hf⟩ := h'
        exact .cons ⟨cd, h, hf⟩ (ih _ hr)
  · have hres : ∀ n, n ≠ py!"resources" → (Dict.set dp2 (py!"resources") (.list ds)).get? n = dp2.get? n := by
      intro n hne; rw [Dict.get?_set, if_neg (Ne.symm hne)]
    have hname : py!"name" ≠ py!"resources" := by decide
    unfold packageName at hn'
    by_cases hh : dp.has (py!"name") = true
    · rw [if_pos hh] at hn'
      cases hn'
      refine ⟨fun n h1 _ => by rw [hres n h1, hdp], ?_, fun w hw => by rw [hres _ hname, hdp, hw]⟩
      rw [hres _ hname]
      cases hg : dp.get? (py!"name") with
      | none => exact absurd (Dict.has_iff.1 hh) (Dict.get?_eq_none.1 hg)
      | some w => rfl
    · rw [if_neg hh] at hn'
      cases hi : dp.get? (py!"indentifier") with
      | none => rw [hi] at hn'; cases hn'
      | some w =>
        rw [hi] at hn'
        cases hn'
        refine ⟨fun n h1 h2 => by rw [hres n h1, Dict.get?_set, if_neg (Ne.symm h2), hdp], ?_, fun u hu => ?_⟩
        · rw [hres _ hname, Dict.get?_set_self]; rfl
        · rw [← hdp] at hu
          have : dp.get? (py!"name") = none := Dict.get?_eq_none.2 fun h => hh (Dict.has_iff.2 h)
          rw [this] at hu; cases hu

theorem packageBase_run {s : St} {z : Nat} {rd idd : Dict DVal} (hz : getSection s (py!"root") = .ok z) (hrd : asDict z s = .ok (.dict rd) s)
    (hid : IdentityEntries s idd) : packageBase s = .ok (rd.update idd) s := by
  unfold packageBase
  rw [bind_run, lift_run, hz]
  dsimp only
  rw [bind_run, hrd]
  dsimp only
  unfold tryKey
  rw [bind_run, lift_run]
  unfold IdentityEntries at hid
  cases hy : getSection s (py!"identity") with
  | error e =>
    rw [hy] at hid
    cases getSection_err hy
    cases hid
    rfl
  | ok y =>
    rw [hy] at hid
    dsimp only at hid ⊢
    rcases hid with hid | ⟨hid, rfl⟩
    · rw [bind_run, hid]; rfl
    · rw [bind_run, hid]; rfl

theorem identity_nodup {s : St} {idd : Dict DVal} (h : IdentityEntries s idd) : idd.keys.Nodup := by
  unfold IdentityEntries at h
  split at h
  · subst h; simp [Dict.keys]
  · rcases h with h | ⟨-, rfl⟩
    · exact asDict_nodup h
    · simp [Dict.keys]

/-- **C56** (no name). When neither `Root` nor `Identity` has an entry called `name`, nor one with the name misspelt in the code, the
conversion raises `ConversionError` and the document is as before. -/
theorem C56_no_name {s : St} {z : Nat} {rd idd : Dict DVal} (hz : getSection s (py!"root") = .ok z) (hrd : asDict z s = .ok (.dict rd) s)
    (hid : IdentityEntries s idd) (h1 : py!"name" ∉ rd.keys) (h2 : py!"name" ∉ idd.keys) (h3 : py!"indentifier" ∉ rd.keys)
    (h4 : py!"indentifier" ∉ idd.keys) : convertToDatapackage s = .err .conversionError s := by
  unfold convertToDatapackage
  rw [bind_run, packageBase_run hz hrd hid]
  dsimp only
  have hg : ∀ n, n ∉ rd.keys → n ∉ idd.keys → (rd.update idd).get? n = none := by
    intro n ha hb
    rw [Dict.get?_update, get?_reverse (identity_nodup hid), Dict.get?_eq_none.2 ha, Dict.get?_eq_none.2 hb]
    rfl
  have : packageName (rd.update idd) = .error .conversionError := by
    unfold packageName
    rw [if_neg (fun h => Dict.get?_eq_none.1 (hg _ h1 h2) (Dict.has_iff.1 h)), hg _ h3 h4]
  rw [bind_run, lift_run, this]

/-- **C56** (no schema). A document with a name but without the section `Schema` cannot be converted: `ConversionError`. -/
theorem C56_no_schema {s : St} {z : Nat} {rd idd : Dict DVal} (hz : getSection s (py!"root") = .ok z) (hrd : asDict z s = .ok (.dict rd) s)
    (hid : IdentityEntries s idd) (h1 : py!"name" ∈ rd.keys ∨ py!"name" ∈ idd.keys) (h2 : py!"schema" ∉ s.sections.keys) :
    convertToDatapackage s = .err .conversionError s := by
  unfold convertToDatapackage
  rw [bind_run, packageBase_run hz hrd hid]
  dsimp only
  have hg : (rd.update idd).has (py!"name") = true := by
    rw [Dict.has_iff]
    by_contra hn
    have := Dict.get?_eq_none.2 hn
    rw [Dict.get?_update, get?_reverse (identity_nodup hid), Option.or_eq_none_iff, Dict.get?_eq_none, Dict.get?_eq_none] at this
    rcases h1 with h1 | h1
    · exact this.2 h1
    · exact this.1 h1
  have : packageName (rd.update idd) = .ok (rd.update idd) := by unfold packageName; rw [if_pos hg]
  rw [bind_run, lift_run, this]
  dsimp only
  have hs : getSection s (py!"schema") = .error .keyError := by
    unfold getSection
    rw [show lower (py!"schema") = py!"schema" by decide, Dict.get?_eq_none.2 h2]
  rw [bind_run]
  unfold tableSchemas tryKey
  rw [bind_run, lift_run, hs]
  rfl

/-- The column can be made into a field: it has properties, and its data type, if any, is a plain value. -/
def _root_.Spec.GoodColumn (c : DVal) : Prop := ∃ cd : Dict DVal, c = .dict cd ∧ ∀ t, cd.get? (py!"datatype") = some t → ∃ v, t = .val v

theorem mkField_total {c : DVal} (h : GoodColumn c) : ∃ f, mkField c = .ok f := by
  obtain ⟨cd, rfl, hd⟩ := h
  have : ∃ t, mapType ((Dict.get? cd (py!"datatype")).getD (.val .none)) = .ok t := by
    cases hg : Dict.get? cd (py!"datatype") with
    | none => exact ⟨_, rfl⟩
    | some t =>
      obtain ⟨v, rfl⟩ := hd t hg
      cases v <;> exact ⟨_, rfl⟩
  obtain ⟨t, ht⟩ := this
  refine ⟨.dict (Dict.set ([py!"name", py!"title", py!"description"].foldl (copyProp cd) []) (py!"type") t), ?_⟩
  show ((mapType ((Dict.get? cd (py!"datatype")).getD (.val .none))) >>= fun t => _) = _
  rw [ht]
  rfl

theorem schemasOf_total {s : St} : ∀ {ts : List Nat} {acc : List (Val × DVal)}, (∀ t ∈ ts, ∃ c, Shows s t c) →
    ∃ tabs, schemasOf acc ts s = .ok tabs s
  | [], acc, _ => ⟨acc, rfl⟩
  | t :: ts, acc, h => by
    obtain ⟨c, d, hd, hg⟩ := h t List.mem_cons_self
    obtain ⟨tabs, ht⟩ := schemasOf_total (ts := ts) (acc := vSet acc (s.heap t).value c) fun u hu => h u (List.mem_cons_of_mem _ hu)
    refine ⟨tabs, ?_⟩
    unfold schemasOf
    rw [bind_run, obj_run]
    dsimp only
    rw [bind_run, hd]
    dsimp only
    rw [bind_run, lift_run, columnOf_ok.2 ⟨d, rfl, hg⟩]
    exact ht

theorem fileResources_total {s : St} : ∀ {ts : List Nat}, (∀ t ∈ ts, isDatafile (s.heap t) = true → ∃ r, argProps s t = .ok r) →
    ∃ rs, fileResources s ts = .ok rs
  | [], _ => ⟨[], rfl⟩
  | t :: ts, h => by
    obtain ⟨rs, hrs⟩ := fileResources_total fun u hu => h u (List.mem_cons_of_mem _ hu)
    unfold fileResources
    have ht := isDatafile_iff (s.heap t)
    dsimp only
    rw [ht]
    cases hb : isDatafile (s.heap t) with
    | false => exact ⟨rs, hrs⟩
    | true =>
      obtain ⟨r, hr⟩ := h t List.mem_cons_self hb
      refine ⟨r :: rs, ?_⟩
      show (argProps s t >>= fun r => fileResources s ts >>= fun rs => .ok (r :: rs)) = _
      rw [hr, hrs]
      rfl

/-- The entry of a table: it stems from one of the tables. -/
theorem vGet_schemas {s s' : St} {ts : List Nat} {tabs : List (Val × DVal)} (ht : schemasOf [] ts s = .ok tabs s') {v : Val} {c : DVal}
    (h : vGet tabs v = some c) : ∃ t ∈ ts, Shows s t c := by
  have := (schemasOf_ok ht).2.2 v
  cases hl : lastWith s ts v with
  | none =>
    rw [hl] at this
    have : vGet tabs v = vGet [] v := this
    rw [this] at h; cases h
  | some t =>
    rw [hl] at this
    obtain ⟨c', hs, hg⟩ := this
    rw [hg] at h
    cases h
    exact ⟨t, (List.mem_filter.1 (List.mem_of_getLast? hl)).1, hs⟩

/-- **C56** (it succeeds). A document that has a name, a `Schema` section where every table shows a list of columns that have properties,
and a `Resources` section where every data file has a name and a URL is converted. -/
theorem C56_succeeds {s : St} {x y z : Nat} {rd idd : Dict DVal} (hz : getSection s (py!"root") = .ok z)
    (hrd : asDict z s = .ok (.dict rd) s) (hid : IdentityEntries s idd) (h1 : py!"name" ∈ rd.keys ∨ py!"name" ∈ idd.keys)
    (hx : getSection s (py!"schema") = .ok x) (hy : getSection s (py!"resources") = .ok y)
    (ht : ∀ t ∈ (s.heap x).terms, ∃ (d : Dict DVal) (cols : List DVal), asDict t s = .ok (.dict d) s ∧
      d.get? (py!"column") = some (.list cols) ∧ ∀ c ∈ cols, GoodColumn c)
    (hr : ∀ t ∈ (s.heap y).terms, isDatafile (s.heap t) = true → ∃ r u n, argProps s t = .ok r ∧ r.get? (py!"url") = some u ∧
      r.get? (py!"name") = some n) :
    ∃ d, convertToDatapackage s = .ok (.dict d) s := by
  obtain ⟨tabs, htabs⟩ := schemasOf_total (s := s) (ts := (s.heap x).terms) (acc := []) fun t hm => by
    obtain ⟨d, cols, hd, hg, -⟩ := ht t hm
    exact ⟨_, d, hd, hg⟩
  obtain ⟨rs, hrs⟩ := fileResources_total (s := s) (ts := (s.heap y).terms) fun t hm hb => by
    obtain ⟨r, u, n, h, -⟩ := hr t hm hb
    exact ⟨r, h⟩
  have hprops : ∀ r ∈ rs, ∃ u n, r.get? (py!"url") = some u ∧ r.get? (py!"name") = some n := by
    intro r hm
    obtain ⟨t, htm, har⟩ := forall₂_mem_right (fileResources_ok hrs) hm
    rw [List.mem_filter] at htm
    obtain ⟨r', u, n, h, hu, hn⟩ := hr t htm.1 htm.2
    rw [har] at h
    cases h
    exact ⟨u, n, hu, hn⟩
  have hcols : ∀ v c, vGet tabs v = some c → ∃ cols, c = .list cols ∧ ∀ k ∈ cols, GoodColumn k := by
    intro v c h
    obtain ⟨t, hm, d, hd, hg⟩ := vGet_schemas htabs h
    obtain ⟨d', cols, hd', hg', hgood⟩ := ht t hm
    rw [hd] at hd'
    cases hd'
    rw [hg] at hg'
    cases hg'
    exact ⟨cols, rfl, hgood⟩
  have hds : ∀ l : List (Dict Val), (∀ r ∈ l, r ∈ rs) → ∃ ds, mkResources tabs l = .ok ds := by
    intro l
    induction l with
    | nil => exact fun _ => ⟨[], rfl⟩
    | cons r l ih =>
      intro hsub
      obtain ⟨ds, hds⟩ := ih fun q hq => hsub q (List.mem_cons_of_mem _ hq)
      obtain ⟨u, n, hu, hn⟩ := hprops r (hsub r List.mem_cons_self)
      unfold mkResources
      cases hc : columnsFor tabs r with
      | none => exact ⟨ds, hds⟩
      | some c =>
        have : ∃ v, vGet tabs v = some c := by
          unfold columnsFor at hc
          split at hc
          · rw [hn] at hc; exact ⟨n, hc⟩
          · obtain ⟨w, -, hw⟩ := Option.bind_eq_some_iff.1 hc; exact ⟨w, hw⟩
        obtain ⟨v, hv⟩ := this
        obtain ⟨cols, rfl, hgood⟩ := hcols v c hv
        have : ∃ fs, cols.mapM mkField = .ok fs := by
          clear * - hgood
          induction cols with
          | nil => exact ⟨[], rfl⟩
          | cons k l ih =>
            obtain ⟨f, hf⟩ := mkField_total (hgood k List.mem_cons_self)
            obtain ⟨fs, hfs⟩ := ih fun q hq => hgood q (List.mem_cons_of_mem _ hq)
            exact ⟨f :: fs, mapM_iff.2 (.cons hf (mapM_iff.1 hfs))⟩
        obtain ⟨fs, hfs⟩ := this
        have hmk : mkResource r (.list cols) = .ok (.dict [(py!"path", .val u), (py!"name", .val n), (py!"schema", .dict [(py!"fields", .list fs)])]) := by
          unfold mkResource keyed dIter
          rw [hu, hn]
          show (cols.mapM mkField >>= fun fs => _) = _
          rw [hfs]
          rfl
        refine ⟨(.dict [(py!"path", .val u), (py!"name", .val n), (py!"schema", .dict [(py!"fields", .list fs)])]) :: ds, ?_⟩
        show (mkResource r (.list cols) >>= fun d => mkResources tabs l >>= fun ds => .ok (d :: ds)) = _
        rw [hmk, hds]
        rfl
  obtain ⟨ds, hds⟩ := hds rs fun _ h => h
  have hg : (rd.update idd).has (py!"name") = true := by
    rw [Dict.has_iff]
    by_contra hn
    have := Dict.get?_eq_none.2 hn
    rw [Dict.get?_update, get?_reverse (identity_nodup hid), Option.or_eq_none_iff, Dict.get?_eq_none, Dict.get?_eq_none] at this
    rcases h1 with h1 | h1
    · exact this.2 h1
    · exact this.1 h1
  have hname : packageName (rd.update idd) = .ok (rd.update idd) := by unfold packageName; rw [if_pos hg]
  have htab : tableSchemas s = .ok tabs s := by
    unfold tableSchemas tryKey
    rw [bind_run, lift_run, hx]
    dsimp only
    rw [bind_run, obj_run]
    dsimp only
    rw [htabs]
  refine ⟨Dict.set (rd.update idd) (py!"resources") (.list ds), ?_⟩
  unfold convertToDatapackage
  rw [bind_run, packageBase_run hz hrd hid]
  dsimp only
  rw [bind_run, lift_run, hname]
  dsimp only
  rw [bind_run, htab]
  dsimp only
  rw [bind_run, lift_run, hy]
  dsimp only
  rw [bind_run, lift_run, hrs]
  dsimp only
  rw [bind_run, lift_run, hds]
  rfl

/-! ## Examples and counterexamples -/

/-- A document with two described data files, one of them by its `Table`, and one that is not described. -/
def dpRows : List (List Str) :=
  [[py!"Name", py!"ds"], [py!"Title", py!"t"], [py!"Section", py!"Resources", py!"Name", py!"Table", py!"Url"],
   [py!"Datafile", py!"x", py!"one", [], py!"http://a"], [py!"Datafile", py!"x", py!"two", py!"one", py!"http://b"],
   [py!"Datafile", py!"x", py!"three", [], py!"http://c"], [py!"Section", py!"Schema", py!"DataType", py!"Name"], [py!"Table", py!"one"],
   [py!"Table.Column", [], py!"int", py!"a"], [py!"Table.Column", py!"y", py!"text", py!"b"]]

theorem dp_example : ∃ s', convertToDatapackage (exParse dpRows) = .ok (.dict [(py!"name", .ofStr (py!"ds")), (py!"title", .ofStr (py!"t")),
    (py!"resources", .list [
      .dict [(py!"path", .ofStr (py!"http://a")), (py!"name", .ofStr (py!"one")), (py!"schema", .dict [(py!"fields", .list [
        .dict [(py!"name", .ofStr (py!"a")), (py!"type", .ofStr (py!"integer"))], .dict [(py!"name", .ofStr (py!"b")), (py!"type", .ofStr (py!"string"))]])])],
      .dict [(py!"path", .ofStr (py!"http://b")), (py!"name", .ofStr (py!"two")), (py!"schema", .dict [(py!"fields", .list [
        .dict [(py!"name", .ofStr (py!"a")), (py!"type", .ofStr (py!"integer"))], .dict [(py!"name", .ofStr (py!"b")), (py!"type", .ofStr (py!"string"))]])])]])]) s' :=
  returns_eq (by decide +kernel)

/-- The hypotheses of `C56_resources_partial` are met. -/
example : ∃ s', s' = exParse dpRows ∧ ∃ v, convertToDatapackage (exParse dpRows) = .ok v s' := by
  obtain ⟨s', h⟩ := dp_example
  exact ⟨s', (C56_resources_partial (exParse_reach (allow := fun _ => True) dpRows trivial) h).1, _, h⟩

/-- A table with only one column, which is shown as a dict and not as a list of one: the code takes the names of its properties for
columns and fails. -/
theorem C56_single_witness : ∃ s', convertToDatapackage (exParse dpRows.dropLast) = .err .attributeError s' := raises_eq (by decide +kernel)

/-- A document with an `Identifier` and no `Name` is refused, although the code means to use the identifier: it looks for a misspelt
entry. -/
theorem C56_identifier_witness : ∃ s', convertToDatapackage (exParse ([py!"Identifier", py!"u"] :: dpRows.drop 1)) = .err .conversionError s' := raises_eq (by decide +kernel)

/-- The hypotheses of `C56_no_name` are met by that document. -/
example : ∃ (z : Nat) (rd idd : Dict DVal), getSection (exParse ([py!"Identifier", py!"u"] :: dpRows.drop 1)) (py!"root") = .ok z ∧
    asDict z (exParse ([py!"Identifier", py!"u"] :: dpRows.drop 1)) = .ok (.dict rd) (exParse ([py!"Identifier", py!"u"] :: dpRows.drop 1)) ∧
    IdentityEntries (exParse ([py!"Identifier", py!"u"] :: dpRows.drop 1)) idd ∧ py!"name" ∉ rd.keys ∧ py!"name" ∉ idd.keys ∧
    py!"indentifier" ∉ rd.keys ∧ py!"indentifier" ∉ idd.keys := by
  have hx : getSection (exParse ([py!"Identifier", py!"u"] :: dpRows.drop 1)) (py!"root") = .ok 0 := by decide +kernel
  obtain ⟨s', h⟩ : ∃ s', asDict 0 (exParse ([py!"Identifier", py!"u"] :: dpRows.drop 1)) =
      .ok (.dict [(py!"identifier", .ofStr (py!"u")), (py!"title", .ofStr (py!"t"))]) s' := returns_eq (by decide +kernel)
  have e := asDict_same h
  rw [e] at h
  refine ⟨0, _, [], hx, h, ?_, by decide, by decide, by decide, by decide⟩
  have : getSection (exParse ([py!"Identifier", py!"u"] :: dpRows.drop 1)) (py!"identity") = .error .keyError := by decide +kernel
  unfold IdentityEntries
  rw [this]

/-- The value of the section `Identity` ends up in the result as an entry `@value`. -/
theorem C56_identity_witness : ∃ s', convertToDatapackage (exParse [[py!"Title", py!"t"], [py!"Section", py!"Identity"], [py!"Name", py!"n"],
    [py!"Section", py!"Schema"], [py!"Section", py!"Resources"]]) = .ok (.dict [(py!"title", .ofStr (py!"t")), (py!"name", .ofStr (py!"n")),
      (py!"@value", .ofStr (py!"Identity")), (py!"resources", .list [])]) s' := returns_eq (by decide +kernel)

/-- A document without `Schema`. -/
example : ∃ s', convertToDatapackage (exParse [[py!"Name", py!"n"], [py!"Section", py!"Resources"]]) = .err .conversionError s' := raises_eq (by decide +kernel)

/-- The hypotheses of `C56_succeeds` are met. -/
example : ∃ d, convertToDatapackage (exParse dpRows) = .ok (.dict d) (exParse dpRows) := by
  have conv : ∀ t v, returns v (asDict t (exParse dpRows)) = true → asDict t (exParse dpRows) = .ok v (exParse dpRows) := by
    intro t v h
    obtain ⟨s', h⟩ := returns_eq h
    have e := asDict_same h
    rw [e] at h
    exact h
  refine C56_succeeds (z := 0) (x := 14) (y := 3) (idd := []) (rd := [(py!"name", .ofStr (py!"ds")), (py!"title", .ofStr (py!"t"))])
    (by decide +kernel) (conv _ _ (by decide +kernel)) ?_ (.inl (by decide)) (by decide +kernel) (by decide +kernel) ?_ ?_
  · have : getSection (exParse dpRows) (py!"identity") = .error .keyError := by decide +kernel
    unfold IdentityEntries
    rw [this]
  · have ht : ((exParse dpRows).heap 14).terms = [15] := by decide +kernel
    rw [ht]
    intro t h
    rw [List.mem_singleton] at h
    subst h
    refine ⟨[(py!"column", .list [.dict [(py!"datatype", .ofStr (py!"int")), (py!"name", .ofStr (py!"a"))],
      .dict [(py!"datatype", .ofStr (py!"text")), (py!"name", .ofStr (py!"b")), (py!"@value", .ofStr (py!"y"))]]), (py!"@value", .ofStr (py!"one"))], _,
      conv _ _ (by decide +kernel), rfl, ?_⟩
    intro c hc
    rcases List.mem_cons.1 hc with rfl | hc
    · refine ⟨_, rfl, fun t h => ?_⟩; cases h; exact ⟨_, rfl⟩
    · rw [List.mem_singleton] at hc
      subst hc
      refine ⟨_, rfl, fun t h => ?_⟩; cases h; exact ⟨_, rfl⟩
  · have ht : ((exParse dpRows).heap 3).terms = [4, 7, 11] := by decide +kernel
    rw [ht]
    have key : ∀ t ∈ [4, 7, 11], (match argProps (exParse dpRows) t with
        | .ok r => (r.get? (py!"url")).isSome && (r.get? (py!"name")).isSome
        | .error _ => false) = true := by decide +kernel
    intro t hm _
    have := key t hm
    cases hr : argProps (exParse dpRows) t with
    | error e => rw [hr] at this; cases this
    | ok r =>
      rw [hr] at this
      simp only [Bool.and_eq_true] at this
      obtain ⟨u, hu⟩ := Option.isSome_iff_exists.1 this.1
      obtain ⟨n, hn⟩ := Option.isSome_iff_exists.1 this.2
      exact ⟨r, u, n, rfl, hu, hn⟩

end Metatab
