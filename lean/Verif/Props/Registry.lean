import Verif.Lemmas.Examples
import Verif.Lemmas.Dict
import Verif.Lemmas.Order
/-! # C41: the term class registry. C39: the table of derived terms. -/
namespace Metatab
open Py

/-- A call on the registry. -/
inductive RegOp
  | register (name : Str) (c : Cls)
  | unregister (name : Str)

/-- Run a call. -/
def RegOp.run : RegOp → M Unit
  | .register n c => registerClass n c
  | .unregister n => unregisterClass n

/-- Run calls in order. -/
def runReg : List RegOp → M Unit
  | [] => pure ()
  | op :: ops => do op.run; runReg ops

namespace Spec
/-- What the registry holds for a name after some calls, latest call first: the latest call on this name, ignoring case, decides. -/
def registered (init : Option Cls) (name : Str) : List RegOp → Option Cls
  | [] => init
  | .register n c :: earlier => if lower n = lower name then some c else registered init name earlier
  | .unregister n :: earlier => if lower n = lower name then none else registered init name earlier
end Spec

theorem runReg_classes (ops : List RegOp) (s : St) (hn : s.classes.keys.Nodup) :
    ∃ d, runReg ops s = .ok () { s with classes := d } ∧ d.keys.Nodup ∧
      ∀ name, d.get? (lower name) = Spec.registered (s.classes.get? (lower name)) name ops.reverse := by
  induction ops generalizing s with
  | nil => exact ⟨s.classes, rfl, hn, fun _ => rfl⟩
  | cons op ops ih =>
    have app : ∀ (l : List RegOp) (init : Option Cls) (name : Str) (op : RegOp),
        Spec.registered init name (l ++ [op]) = Spec.registered (Spec.registered init name [op]) name l := by
      intro l init name op
      induction l with
      | nil => rfl
      | cons a l ih => cases a <;> simp only [List.cons_append, Spec.registered, ih]
    cases op with
    | register n c =>
      obtain ⟨d, e, hd, hg⟩ := ih { s with classes := s.classes.set (lower n) c } (Dict.nodup_set hn _ _)
      refine ⟨d, by simp only [runReg, bind_run, RegOp.run, registerClass, modify_run]; exact e, hd, ?_⟩
      intro name
      rw [hg name, List.reverse_cons, app]
      simp only [Spec.registered, Dict.get?_set]
    | unregister n =>
      obtain ⟨d, e, hd, hg⟩ := ih { s with classes := s.classes.del (lower n) } (Dict.nodup_del hn _)
      refine ⟨d, by simp only [runReg, bind_run, RegOp.run, unregisterClass, modify_run]; exact e, hd, ?_⟩
      intro name
      rw [hg name, List.reverse_cons, app]
      simp only [Spec.registered, Dict.get?_del hn]

/-- **C41** After any history of registrations and removals, the class for a name is the one of the latest registration of this name,
ignoring case; without one it is the class registered for the declared super-term; without that it is `Term`. Calls for other names have
no influence, a removal leaves the name unregistered, and nothing but the registry changes. -/
theorem C41_registry (ops : List RegOp) (s : St) (hn : s.classes.keys.Nodup) (hsup : ∀ k v, s.superTerms.get? k = some v → lower v = v) :
    ∃ s', runReg ops s = .ok () s' ∧ { s' with classes := s.classes } = s ∧
      ∀ name, docTermClass s' name =
        match Spec.registered (s.classes.get? (lower name)) name ops.reverse with
        | some c => c
        | none => match s.superTerms.get? (lower name) with
          | none => .term
          | some sup => (Spec.registered (s.classes.get? (lower sup)) sup ops.reverse).getD .term := by
  obtain ⟨d, e, _, hg⟩ := runReg_classes ops s hn
  refine ⟨_, e, rfl, ?_⟩
  intro name
  simp only [docTermClass]
  rw [hg name]
  cases Spec.registered (s.classes.get? (lower name)) name ops.reverse with
  | some c => rfl
  | none =>
    simp only
    cases hsu : s.superTerms.get? (lower name) with
    | none => rfl
    | some sup =>
      simp only
      have := hg sup
      rw [hsup _ _ hsu] at this
      rw [this, hsup _ _ hsu]

/-- The parser looks classes up in the same way, in its own table of super-terms. -/
theorem C41_parser (ops : List RegOp) (s : St) (hn : s.classes.keys.Nodup)
    (hsup : ∀ k v, (parserSuperTerms s).get? k = some v → lower v = v) :
    ∃ s', runReg ops s = .ok () s' ∧ { s' with classes := s.classes } = s ∧
      ∀ name, parserTermClass s' name =
        match Spec.registered (s.classes.get? (lower name)) name ops.reverse with
        | some c => c
        | none => match (parserSuperTerms s).get? (lower name) with
          | none => .term
          | some sup => (Spec.registered (s.classes.get? (lower sup)) sup ops.reverse).getD .term := by
  obtain ⟨d, e, _, hg⟩ := runReg_classes ops s hn
  refine ⟨_, e, rfl, ?_⟩
  intro name
  simp only [parserTermClass]
  have hp : parserSuperTerms { s with classes := d } = parserSuperTerms s := rfl
  rw [hg name, hp]
  cases Spec.registered (s.classes.get? (lower name)) name ops.reverse with
  | some c => rfl
  | none =>
    simp only
    cases hsu : (parserSuperTerms s).get? (lower name) with
    | none => rfl
    | some sup =>
      simp only
      have := hg sup
      rw [hsup _ _ hsu] at this
      rw [this, hsup _ _ hsu]

/-- A history with another name, another case and a removal, on a document with an inheritance. -/
example :
    let s := { exDoc with superTerms := [(py!"root.sql", py!"root.datafile")] }
    let s' := after (runReg [.register (py!"Root.Datafile") (.user 1), .register (py!"Root.SQL") (.user 2),
      .register (py!"Root.Doc") (.user 3), .unregister (py!"ROOT.sql")]) s
    (docTermClass s' (py!"Root.Sql"), docTermClass s' (py!"root.doc"), docTermClass s' (py!"Root.Name")) = (.user 1, .user 3, .term) := by
  decide

/-! ## C39 -/

theorem mem_groupBySuper (l : List (Str × Str)) (x y : Str) :
    (∃ ks, (y, ks) ∈ groupBySuper l ∧ x ∈ ks) ↔ (x, y) ∈ l := by
  induction l with
  | nil => simp [groupBySuper]
  | cons kv l ih =>
    obtain ⟨k, v⟩ := kv
    rw [List.mem_cons, ← ih]
    simp only [groupBySuper]
    cases hg : groupBySuper l with
    | nil =>
      simp only [List.mem_singleton, Prod.mk.injEq]
      constructor
      · rintro ⟨ks, ⟨rfl, rfl⟩, hx⟩; simp at hx; exact Or.inl ⟨hx, rfl⟩
      · rintro (⟨rfl, rfl⟩ | ⟨ks, h, _⟩)
        · exact ⟨[x], ⟨rfl, rfl⟩, by simp⟩
        · simp at h
    | cons g gs =>
      obtain ⟨v', ks'⟩ := g
      simp only
      split
      · rename_i e; subst e
        constructor
        · rintro ⟨ks, h, hx⟩
          rcases List.mem_cons.1 h with h | h
          · cases h
            rcases List.mem_cons.1 hx with rfl | hx
            · exact Or.inl rfl
            · exact Or.inr ⟨ks', List.mem_cons_self, hx⟩
          · exact Or.inr ⟨ks, List.mem_cons_of_mem _ h, hx⟩
        · rintro (h | ⟨ks, h, hx⟩)
          · cases h; exact ⟨x :: ks', List.mem_cons_self, List.mem_cons_self⟩
          · rcases List.mem_cons.1 h with h | h
            · cases h; exact ⟨k :: ks', List.mem_cons_self, List.mem_cons_of_mem _ hx⟩
            · exact ⟨ks, List.mem_cons_of_mem _ h, hx⟩
      · constructor
        · rintro ⟨ks, h, hx⟩
          rcases List.mem_cons.1 h with h | h
          · cases h; simp at hx; exact Or.inl (by rw [hx])
          · exact Or.inr ⟨ks, h, hx⟩
        · rintro (h | ⟨ks, h, hx⟩)
          · cases h; exact ⟨[x], List.mem_cons_self, by simp⟩
          · exact ⟨ks, List.mem_cons_of_mem _ h, hx⟩

theorem groupBySuper_head {k v : Str} {l : List (Str × Str)} : ∃ ks gs, groupBySuper ((k, v) :: l) = (v, k :: ks) :: gs := by
  simp only [groupBySuper]
  split
  · rename_i v' ks gs _
    split
    · rename_i e; exact ⟨ks, gs, by rw [e]⟩
    · exact ⟨[], (v', ks) :: gs, rfl⟩
  · exact ⟨[], [], rfl⟩

theorem groupBySuper_keys_sub (l : List (Str × Str)) (y : Str) (h : y ∈ (groupBySuper l).map (·.1)) : ∃ x, (x, y) ∈ l := by
  obtain ⟨⟨v, ks⟩, hm, rfl⟩ := List.mem_map.1 h
  have hne : ∀ l : List (Str × Str), ∀ g ∈ groupBySuper l, g.2 ≠ [] := by
    intro l
    induction l with
    | nil => simp [groupBySuper]
    | cons kv l ih =>
      obtain ⟨k, v⟩ := kv
      intro g hg
      simp only [groupBySuper] at hg
      split at hg
      · rename_i v' ks gs hgs
        split at hg
        · rcases List.mem_cons.1 hg with rfl | hg
          · simp
          · exact ih g (by rw [hgs]; exact List.mem_cons_of_mem _ hg)
        · rcases List.mem_cons.1 hg with rfl | hg
          · simp
          · exact ih g (by rw [hgs]; exact hg)
      · simp at hg; subst hg; simp
  obtain ⟨x, hx⟩ := List.exists_mem_of_ne_nil ks (hne l _ hm)
  exact ⟨x, (mem_groupBySuper l x v).1 ⟨ks, hm, hx⟩⟩

theorem groupBySuper_nodup {l : List (Str × Str)} (h : l.Pairwise fun a b => strLe a.2 b.2 = true) :
    ((groupBySuper l).map (·.1)).Nodup := by
  induction l with
  | nil => simp [groupBySuper]
  | cons kv l ih =>
    obtain ⟨k, v⟩ := kv
    rw [List.pairwise_cons] at h
    have ih := ih h.2
    simp only [groupBySuper]
    cases hg : groupBySuper l with
    | nil => simp
    | cons g gs =>
      obtain ⟨v', ks⟩ := g
      rw [hg] at ih
      simp only
      split
      · exact ih
      · rename_i hne
        rw [List.map_cons, List.nodup_cons]
        refine ⟨?_, ih⟩
        intro hv
        cases l with
        | nil => simp [groupBySuper] at hg
        | cons kv2 l2 =>
          obtain ⟨k2, v2⟩ := kv2
          obtain ⟨ks2, gs2, e2⟩ := groupBySuper_head (k := k2) (v := v2) (l := l2)
          rw [e2] at hg
          cases hg
          have h1 := h.1 (k2, v') List.mem_cons_self
          have hv' : v ∈ (groupBySuper ((k2, v') :: l2)).map (·.1) := by rw [e2]; exact hv
          obtain ⟨x, hx⟩ := groupBySuper_keys_sub _ _ hv'
          rcases List.mem_cons.1 hx with hx | hx
          · cases hx; exact hne rfl
          · have h2 := (List.pairwise_cons.1 h.2).1 _ hx
            exact hne (strLe_antisymm h1 h2)

/-- **C39** The table of derived terms is the inverse of the table of super-terms: `x` is listed under `y` exactly when `y` is recorded as the
super-term of `x`. -/
theorem C39_inverse {sup : Dict Str} (hn : sup.keys.Nodup) (x y : Str) :
    (∃ l, (derivedOf sup).get? y = some l ∧ x ∈ l) ↔ sup.get? x = some y := by
  have hd : derivedOf sup = groupBySuper (sortBy (·.2) sup) := by
    unfold derivedOf
    rw [Dict.update_append_fresh]
    · simp
    · exact groupBySuper_nodup (sortBy_sorted _ _)
    · intro k _; simp [Dict.keys]
  have hnd : (derivedOf sup).keys.Nodup := by rw [hd]; exact groupBySuper_nodup (sortBy_sorted _ _)
  have hm : ∀ l, (derivedOf sup).get? y = some l ↔ (y, l) ∈ derivedOf sup :=
    fun l => ⟨Dict.mem_of_get?, Dict.get?_of_mem hnd⟩
  simp only [hm]
  rw [hd, mem_groupBySuper, (sortBy_perm _ _).mem_iff]
  exact ⟨Dict.get?_of_mem hn, Dict.mem_of_get?⟩

/-- **C39** Each derived name is listed once, under one super-term. -/
theorem C39_once {sup : Dict Str} (hn : sup.keys.Nodup) {y : Str} {l : List Str} (h : (derivedOf sup).get? y = some l) : l.Nodup := by
  have key : ∀ (m : List (Str × Str)), (m.map (·.1)).Nodup → ∀ g ∈ groupBySuper m, g.2.Nodup := by
    intro m
    induction m with
    | nil => simp [groupBySuper]
    | cons kv m ih =>
      obtain ⟨k, v⟩ := kv
      intro hm g hg
      rw [List.map_cons, List.nodup_cons] at hm
      have ih := ih hm.2
      simp only [groupBySuper] at hg
      split at hg
      · rename_i v' ks gs hgs
        split at hg
        · rcases List.mem_cons.1 hg with rfl | hg
          · rw [List.nodup_cons]
            refine ⟨?_, ih (v', ks) (by rw [hgs]; exact List.mem_cons_self)⟩
            intro hk
            have : (k, v') ∈ m := (mem_groupBySuper m k v').1 ⟨ks, by rw [hgs]; exact List.mem_cons_self, hk⟩
            exact hm.1 (List.mem_map.2 ⟨_, this, rfl⟩)
          · exact ih g (by rw [hgs]; exact List.mem_cons_of_mem _ hg)
        · rcases List.mem_cons.1 hg with rfl | hg
          · simp
          · exact ih g (by rw [hgs]; exact hg)
      · simp at hg; subst hg; simp
  have hd : derivedOf sup = groupBySuper (sortBy (·.2) sup) := by
    unfold derivedOf
    rw [Dict.update_append_fresh]
    · simp
    · exact groupBySuper_nodup (sortBy_sorted _ _)
    · intro k _; simp [Dict.keys]
  refine key (sortBy (·.2) sup) ?_ (y, l) (by rw [← hd]; exact Dict.mem_of_get? h)
  exact (((sortBy_perm (fun kv : Str × Str => kv.2) sup).map Prod.fst).nodup_iff).2 hn

/-- **C39** So it is after loading: the tables `load_terms` leaves behind, from any state whose inheritance table is a dictionary. -/
theorem C39_load (s : St) (hn : s.superTerms.keys.Nodup) (x y : Str) :
    let s' := after finishLoad s
    (∃ l, s'.derived.get? y = some l ∧ x ∈ l) ↔ s'.superTerms.get? x = some y :=
  C39_inverse (Dict.nodup_update hn _) x y

/-- Three inheritances, two from the same super-term. -/
example : derivedOf [(py!"root.sql", py!"root.datafile"), (py!"root.b", py!"root.a"), (py!"root.dsn", py!"root.datafile")] =
    [(py!"root.a", [py!"root.b"]), (py!"root.datafile", [py!"root.sql", py!"root.dsn"])] := by decide

/-- The inheritances declared, in lower case. -/
def inherits (d : Dict DTerm) : Dict Str := d.filterMap fun kv => (kv.2.props.get? (py!"inheritsfrom")).map fun v => (lower kv.1, lower v)

/-- **C39** (first load). When a document that has no inheritances so far is loaded, a name is listed as derived from another exactly if
the name is declared with an `InheritsFrom` that names the other, up to letter case. The declared names are lower-case and listed
once. -/
theorem C39_first (s : St) (h0 : s.superTerms = []) (hn : s.p.declTerms.keys.Nodup) (hlow : ∀ k ∈ s.p.declTerms.keys, lower k = k)
    (x y : Str) :
    (∃ l, (after finishLoad s).derived.get? y = some l ∧ x ∈ l) ↔
      ∃ e ih, s.p.declTerms.get? x = some e ∧ e.props.get? (py!"inheritsfrom") = some ih ∧ lower ih = y := by
  have hmem : ∀ kv : Str × Str, kv ∈ inherits s.p.declTerms ↔
      ∃ e ih, s.p.declTerms.get? kv.1 = some e ∧ e.props.get? (py!"inheritsfrom") = some ih ∧ lower ih = kv.2 := by
    intro kv
    unfold inherits
    rw [List.mem_filterMap]
    constructor
    · rintro ⟨⟨k, e⟩, hm, h⟩
      cases hi : e.props.get? (py!"inheritsfrom") with
      | none => rw [hi] at h; cases h
      | some v =>
        rw [hi] at h
        cases h
        refine ⟨e, v, ?_, hi, rfl⟩
        dsimp only
        rw [hlow k (List.mem_map.2 ⟨_, hm, rfl⟩)]
        exact Dict.get?_of_mem hn hm
    · rintro ⟨e, v, hk, hi, hv⟩
      have hm := Dict.mem_of_get? hk
      refine ⟨_, hm, ?_⟩
      dsimp only
      rw [hi, Option.map_some, hlow kv.1 (List.mem_map.2 ⟨_, hm, rfl⟩), hv]
  have hnd : (inherits s.p.declTerms).keys.Nodup := by
    have : ∀ d : Dict DTerm, d.keys.Nodup → (∀ k ∈ d.keys, lower k = k) →
        (inherits d).keys.Sublist d.keys := by
      intro d
      induction d with
      | nil => intro _ _; exact List.Sublist.refl _
      | cons kv d ih =>
        intro h1 h2
        have ih := ih (List.nodup_cons.1 h1).2 fun k hk => h2 k (List.mem_cons_of_mem _ hk)
        unfold inherits at ih ⊢
        rw [List.filterMap_cons]
        cases kv.2.props.get? (py!"inheritsfrom") with
        | none => exact ih.cons _
        | some v =>
          show (lower kv.1 :: _).Sublist (kv.1 :: _)
          rw [h2 kv.1 List.mem_cons_self]
          exact ih.cons_cons _
    exact (this _ hn hlow).nodup hn
  have hsup : (after finishLoad s).superTerms = inherits s.p.declTerms := by
    show s.superTerms.update (parserSuperTerms s) = _
    have e : parserSuperTerms s = Dict.update [] (inherits s.p.declTerms) := by
      unfold parserSuperTerms; rw [h0]; rfl
    have e2 : Dict.update [] (inherits s.p.declTerms) =
        inherits s.p.declTerms := by
      rw [Dict.update_append_fresh hnd (fun k _ => by simp [Dict.keys])]; rfl
    rw [e, e2, h0, e2]
  have hl := C39_load s (by rw [h0]; exact List.nodup_nil) x y
  dsimp only at hl
  rw [hl, hsup]
  constructor
  · intro h; exact (hmem (x, y)).1 (Dict.mem_of_get? h)
  · intro h; exact Dict.get?_of_mem hnd ((hmem (x, y)).2 h)

/-- A document about to finish its first load, with one inheritance declared. -/
def firstLoad (s : St) : St :=
  { s with p := { s.p with declTerms := [(py!"root.sql", ⟨[(py!"inheritsfrom", py!"Root.Datafile")], none⟩), (py!"root.note", ⟨[], none⟩)] } }

/-- The hypotheses of `C39_first` can be met. -/
example (env : Env) : ∃ l, (after finishLoad (firstLoad (newDoc env))).derived.get? (py!"root.datafile") = some l ∧ py!"root.sql" ∈ l :=
  (C39_first (firstLoad (newDoc env)) rfl (by show List.Nodup [py!"root.sql", py!"root.note"]; decide)
    (by show ∀ k ∈ [py!"root.sql", py!"root.note"], lower k = k; decide) _ _).2
    ⟨_, _, rfl, rfl, by decide⟩

end Metatab
