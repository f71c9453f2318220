import Verif.Spec.OutlineEdit
import Verif.Props.Build
/-! # Changing one place of an outline changes nothing else -/
namespace Metatab
open Py _root_.Spec

/-- `b` is `a` or below it. -/
def Below (s : St) : Nat → Nat → Prop := Relation.ReflTransGen fun a b => b ∈ (s.heap a).children

theorem Below.le {s : St} (w : WF True s) {a b : Nat} (h : Below s a b) : a ≤ b := by
  induction h with
  | refl => exact Nat.le_refl _
  | tail _ hc ih => rcases w.edge trivial _ _ hc with h | h <;> omega

/-- Of two objects above another one is above the other. -/
theorem Below.total {s : St} (w : WF True s) {a b u : Nat} (h : Below s a u) (h' : Below s b u) : Below s a b ∨ Below s b a := by
  induction h with
  | refl => exact .inr h'
  | @tail y c h hc ih =>
    rcases Relation.ReflTransGen.cases_tail h' with e | ⟨z, hz, hcz⟩
    · subst e
      exact .inl (h.tail hc)
    · have h1 := w.kidPar trivial _ _ hc
      have h2 := w.kidPar trivial _ _ hcz
      rw [h1] at h2
      injection h2 with h2
      subst h2
      exact ih hz

/-- An object stands for one item only. -/
theorem showsItem_fun {s : St} {x : Nat} : ∀ (i : Item) {i' : Item} {t : Nat}, ShowsItem s x i t → ShowsItem s x i' t → sizeOf i = sizeOf i'
  | .mk n v ks, .mk n' v' ks', t, h, h' => by
    rw [showsItem_mk] at h h'
    obtain ⟨a1, a2, -, -, a5⟩ := h
    obtain ⟨b1, b2, -, -, b5⟩ := h'
    have e1 : n = n' := a1.symm.trans b1
    have e2 : v = v' := by
      rw [a2] at b2
      cases v <;> cases v' <;> simp_all [asVal]
    have e3 : sizeOf ks = sizeOf ks' := by
      rw [showsItems_forall] at a5 b5
      have key : ∀ (m m' : List Item) (l : List Nat), (∀ i ∈ m, ∀ i' t, ShowsItem s x i t → ShowsItem s x i' t → sizeOf i = sizeOf i') →
          List.Forall₂ (ShowsItem s x) m l → List.Forall₂ (ShowsItem s x) m' l → sizeOf m = sizeOf m' := by
        intro m
        induction m with
        | nil =>
          intro m' l _ h1 h2
          cases h1
          cases h2
          rfl
        | cons i m ih =>
          intro m' l hi h1 h2
          cases h1 with
          | cons p q =>
            cases h2 with
            | cons p' q' =>
              simp only [List.cons.sizeOf_spec]
              rw [hi i (by simp) _ _ p p', ih _ _ (fun i hm => hi i (by simp [hm])) q q']
      exact key ks ks' _ (fun i hi i' t h h' => showsItem_fun i h h') a5 b5
    subst e1 e2
    simp only [Item.mk.sizeOf_spec, e3]
  termination_by i => sizeOf i
  decreasing_by
    have := List.sizeOf_lt_of_mem hi
    simp only [Item.mk.sizeOf_spec]
    omega

theorem showsItems_mem {s : St} {x : Nat} {ks : List Item} {l : List Nat} (h : ShowsItems s x ks l) {c : Nat} (hc : c ∈ l) :
    ∃ k ∈ ks, ShowsItem s x k c := by
  rw [showsItems_forall] at h
  obtain ⟨i, hi, rfl⟩ := List.getElem_of_mem hc
  have hl := h.length_eq
  exact ⟨ks[i], List.getElem_mem _, (List.forall₂_iff_get.1 h).2 i (by omega) hi⟩

/-- No object of an outline is its own child. -/
theorem shows_noLoop {s : St} {x : Nat} {i : Item} {t : Nat} (h : ShowsItem s x i t) : t ∉ (s.heap t).children := by
  obtain ⟨n, v, ks⟩ := i
  intro hm
  have h' := showsItem_mk.1 h
  obtain ⟨k, hk, hs⟩ := showsItems_mem h'.2.2.2.2 hm
  have := showsItem_fun _ h hs
  have := List.sizeOf_lt_of_mem hk
  simp only [Item.mk.sizeOf_spec] at *
  omega

/-- None of the objects is above another one. -/
def Apart (s : St) (l : List Nat) : Prop := ∀ a ∈ l, ∀ b ∈ l, a ≠ b → ¬ Below s a b

theorem apart_kids {s : St} (w : WF True s) {x : Nat} {i : Item} {t : Nat} (h : ShowsItem s x i t) : Apart s (s.heap t).children := by
  intro a ha b hb hab hbel
  rcases Relation.ReflTransGen.cases_tail hbel with e | ⟨z, hz, hcz⟩
  · exact hab e.symm
  · have h1 := w.kidPar trivial _ _ hb
    have h2 := w.kidPar trivial _ _ hcz
    rw [h1] at h2
    injection h2 with h2
    subst h2
    have h3 := Below.le w hz
    rcases w.edge trivial _ _ ha with h4 | h4
    · omega
    · exact shows_noLoop h (h4.1 ▸ ha)

theorem below_notSec {s : St} (w : WF True s) {a b : Nat} (ha : (s.heap a).cls.isSection = false) (h : Below s a b) :
    (s.heap b).cls.isSection = false := by
  rcases Relation.ReflTransGen.cases_tail h with e | ⟨z, _, hc⟩
  · rw [e]; exact ha
  · exact w.kidSec trivial _ _ hc

/-- An object that has no parent but the root is not below another term. -/
theorem below_top {s : St} (w : WF True s) {a b : Nat} (ha : (s.heap a).cls.isSection = false)
    (hb : (s.heap b).parent = none ∨ (s.heap b).parent = some s.root) (h : Below s a b) : a = b := by
  rcases Relation.ReflTransGen.cases_tail h with e | ⟨z, hz, hc⟩
  · exact e.symm
  · have h1 := w.kidPar trivial _ _ hc
    rw [h1] at hb
    rcases hb with hb | hb
    · cases hb
    · injection hb with hb
      have := below_notSec w ha hz
      rw [hb, w.rootSec] at this
      cases this

theorem apart_tops {s : St} (w : WF True s) (hT : TermsOnly s) {kv : Str × Nat} (hkv : kv ∈ s.sections) {d : Part} (h : ShowsPart s kv d) :
    Apart s (s.heap kv.2).terms := fun a ha b hb hab hbel => hab (below_top w (hT kv hkv a ha) (h.rootLevel b hb).2 hbel)

mutual
/-- What is not changed shows the same. -/
theorem showsItem_keep {s s' : St} {x : Nat} : ∀ (i : Item) {t : Nat}, (∀ u, Below s t u → core (s'.heap u) = core (s.heap u)) →
    ShowsItem s x i t → ShowsItem s' x i t
  | .mk n v ks, t, hf, hs => by
    rw [showsItem_mk] at hs ⊢
    have e := hf t .refl
    simp only [core, Prod.mk.injEq] at e
    obtain ⟨a, b, c, d, f⟩ := hs
    refine ⟨e.1.trans a, e.2.1.trans b, e.2.2.1.trans c, ?_, ?_⟩
    · rw [e.2.2.2.1]
      intro k hk
      have e2 := hf k (Relation.ReflTransGen.single hk)
      simp only [core, Prod.mk.injEq] at e2
      exact ⟨e2.2.2.2.2.1.trans (d k hk).1, e2.2.2.2.2.2.trans (d k hk).2⟩
    · rw [e.2.2.2.1]
      exact showsItems_keep ks (fun c hc u hu => hf u (Relation.ReflTransGen.head hc hu)) f
theorem showsItems_keep {s s' : St} {x : Nat} : ∀ (ks : List Item) {l : List Nat}, (∀ c ∈ l, ∀ u, Below s c u → core (s'.heap u) = core (s.heap u)) →
    ShowsItems s x ks l → ShowsItems s' x ks l
  | [], l, _, hs => by
    unfold ShowsItems at hs ⊢
    exact hs
  | k :: ks, l, hf, hs => by
    unfold ShowsItems at hs ⊢
    obtain ⟨t, r, rfl, h1, h2⟩ := hs
    exact ⟨t, r, rfl, showsItem_keep k (hf t (by simp)) h1, showsItems_keep ks (fun c hc => hf c (by simp [hc])) h2⟩
end

theorem forall₂_get? {α β : Type} {R : α → β → Prop} {l : List α} {m : List β} (h : List.Forall₂ R l m) {i : Nat} {a : α} (hi : l[i]? = some a) :
    ∃ b, m[i]? = some b ∧ R a b := by
  obtain ⟨h1, h2⟩ := List.getElem?_eq_some_iff.1 hi
  obtain ⟨hl, hr⟩ := List.forall₂_iff_get.1 h
  refine ⟨m[i]'(by omega), List.getElem?_eq_getElem _, ?_⟩
  have := hr i h1 (by omega)
  rw [List.get_eq_getElem, List.get_eq_getElem, h2] at this
  exact this

/-- The object at the position of an item stands for the item. -/
theorem termAt_shows {s : St} {x : Nat} : ∀ (p : List Nat) {j : Nat} {ks : List Item} {l : List Nat} {k : Item}, ShowsItems s x ks l →
    itemAt ks j p = some k → ∃ t, termAt s l j p = some t ∧ ShowsItem s x k t ∧ ∃ r ∈ l, Below s r t
  | [], j, ks, l, k, h, hk => by
    rw [showsItems_forall] at h
    obtain ⟨t, h1, h2⟩ := forall₂_get? h hk
    exact ⟨t, h1, h2, t, List.mem_of_getElem? h1, .refl⟩
  | m :: p, j, ks, l, k, h, hk => by
    rw [showsItems_forall] at h
    unfold itemAt at hk
    cases e : ks[j]? with
    | none => rw [e] at hk; cases hk
    | some i =>
      obtain ⟨n, v, cs⟩ := i
      rw [e] at hk
      obtain ⟨r, h1, h2⟩ := forall₂_get? h e
      obtain ⟨t, h3, h4, q, h5, h6⟩ := termAt_shows p (showsItem_mk.1 h2).2.2.2.2 hk
      refine ⟨t, ?_, h4, r, List.mem_of_getElem? h1, Relation.ReflTransGen.head h5 h6⟩
      unfold termAt
      rw [h1]
      exact h3

theorem termAt_below {s : St} : ∀ (p : List Nat) {j : Nat} {l : List Nat} {t : Nat}, termAt s l j p = some t → ∃ r, l[j]? = some r ∧ Below s r t ∧
    (p ≠ [] → ∃ c ∈ (s.heap r).children, Below s c t)
  | [], j, l, t, h => ⟨t, h, .refl, fun h => absurd rfl h⟩
  | m :: p, j, l, t, h => by
    unfold termAt at h
    cases e : l[j]? with
    | none => rw [e] at h; cases h
    | some r =>
      rw [e] at h
      obtain ⟨c, h1, h2, -⟩ := termAt_below p h
      have hm := List.mem_of_getElem? h1
      exact ⟨r, rfl, Relation.ReflTransGen.head hm h2, fun _ => ⟨c, hm, h2⟩⟩

theorem forall₂_modify {α β : Type} {R R' : α → β → Prop} {f : α → α} : ∀ {l : List α} {m : List β} {i : Nat}, List.Forall₂ R l m →
    (∀ a b, l[i]? = some a → m[i]? = some b → R a b → R' (f a) b) → (∀ j a b, j ≠ i → l[j]? = some a → m[j]? = some b → R a b → R' a b) →
    List.Forall₂ R' (l.modify i f) m
  | [], _, i, .nil, _, _ => by cases i <;> exact .nil
  | a :: l, b :: m, 0, .cons h1 h2, hf, ho => by
    refine .cons (hf a b rfl rfl h1) ?_
    have : ∀ j a b, l[j]? = some a → m[j]? = some b → R a b → R' a b := fun j a b e1 e2 => ho (j + 1) a b (by omega) e1 e2
    clear ho hf h1
    induction h2 with
    | nil => exact .nil
    | @cons a' c' l m h _ ih =>
      exact .cons (this 0 a' c' rfl rfl h) (ih fun j a c e1 e2 => this (j + 1) a c e1 e2)
  | a :: l, b :: m, i + 1, .cons h1 h2, hf, ho => by
    refine .cons (ho 0 _ _ (by omega) rfl rfl h1) ?_
    exact forall₂_modify h2 (fun a b e1 e2 => hf a b e1 e2) fun j a b hj e1 e2 => ho (j + 1) a b (by omega) e1 e2

/-- If only the object at a position changes, and it shows the changed item, then the items with this one changed are shown. -/
theorem showsItems_edit {s s' : St} (w : WF True s) {x : Nat} {f : Item → Item} {t : Nat} (ho : ∀ u, u ≠ t → u < s.next → core (s'.heap u) = core (s.heap u))
    (hp : (s'.heap t).parent = (s.heap t).parent) (hpt : (s'.heap t).pt = (s.heap t).pt) :
    ∀ (p : List Nat) {j : Nat} {ks : List Item} {l : List Nat} {k : Item}, ShowsItems s x ks l → (∀ c ∈ l, c < s.next) → l.Nodup → Apart s l →
      itemAt ks j p = some k → termAt s l j p = some t → ShowsItem s' x (f k) t → ShowsItems s' x (editIn f ks j p) l := by
  have hlt : ∀ {a u}, a < s.next → Below s a u → u < s.next := by
    intro a u ha hu
    rcases Relation.ReflTransGen.cases_tail hu with e | ⟨z, _, hc⟩
    · rw [e]; exact ha
    · exact w.kidLt _ _ hc
  intro p
  induction p with
  | nil =>
    intro j ks l k h hl hn ha hk ht hs
    rw [showsItems_forall] at h ⊢
    unfold editIn
    refine forall₂_modify h ?_ ?_
    · intro i r e1 e2 _
      change ks[j]? = some k at hk
      change l[j]? = some t at ht
      rw [hk] at e1
      rw [ht] at e2
      cases e1
      cases e2
      exact hs
    · intro m i r hm e1 e2 h2
      have hr := List.mem_of_getElem? e2
      have htm := List.mem_of_getElem? (show l[j]? = some t from ht)
      have hne : r ≠ t := by
        intro e
        obtain ⟨a1, a2⟩ := List.getElem?_eq_some_iff.1 e2
        obtain ⟨b1, b2⟩ := List.getElem?_eq_some_iff.1 (show l[j]? = some t from ht)
        exact hm ((List.Nodup.getElem_inj_iff hn).1 (a2.trans (e.trans b2.symm)))
      exact showsItem_keep i (fun u hu => ho u (fun e => ha r hr t htm hne (e ▸ hu)) (hlt (hl r hr) hu)) h2
  | cons m p ih =>
    intro j ks l k h hl hn ha hk ht hs
    obtain ⟨top, htop, hbt, hkid⟩ := termAt_below _ ht
    have htm := List.mem_of_getElem? htop
    rw [showsItems_forall] at h ⊢
    unfold editIn
    refine forall₂_modify h ?_ ?_
    · intro i r e1 e2 h2
      rw [htop] at e2
      cases e2
      obtain ⟨n, v, cs⟩ := i
      unfold itemAt at hk
      rw [e1] at hk
      unfold termAt at ht
      rw [htop] at ht
      have hne : top ≠ t := by
        intro e
        obtain ⟨c, hc, hbc⟩ := hkid (by simp)
        have h3 := Below.le w hbc
        rcases w.edge trivial _ _ hc with h4 | h4
        · omega
        · exact shows_noLoop h2 (h4.1 ▸ hc)
      have hap := apart_kids w h2
      rw [showsItem_mk] at h2
      obtain ⟨a1, a2, a3, a4, a5⟩ := h2
      have e := ho top hne (hl top htm)
      simp only [core, Prod.mk.injEq] at e
      unfold Item.onKids
      rw [showsItem_mk, e.1, e.2.1, e.2.2.1, e.2.2.2.1]
      refine ⟨a1, a2, a3, ?_, ih a5 (w.kidLt top) (w.kidNodup trivial top) hap hk ht hs⟩
      intro c hc
      by_cases hct : c = t
      · subst hct
        rw [hp, hpt]
        exact a4 c hc
      · have e2 := ho c hct (w.kidLt _ _ hc)
        simp only [core, Prod.mk.injEq] at e2
        rw [e2.2.2.2.2.1, e2.2.2.2.2.2]
        exact a4 c hc
    · intro q i r hm e1 e2 h2
      have hr := List.mem_of_getElem? e2
      have hne : r ≠ top := by
        intro e
        obtain ⟨a1, a2⟩ := List.getElem?_eq_some_iff.1 e2
        obtain ⟨b1, b2⟩ := List.getElem?_eq_some_iff.1 htop
        exact hm ((List.Nodup.getElem_inj_iff hn).1 (a2.trans (e.trans b2.symm)))
      refine showsItem_keep i (fun u hu => ho u (fun e => ?_) (hlt (hl r hr) hu)) h2
      subst e
      rcases Below.total w hu hbt with h3 | h3
      · exact ha r hr top htm hne h3
      · exact ha top htm r hr (Ne.symm hne) h3

theorem forall₂_modify_right {α β : Type} {R R' : α → β → Prop} {f : β → β} {l : List α} {m : List β} {i : Nat} (h : List.Forall₂ R l m)
    (h1 : ∀ a b, l[i]? = some a → m[i]? = some b → R a b → R' a (f b)) (h2 : ∀ j a b, j ≠ i → l[j]? = some a → m[j]? = some b → R a b → R' a b) :
    List.Forall₂ R' l (m.modify i f) :=
  (forall₂_modify (R := fun b a => R a b) (R' := fun b a => R' a b) h.flip (fun b a e1 e2 => h1 a b e2 e1)
    fun j b a hj e1 e2 => h2 j a b hj e2 e1).flip

/-- Two registered sections are different objects. -/
theorem secs_inj {s : St} (w : WF True s) {D : List Part} (hD : Shows s D) {i j : Nat} {a b : Str × Nat} (hi : s.sections[i]? = some a)
    (hj : s.sections[j]? = some b) (h : a.2 = b.2) : i = j := by
  obtain ⟨d, -, h1⟩ := forall₂_get? hD.parts hi
  obtain ⟨e, -, h2⟩ := forall₂_get? hD.parts hj
  have h3 := h1.name
  rw [h, h2.name] at h3
  have h3' : e.name = d.name := by injection h3
  have hk : a.1 = b.1 := h1.key.trans (by rw [← h3']; exact h2.key.symm)
  have hnd := w.secsNodup
  obtain ⟨a1, a2⟩ := List.getElem?_eq_some_iff.1 hi
  obtain ⟨b1, b2⟩ := List.getElem?_eq_some_iff.1 hj
  unfold Dict.keys at hnd
  have := List.Nodup.getElem_inj_iff hnd (i := i) (j := j) (hi := by simpa using a1) (hj := by simpa using b1)
  rw [List.getElem_map, List.getElem_map, a2, b2] at this
  exact this.1 hk

/-- What is known about the object at a position. -/
structure Located (s : St) (x t : Nat) (k : Item) : Prop where
  lt : t < s.next
  notSec : (s.heap t).cls.isSection = false
  shows : ShowsItem s x k t

theorem docAt_shows {s : St} (w : WF True s) (hT : TermsOnly s) {D : List Part} (hD : Shows s D) {i j : Nat} {p : List Nat} {k : Item}
    (hk : outlineAt D i j p = some k) : ∃ kv d t, s.sections[i]? = some kv ∧ D[i]? = some d ∧ ShowsPart s kv d ∧ itemAt d.items j p = some k ∧
      docAt s i j p = some t ∧ termAt s (s.heap kv.2).terms j p = some t ∧ Located s kv.2 t k := by
  unfold outlineAt at hk
  cases e : D[i]? with
  | none => rw [e] at hk; cases hk
  | some d =>
    rw [e] at hk
    obtain ⟨kv, h1, h2⟩ := forall₂_get? hD.parts.flip e
    have hm := List.mem_of_getElem? h1
    obtain ⟨t, h3, h4, r, h5, h6⟩ := termAt_shows p h2.items hk
    refine ⟨kv, d, t, h1, rfl, h2, hk, ?_, h3, ?_, below_notSec w (hT kv hm r h5) h6, h4⟩
    · unfold docAt
      rw [h1]
      exact h3
    · rcases Relation.ReflTransGen.cases_tail h6 with e | ⟨z, _, hc⟩
      · rw [e]; exact w.secTermsLt _ _ h5
      · exact w.kidLt _ _ hc

/-- If only the object at a position of the document changes, and it shows the changed item, then the outline with this item changed is
shown. -/
theorem shows_edit {s s' : St} (w : WF True s) (hT : TermsOnly s) {D : List Part} (hD : Shows s D) {f : Item → Item} {i j : Nat} {p : List Nat} {k : Item}
    {kv : Str × Nat} {t : Nat} (hi : s.sections[i]? = some kv) (hk : outlineAt D i j p = some k) (ht : termAt s (s.heap kv.2).terms j p = some t)
    (ho : ∀ u, u ≠ t → u < s.next → s'.heap u = s.heap u) (hp : (s'.heap t).parent = (s.heap t).parent) (hpt : (s'.heap t).pt = (s.heap t).pt)
    (hsec : s'.sections = s.sections) (hroot : s'.root = s.root) (hs : ShowsItem s' kv.2 (f k) t) :
    Shows s' (D.modify i (onItems fun is => editIn f is j p)) := by
  obtain ⟨kv', d, t', h1, h2, h3, h4, h5, h6, h7⟩ := docAt_shows w hT hD hk
  rw [hi] at h1
  cases h1
  rw [ht] at h6
  cases h6
  have hsecne : ∀ y, (s.heap y).cls.isSection = true → y ≠ t := by
    intro y hy e
    rw [e, h7.notSec] at hy
    cases hy
  have hco : ∀ u, u ≠ t → u < s.next → core (s'.heap u) = core (s.heap u) := fun u h1 h2 => by rw [ho u h1 h2]
  refine ⟨?_, ?_⟩
  · rw [hroot, ho _ (hsecne _ w.rootSec) w.rootLt]
    exact hD.rootName
  · rw [hsec]
    have hlevel : ∀ kv ∈ s.sections, ∀ e, ShowsPart s kv e → ∀ u ∈ (s.heap kv.2).terms,
        (s'.heap u).pt = py!"root" ∧ ((s'.heap u).parent = none ∨ (s'.heap u).parent = some s'.root) := by
      intro kv hkv e he u hu
      rw [hroot]
      by_cases hut : u = t
      · subst hut
        rw [hp, hpt]
        exact he.rootLevel u hu
      · rw [ho u hut (w.secTermsLt _ _ hu)]
        exact he.rootLevel u hu
    refine forall₂_modify_right hD.parts ?_ ?_
    · intro a b e1 e2 h
      rw [hi] at e1
      cases e1
      rw [h2] at e2
      cases e2
      have hm := List.mem_of_getElem? hi
      obtain ⟨hl, hc, -⟩ := w.secsLt _ hm
      have e := ho kv.2 (hsecne _ hc) hl
      refine ⟨h.key, by rw [e]; exact h.name, by rw [e]; exact h.cols, ?_, by rw [e]; exact hlevel kv hm d h⟩
      rw [e]
      exact showsItems_edit w hco hp hpt p h.items (w.secTermsLt _) (w.secTermsNodup _) (apart_tops w hT hm h) h4 ht hs
    · intro m a b hmi e1 e2 h
      have hm := List.mem_of_getElem? e1
      obtain ⟨hl, hc, -⟩ := w.secsLt _ hm
      have e := ho a.2 (hsecne _ hc) hl
      refine ⟨h.key, by rw [e]; exact h.name, by rw [e]; exact h.cols, ?_, by rw [e]; exact hlevel a hm b h⟩
      rw [e]
      refine showsItems_keep b.items ?_ h.items
      intro c hcm u hu
      refine hco u ?_ ?_
      · rintro rfl
        obtain ⟨r, hr1, hr2, -⟩ := termAt_below p ht
        have hrm := List.mem_of_getElem? hr1
        have hkm := List.mem_of_getElem? hi
        have hcr : c = r := by
          rcases Below.total w hu hr2 with h8 | h8
          · exact below_top w (hT a hm c hcm) (h3.rootLevel r hrm).2 h8
          · exact (below_top w (hT kv hkm r hrm) (h.rootLevel c hcm).2 h8).symm
        have s1 : (s.heap c).sec = some a.2 := by
          obtain ⟨⟨n, v, ks⟩, -, hs⟩ := showsItems_mem h.items hcm
          exact (showsItem_mk.1 hs).2.2.1
        have s2 : (s.heap r).sec = some kv.2 := by
          obtain ⟨⟨n, v, ks⟩, -, hs⟩ := showsItems_mem h3.items hrm
          exact (showsItem_mk.1 hs).2.2.1
        rw [hcr, s2] at s1
        injection s1 with s1
        exact hmi (secs_inj w hD e1 hi s1.symm)
      · rcases Relation.ReflTransGen.cases_tail hu with e | ⟨z, _, hc⟩
        · rw [e]; exact w.secTermsLt _ _ hcm
        · exact w.kidLt _ _ hc

end Metatab
