import Verif.Lemmas.MapM
import Verif.Lemmas.Reach
import Verif.Lemmas.Examples
import Verif.Spec.Hangs
/-! # C49: descendants and all terms are enumerated in document order -/
namespace Metatab
open Py Spec

theorem forall₂_mem_right {α β : Type} {R : α → β → Prop} {l : List α} {r : List β} (h : List.Forall₂ R l r) {b : β} (hb : b ∈ r) :
    ∃ a ∈ l, R a b := by
  induction h with
  | nil => cases hb
  | cons hab _ ih =>
    rcases List.mem_cons.1 hb with rfl | hb
    · exact ⟨_, List.mem_cons_self, hab⟩
    · obtain ⟨a, ha, h⟩ := ih hb; exact ⟨a, List.mem_cons_of_mem _ ha, h⟩

theorem forall₂_mem_left {α β : Type} {R : α → β → Prop} {l : List α} {r : List β} (h : List.Forall₂ R l r) {a : α} (ha : a ∈ l) :
    ∃ b ∈ r, R a b := by
  induction h with
  | nil => cases ha
  | cons hab _ ih =>
    rcases List.mem_cons.1 ha with rfl | ha
    · exact ⟨_, List.mem_cons_self, hab⟩
    · obtain ⟨a, ha, h⟩ := ih ha; exact ⟨a, List.mem_cons_of_mem _ ha, h⟩

theorem treeF_below {h : Nat → Obj} {f t : Nat} {tr : Tree} (e : treeF h f t = .ok tr) (c : Nat) : c ∈ tr.descendents ↔ Hangs h t c := by
  induction f generalizing t tr with
  | zero => cases e
  | succ f ih =>
    obtain ⟨ks, hk, rfl⟩ := treeF_iff.1 e
    simp only [Tree.descendents, descendentsL_flatMap, List.mem_flatMap, List.mem_cons]
    constructor
    · rintro ⟨k, hkm, hc⟩
      obtain ⟨x, hx, hxk⟩ := forall₂_mem_right hk hkm
      rcases hc with rfl | hc
      · rw [treeF_id hxk]; exact .kid hx
      · exact .deeper hx ((ih hxk).1 hc)
    · intro hb
      cases hb with
      | kid hc =>
        obtain ⟨k, hkm, hk'⟩ := forall₂_mem_left hk hc
        exact ⟨k, hkm, .inl (treeF_id hk').symm⟩
      | deeper hx hc =>
        obtain ⟨k, hkm, hk'⟩ := forall₂_mem_left hk hx
        exact ⟨k, hkm, .inr ((ih hk').2 hc)⟩

theorem treeF_noSelf {h : Nat → Obj} {f t : Nat} {tr : Tree} (e : treeF h f t = .ok tr) : t ∉ (h t).children := by
  induction f generalizing tr with
  | zero => cases e
  | succ f ih =>
    intro ht
    obtain ⟨ks, hk, rfl⟩ := treeF_iff.1 e
    obtain ⟨k, -, hk'⟩ := forall₂_mem_left hk ht
    exact ih hk' ht

theorem treeF_sub {h : Nat → Obj} {f t : Nat} {tr : Tree} (e : treeF h f t = .ok tr) {c : Nat} (hb : Hangs h t c) :
    ∃ f' tr', treeF h f' c = .ok tr' := by
  induction hb generalizing f tr with
  | kid hc =>
    cases f with
    | zero => cases e
    | succ f =>
      obtain ⟨ks, hk, rfl⟩ := treeF_iff.1 e
      obtain ⟨k, -, hk'⟩ := forall₂_mem_left hk hc
      exact ⟨f, k, hk'⟩
  | deeper hc _ ih =>
    cases f with
    | zero => cases e
    | succ f =>
      obtain ⟨ks, hk, rfl⟩ := treeF_iff.1 e
      obtain ⟨k, -, hk'⟩ := forall₂_mem_left hk hc
      exact ih hk'

theorem below_last {h : Nat → Obj} {t c : Nat} (hb : Hangs h t c) : ∃ p, c ∈ (h p).children ∧ (t = p ∨ Hangs h t p) := by
  induction hb with
  | kid hc => exact ⟨_, hc, .inl rfl⟩
  | deeper hk _ ih =>
    obtain ⟨p, hp, h'⟩ := ih
    refine ⟨p, hp, .inr ?_⟩
    rcases h' with rfl | h'
    · exact .kid hk
    · exact .deeper hk h'

theorem below_trans {h : Nat → Obj} {a b c : Nat} (hb : Hangs h a b) (hc : Hangs h b c) : Hangs h a c := by
  induction hb with
  | kid hk => exact .deeper hk hc
  | deeper hk _ ih => exact .deeper hk (ih hc)

/-- Children come later in the heap than their parents. -/
def KidsLater (h : Nat → Obj) : Prop := ∀ i, ∀ c ∈ (h i).children, i ≤ c

theorem below_le {h : Nat → Obj} (hl : KidsLater h) {a c : Nat} (hb : Hangs h a c) : a ≤ c := by
  induction hb with
  | kid hc => exact hl _ _ hc
  | deeper hk _ ih => exact Nat.le_trans (hl _ _ hk) ih

/-- Trees below different children of a term have nothing in common. -/
theorem siblings_apart {h : Nat → Obj} (hl : KidsLater h) (hu : ∀ i j c, c ∈ (h i).children → c ∈ (h j).children → i = j) {t k1 k2 : Nat}
    (h1 : k1 ∈ (h t).children) (h2 : k2 ∈ (h t).children) (hne : k1 ≠ k2) (hns : ∀ c, (t = c ∨ Hangs h t c) → c ∉ (h c).children) (c : Nat)
    (hc1 : k1 = c ∨ Hangs h k1 c) (hc2 : k2 = c ∨ Hangs h k2 c) : False := by
  induction c using Nat.strongRecOn with
  | _ c ih =>
    have up : ∀ k, k ∈ (h t).children → ¬(k = t ∨ Hangs h k t) := by
      intro k hk hb
      have h1 := hl t k hk
      have h2 : k ≠ t := fun e => hns t (.inl rfl) (e ▸ hk)
      rcases hb with hb | hb
      · exact h2 hb
      · have := below_le hl hb; omega
    rcases hc1 with rfl | hc1
    · rcases hc2 with rfl | hc2
      · exact hne rfl
      · obtain ⟨p, hp, hb⟩ := below_last hc2
        rw [hu p t k1 hp h1] at hb
        exact up k2 h2 hb
    · rcases hc2 with rfl | hc2
      · obtain ⟨p, hp, hb⟩ := below_last hc1
        rw [hu p t k2 hp h2] at hb
        exact up k1 h1 hb
      · obtain ⟨p, hp, hb⟩ := below_last hc1
        obtain ⟨p', hp', hb'⟩ := below_last hc2
        have e := hu p p' c hp hp'
        subst e
        have hle := hl p c hp
        have hpc : p ≠ c := by
          rintro rfl
          exact hns p (.inr (.deeper h1 hc1)) hp
        exact ih p (by omega) hb hb'

theorem treeF_once {h : Nat → Obj} (hl : KidsLater h) (hu : ∀ i j c, c ∈ (h i).children → c ∈ (h j).children → i = j)
    (hn : ∀ i, (h i).children.Nodup) {f t : Nat} {tr : Tree} (e : treeF h f t = .ok tr) :
    (t :: tr.descendents).Nodup ∧ ParentsFirst h (t :: tr.descendents) := by
  induction f generalizing t tr with
  | zero => cases e
  | succ f ih =>
    have hns : ∀ c, (t = c ∨ Hangs h t c) → c ∉ (h c).children := by
      rintro c (rfl | hc)
      · exact treeF_noSelf e
      · obtain ⟨f', tr', e'⟩ := treeF_sub e hc; exact treeF_noSelf e'
    have hup : ∀ c, Hangs h t c → t < c := by
      intro c hc
      have := below_le hl hc
      have h2 : t ≠ c := by
        rintro rfl
        obtain ⟨p, hp, hb⟩ := below_last hc
        have := hl p t hp
        rcases hb with rfl | hb
        · exact hns t (.inl rfl) hp
        · have := below_le hl hb
          have : p = t := by omega
          subst this
          exact hns p (.inl rfl) hp
      omega
    have hmem := treeF_below e
    obtain ⟨ks, hk, rfl⟩ := treeF_iff.1 e
    have hall : ∀ k ∈ ks, k.id ∈ (h t).children ∧ (k.id :: k.descendents).Nodup ∧ ParentsFirst h (k.id :: k.descendents) ∧
        ∀ c ∈ k.id :: k.descendents, k.id = c ∨ Hangs h k.id c := by
      intro k hkm
      obtain ⟨x, hx, hxk⟩ := forall₂_mem_right hk hkm
      have hid := treeF_id hxk
      rw [hid]
      refine ⟨hx, (ih hxk).1, (ih hxk).2, ?_⟩
      intro c hc
      rcases List.mem_cons.1 hc with rfl | hc
      · exact .inl rfl
      · exact .inr ((treeF_below hxk c).1 hc)
    have hpair : ks.Pairwise fun k1 k2 => k1.id ≠ k2.id := by
      have e2 : ks.map Tree.id = (h t).children := by
        clear hmem hall e ih
        revert hk
        generalize (h t).children = cs
        intro hk
        induction hk with
        | nil => rfl
        | cons hab _ ih => simp [ih, treeF_id hab]
      have := hn t
      rw [← e2] at this
      exact List.pairwise_map.1 this
    have hapart : ks.Pairwise fun k1 k2 => ∀ x ∈ k1.id :: k1.descendents, ∀ y ∈ k2.id :: k2.descendents, x ≠ y ∧ ¬Hangs h y x := by
      refine List.Pairwise.imp_of_mem ?_ hpair
      intro k1 k2 m1 m2 hne x hx y hy
      have q1 := (hall k1 m1).2.2.2 x hx
      have q2 := (hall k2 m2).2.2.2 y hy
      refine ⟨?_, ?_⟩
      · rintro rfl
        exact siblings_apart hl hu (hall k1 m1).1 (hall k2 m2).1 hne hns x q1 q2
      · intro hb
        refine siblings_apart hl hu (hall k1 m1).1 (hall k2 m2).1 hne hns x q1 (.inr ?_)
        rcases q2 with rfl | q2
        · exact hb
        · exact below_trans q2 hb
    refine ⟨List.nodup_cons.2 ⟨fun ht => ?_, ?_⟩, List.pairwise_cons.2 ⟨fun c hc hb => ?_, ?_⟩⟩
    · have := hup t ((hmem t).1 ht); omega
    · simp only [Tree.descendents, descendentsL_flatMap]
      unfold List.Nodup
      rw [List.pairwise_flatMap]
      exact ⟨fun k hkm => (hall k hkm).2.1, hapart.imp fun q x hx y hy => (q x hx y hy).1⟩
    · have := hup c ((hmem c).1 hc)
      have := below_le hl hb
      omega
    · simp only [Tree.descendents, descendentsL_flatMap]
      rw [List.pairwise_flatMap]
      exact ⟨fun k hkm => (hall k hkm).2.2.1, hapart.imp fun q x hx y hy => (q x hx y hy).2⟩

theorem WF.later {s : St} (w : WF True s) : KidsLater s.heap := by
  intro i c hc
  rcases w.edge trivial i c hc with h | ⟨h, -⟩ <;> omega

theorem WF.oneParent {s : St} (w : WF True s) : ∀ i j c, c ∈ (s.heap i).children → c ∈ (s.heap j).children → i = j := by
  intro i j c hi hj
  have h1 := w.kidPar trivial i c hi
  have h2 := w.kidPar trivial j c hj
  rw [h1] at h2
  exact Option.some.inj h2

/-- **C49** (exactly the descendants). `descendents` yields the objects that hang below the term, at any depth, and no others. -/
theorem C49_exact {s : St} {t : Nat} {l : List Nat} (h : descendents s t = .ok l) (c : Nat) : c ∈ l ↔ Hangs s.heap t c := by
  unfold descendents at h
  obtain ⟨tr, htr, e⟩ := except_bind_ok.1 h
  cases e
  exact treeF_below htr c

/-- **C49** (once, parents first). In every document made by parsing and editing (without calls of `add_child`), `descendents` yields
each object once, never the term itself, and none before something it hangs below. -/
theorem C49_once {s : St} (r : Reach Op.noAddChild s) {t : Nat} {l : List Nat} (h : descendents s t = .ok l) :
    (t :: l).Nodup ∧ ParentsFirst s.heap (t :: l) := by
  have w : WF True s := r.wf fun _ op ha => ha
  unfold descendents at h
  obtain ⟨tr, htr, e⟩ := except_bind_ok.1 h
  cases e
  exact treeF_once w.later w.oneParent (w.kidNodup trivial) htr

theorem treeF_total {h : Nat → Obj} {n : Nat} (hlt : ∀ i, ∀ c ∈ (h i).children, i < c ∧ c < n) {f t : Nat} (hf : n ≤ t + f) (hf0 : 0 < f) :
    ∃ tr, treeF h f t = .ok tr := by
  induction f generalizing t with
  | zero => omega
  | succ f ih =>
    have : ∃ ks, List.Forall₂ (fun c k => treeF h f c = .ok k) (h t).children ks := by
      have hall : ∀ c ∈ (h t).children, ∃ k, treeF h f c = .ok k := by
        intro c hc
        have := hlt t c hc
        exact ih (by omega) (by omega)
      revert hall
      generalize (h t).children = cs
      intro hall
      induction cs with
      | nil => exact ⟨[], .nil⟩
      | cons c cs ihc =>
        obtain ⟨k, hk⟩ := hall c List.mem_cons_self
        obtain ⟨ks, hks⟩ := ihc fun c' hc' => hall c' (List.mem_cons_of_mem _ hc')
        exact ⟨k :: ks, .cons hk hks⟩
    obtain ⟨ks, hks⟩ := this
    exact ⟨_, treeF_iff.2 ⟨ks, hks, rfl⟩⟩

/-- **C49** (it ends). In every such document, `descendents` succeeds for every term when no term was made a child of itself. (A row
named `Foo.Foo` does that, see `C18_self_witness`.) -/
theorem C49_total {s : St} (r : Reach Op.noAddChild s) (hs : ∀ i, i ∉ (s.heap i).children) (t : Nat) : ∃ l, descendents s t = .ok l := by
  have w : WF True s := r.wf fun _ op ha => ha
  have : ∃ tr, tree s t = .ok tr := by
    refine treeF_total (n := s.next) ?_ (by omega) (by omega)
    intro i c hc
    refine ⟨?_, w.kidLt i c hc⟩
    rcases w.edge trivial i c hc with h | ⟨rfl, -⟩
    · exact h
    · exact absurd hc (hs i)
  obtain ⟨tr, htr⟩ := this
  exact ⟨tr.descendents, by unfold descendents; rw [htr]; rfl⟩

/-- `l` is a list of terms, each followed by everything below it. -/
def _root_.Spec.Runs (h : Nat → Obj) (ts l : List Nat) : Prop :=
  ∃ runs : List (List Nat), l = runs.flatten ∧ List.Forall₂ (fun t b => ∃ ds, b = t :: ds ∧ ∀ c, c ∈ ds ↔ Hangs h t c) ts runs

theorem sectionTerms_runs {s : St} {x : Nat} {l : List Nat} (h : sectionTerms s x = .ok l) : Runs s.heap (s.heap x).terms l := by
  unfold sectionTerms at h
  obtain ⟨ls, hls, e⟩ := except_bind_ok.1 h
  cases e
  refine ⟨ls, rfl, ?_⟩
  refine (mapM_iff.1 hls).imp ?_
  intro t b hb
  obtain ⟨tr, htr, e⟩ := except_bind_ok.1 hb
  cases e
  exact ⟨_, rfl, treeF_below htr⟩

/-- **C49** (all_terms). `all_terms` goes through the sections in order; it yields each section but the root section, and then the
terms of the section, each followed by all that is below it. -/
theorem C49_all {s : St} {l : List Nat} (h : allTerms s = .ok l) :
    ∃ parts : List (List Nat), l = parts.flatten ∧
      List.Forall₂ (fun kv part => ∃ ts, Runs s.heap (s.heap kv.2).terms ts ∧
        part = if (s.heap kv.2).value = .str (py!"Root") then ts else kv.2 :: ts) s.sections parts := by
  unfold allTerms at h
  obtain ⟨ls, hls, e⟩ := except_bind_ok.1 h
  cases e
  refine ⟨ls, rfl, (mapM_iff.1 hls).imp ?_⟩
  intro kv part hp
  obtain ⟨ts, hts, e⟩ := except_bind_ok.1 hp
  cases e
  refine ⟨ts, sectionTerms_runs hts, ?_⟩
  by_cases hv : (s.heap kv.2).value = .str (py!"Root") <;> simp [hv]

/-- A document with a tree three levels deep. -/
example : (descendents (exParse [[py!"A", py!"1"], [py!"A.B", py!"2"], [py!"B.C", py!"3"], [py!"A.D", py!"4"]]) 1 = .ok [2, 3, 4]) ∧
    (allTerms (exParse [[py!"A", py!"1"], [py!"A.B", py!"2"], [py!"Section", py!"S"], [py!"X", py!"3"], [py!"X.Y", py!"4"]])) = .ok [1, 2, 3, 4, 5] := by
  decide +kernel

end Metatab
