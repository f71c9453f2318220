import Verif.Model.Find
import Verif.Lemmas.Str
import Verif.Lemmas.Dict
/-! Unfolding the heap and walking it. -/
namespace Metatab
open Py

theorem mapM_mem {α β : Type} {f : α → Except Err β} : ∀ {l : List α} {r : List β}, l.mapM f = .ok r →
    ∀ b ∈ r, ∃ a ∈ l, f a = .ok b
  | [], r, h, b, hb => by cases h; cases hb
  | a :: l, r, h, b, hb => by
    rw [List.mapM_cons] at h
    cases ha : f a with
    | error e => rw [ha] at h; cases h
    | ok x =>
      rw [ha] at h
      cases hl : l.mapM f with
      | error e => simp only [bind, Except.bind, hl] at h; cases h
      | ok xs =>
        simp only [bind, Except.bind, hl, pure, Except.pure] at h
        cases h
        rcases List.mem_cons.1 hb with rfl | hb
        · exact ⟨a, List.mem_cons_self, ha⟩
        · obtain ⟨c, hc, e⟩ := mapM_mem hl b hb
          exact ⟨c, List.mem_cons_of_mem _ hc, e⟩

theorem descendentsL_mem {ks : List Tree} {d : Nat} (h : d ∈ descendentsL ks) : ∃ k ∈ ks, d = k.id ∨ d ∈ k.descendents := by
  induction ks with
  | nil => simp [descendentsL] at h
  | cons k ks ih =>
    simp only [descendentsL, List.mem_cons, List.mem_append] at h
    rcases h with h | h | h
    · exact ⟨k, List.mem_cons_self, .inl h⟩
    · exact ⟨k, List.mem_cons_self, .inr h⟩
    · obtain ⟨k', hk, h'⟩ := ih h
      exact ⟨k', List.mem_cons_of_mem _ hk, h'⟩

theorem treeF_mem {h : Nat → Obj} : ∀ {f t : Nat} {tr : Tree}, treeF h f t = .ok tr →
    tr.id = t ∧ ∀ d ∈ tr.descendents, ∃ i, d ∈ (h i).children
  | 0, _, _, e => by cases e
  | f + 1, t, tr, e => by
    unfold treeF at e
    cases hk : (h t).children.mapM (treeF h f) with
    | error x => rw [hk] at e; cases e
    | ok ks =>
      rw [hk] at e
      cases e
      refine ⟨rfl, ?_⟩
      intro d hd
      obtain ⟨k, hk', h'⟩ := descendentsL_mem hd
      obtain ⟨c, hc, e⟩ := mapM_mem hk k hk'
      obtain ⟨h1, h2⟩ := treeF_mem e
      rcases h' with rfl | h'
      · exact ⟨t, by rw [h1]; exact hc⟩
      · exact h2 d h'

theorem mem_allTerms {s : St} {l : List Nat} (h : allTerms s = .ok l) {t : Nat} (ht : t ∈ l) :
    (∃ kv ∈ s.sections, t = kv.2) ∨ (∃ kv ∈ s.sections, t ∈ (s.heap kv.2).terms) ∨ ∃ i, t ∈ (s.heap i).children := by
  unfold allTerms at h
  cases hl : List.mapM (m := Except Err) (fun kv : Str × Nat => do
      let ts ← sectionTerms s kv.2
      return if (s.heap kv.2).value ≠ .str (py!"Root") then kv.2 :: ts else ts) s.sections with
  | error e => rw [hl] at h; cases h
  | ok ls =>
    rw [hl] at h; cases h
    obtain ⟨r, hr, htr⟩ := List.mem_flatten.1 ht
    obtain ⟨kv, hkv, e⟩ := mapM_mem hl r hr
    cases hs : sectionTerms s kv.2 with
    | error e' => rw [hs] at e; cases e
    | ok ts =>
      rw [hs] at e
      have key : t ∈ ts → (∃ kv ∈ s.sections, t = kv.2) ∨ (∃ kv ∈ s.sections, t ∈ (s.heap kv.2).terms) ∨ ∃ i, t ∈ (s.heap i).children := by
        intro hts
        unfold sectionTerms at hs
        cases hm : (s.heap kv.2).terms.mapM (fun t => do
            let tr ← tree s t
            return t :: tr.descendents) with
        | error e' => rw [hm] at hs; cases hs
        | ok rs =>
          rw [hm] at hs; cases hs
          obtain ⟨q, hq, htq⟩ := List.mem_flatten.1 hts
          obtain ⟨u, hu, e'⟩ := mapM_mem hm q hq
          cases htree : tree s u with
          | error e2 => rw [htree] at e'; cases e'
          | ok tr =>
            rw [htree] at e'; cases e'
            rcases List.mem_cons.1 htq with rfl | htq
            · exact .inr (.inl ⟨kv, hkv, hu⟩)
            · exact .inr (.inr ((treeF_mem htree).2 t htq))
      simp only [bind, Except.bind, pure, Except.pure, Except.ok.injEq] at e
      split at e
      · subst e
        rcases List.mem_cons.1 htr with rfl | htr
        · exact .inl ⟨kv, hkv, rfl⟩
        · exact key htr
      · subst e; exact key htr

theorem mem_filterE {α : Type} {p : α → Except Err Bool} : ∀ {l r : List α}, filterE p l = .ok r → ∀ a ∈ r, a ∈ l
  | [], r, h, a, ha => by cases h; cases ha
  | x :: l, r, h, a, ha => by
    unfold filterE at h
    cases hp : p x with
    | error e => rw [hp] at h; cases h
    | ok b =>
      cases hl : filterE p l with
      | error e => rw [hp, hl] at h; cases h
      | ok r' =>
        rw [hp, hl] at h
        simp only [bind, Except.bind, pure, Except.pure, Except.ok.injEq] at h
        subst h
        split at ha
        · rcases List.mem_cons.1 ha with rfl | ha
          · exact List.mem_cons_self
          · exact List.mem_cons_of_mem _ (mem_filterE hl a ha)
        · exact List.mem_cons_of_mem _ (mem_filterE hl a ha)

/-- A term of the document. -/
def Known (s : St) (t : Nat) : Prop :=
  t ∈ s.terms ∨ (∃ kv ∈ s.sections, t = kv.2) ∨ (∃ x, t ∈ (s.heap x).terms) ∨ ∃ i, t ∈ (s.heap i).children

theorem mem_findOne {s : St} {term : Str} {v : Val} {sec : Option (List Str)} {l : List Nat} (h : findOne s term v sec = .ok l) {t : Nat}
    (ht : t ∈ l) : Known s t := by
  unfold findOne at h
  by_cases hs : startsWith (py!"root.") (if '.' ∉ lower term then py!"root." ++ lower term else lower term) = true
  · simp only [hs, if_true, bind, Except.bind] at h
    exact .inl (mem_filterE h t ht)
  · simp only [hs, bind, Except.bind] at h
    cases ha : allTerms s with
    | error e => rw [ha] at h; cases h
    | ok g =>
      rw [ha] at h
      rcases mem_allTerms ha (mem_filterE h t ht) with h1 | ⟨kv, _, h1⟩ | h1
      · exact .inr (.inl h1)
      · exact .inr (.inr (.inl ⟨_, h1⟩))
      · exact .inr (.inr (.inr h1))

theorem mem_find {s : St} {term : Str} {v : Val} {sec : Option (List Str)} {l : List Nat} (h : find s term v sec = .ok l) {t : Nat}
    (ht : t ∈ l) : Known s t := by
  unfold find at h
  split at h
  · next ds _ =>
    unfold findList at h
    cases hm : (s.env.setOrd ds ++ [term]).mapM fun e => findOne s e v sec with
    | error e => rw [hm] at h; cases h
    | ok ls =>
      rw [hm] at h; cases h
      obtain ⟨r, hr, htr⟩ := List.mem_flatten.1 ht
      obtain ⟨e, _, he⟩ := mapM_mem hm r hr
      exact mem_findOne he htr
  · exact mem_findOne h ht

theorem mem_findFirst {s : St} {term : Str} {v : Val} {sec : Option (List Str)} {t : Nat} (h : findFirst s term v sec = .ok (some t)) :
    Known s t := by
  unfold findFirst at h
  cases hf : find s term v sec with
  | error e => rw [hf] at h; cases h
  | ok l =>
    rw [hf] at h
    simp only [bind, Except.bind, pure, Except.pure, Except.ok.injEq] at h
    exact mem_find hf (List.mem_of_head? h)

theorem mem_sectionFindFirst {s : St} {x : Nat} {term : Str} {v : Val} {t : Nat} (h : sectionFindFirst s x term v = .ok (some t)) :
    Known s t := by
  unfold sectionFindFirst at h
  split at h
  · exact mem_findFirst h
  · exact mem_findFirst h
  · cases h

end Metatab
