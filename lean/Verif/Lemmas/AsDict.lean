import Verif.Spec.Dict
import Verif.Lemmas.MapM
import Verif.Lemmas.Dict
import Verif.Lemmas.Monad
import Verif.Lemmas.Str
/-! The loop of `_convert_to_dict`. -/
namespace Metatab
open Py Spec

/-- A conversion is never a list. -/
theorem toDict_notList {rvn : Bool} {k : Tree} {v : DVal} (h : k.toDict rvn = .ok v) : ∀ l, v ≠ .list l := by
  cases k with
  | node i o ks =>
    cases ks with
    | nil => rw [Tree.toDict] at h; cases h; intro l hl; cases hl
    | cons k ks =>
      rw [Tree.toDict] at h
      obtain ⟨d, -, e⟩ := except_bind_ok.1 h
      cases e; intro l hl; cases hl

/-- Each round sets one entry. -/
theorem dictChild_sets {d d' : Dict DVal} {rt cpt : Str} {conv : Except Err DVal} (h : dictChild d rt cpt conv = .ok d') :
    ∃ v x, conv = .ok v ∧ d' = d.set (lower rt) x := by
  unfold dictChild at h
  dsimp only at h
  split at h
  · obtain ⟨v, hv, e⟩ := except_bind_ok.1 h; cases e; exact ⟨v, _, hv, rfl⟩
  split at h
  · obtain ⟨v, hv, e⟩ := except_bind_ok.1 h
    split at e <;> cases e <;> exact ⟨v, _, hv, rfl⟩
  split at h
  · obtain ⟨s, hs, e⟩ := except_bind_ok.1 h
    obtain ⟨v, hv, e⟩ := except_bind_ok.1 e
    obtain ⟨r, hr, e⟩ := except_bind_ok.1 e
    cases e; exact ⟨v, _, hv, rfl⟩
  split at h
  · obtain ⟨v, hv, e⟩ := except_bind_ok.1 h
    obtain ⟨r, hr, e⟩ := except_bind_ok.1 e
    cases e; exact ⟨v, _, hv, rfl⟩
  split at h
  · obtain ⟨v, hv, e⟩ := except_bind_ok.1 h; cases e; exact ⟨v, _, hv, rfl⟩
  · obtain ⟨v, hv, e⟩ := except_bind_ok.1 h; cases e; exact ⟨v, _, hv, rfl⟩
  · split at h
    · cases h
    · obtain ⟨v, hv, e⟩ := except_bind_ok.1 h; cases e; exact ⟨v, _, hv, rfl⟩

/-- The value a conversion yields, when it yields one. -/
def Tree.conv (rvn : Bool) (k : Tree) : DVal := match k.toDict rvn with | .ok v => v | .error _ => .val .none

theorem conv_eq {rvn : Bool} {k : Tree} {v : DVal} (h : k.toDict rvn = .ok v) : k.conv rvn = v := by unfold Tree.conv; rw [h]

theorem kidsDict_conv {rvn : Bool} {ks : List Tree} {d d' : Dict DVal} (h : kidsDict rvn d ks = .ok d') :
    ∀ k ∈ ks, k.toDict rvn = .ok (k.conv rvn) := by
  induction ks generalizing d with
  | nil => intro k hk; cases hk
  | cons k ks ih =>
    rw [kidsDict] at h
    obtain ⟨d1, h1, h⟩ := except_bind_ok.1 h
    intro k' hk'
    rcases List.mem_cons.1 hk' with rfl | hk'
    · obtain ⟨v, x, hv, -⟩ := dictChild_sets h1
      rw [conv_eq hv, hv]
    · exact ih h k' hk'

theorem kidsDict_shape {rvn : Bool} {n : Str} {Q : Option DVal → List DVal → Prop} {ks : List Tree}
    (step : ∀ k ∈ ks, lower k.obj.rt = n → ∀ (d d' : Dict DVal) (p : List DVal) (v : DVal), (∀ x ∈ p, ∀ l, x ≠ .list l) → Q (d.get? n) p →
      k.toDict rvn = .ok v → dictChild d k.obj.rt k.obj.cpt (.ok v) = .ok d' → Q (d'.get? n) (p ++ [v]))
    {d d' : Dict DVal} {p : List DVal} (hp : ∀ x ∈ p, ∀ l, x ≠ .list l) (hd : Q (d.get? n) p) (h : kidsDict rvn d ks = .ok d') :
    Q (d'.get? n) (p ++ ((ks.filter fun k => lower k.obj.rt = n).map (Tree.conv rvn))) := by
  induction ks generalizing d p with
  | nil => rw [kidsDict] at h; cases h; simpa using hd
  | cons k ks ih =>
    rw [kidsDict] at h
    obtain ⟨d1, h1, h⟩ := except_bind_ok.1 h
    obtain ⟨v, x, hv, hx⟩ := dictChild_sets h1
    have ih' := @ih fun k' hk' => step k' (List.mem_cons_of_mem _ hk')
    by_cases hn : lower k.obj.rt = n
    · rw [hv] at h1
      have h2 := step k List.mem_cons_self hn d d1 p v hp hd hv h1
      have hp2 : ∀ x ∈ p ++ [v], ∀ l, x ≠ .list l := by
        intro y hy
        rcases List.mem_append.1 hy with hy | hy
        · exact hp y hy
        · rw [List.mem_singleton.1 hy]; exact toDict_notList hv
      have := ih' hp2 h2 h
      simpa [hn, conv_eq hv] using this
    · have h2 : Q (d1.get? n) p := by rw [hx, Dict.get?_set, if_neg hn]; exact hd
      have := ih' hp h2 h
      simpa [hn] using this

theorem kidsDict_keys {rvn : Bool} {ks : List Tree} {d d' : Dict DVal} (h : kidsDict rvn d ks = .ok d') :
    d'.keys = d.keys ++ (distinctNames (ks.map fun k => lower k.obj.rt)).filter (· ∉ d.keys) := by
  induction ks generalizing d with
  | nil => rw [kidsDict] at h; cases h; simp [distinctNames]
  | cons k ks ih =>
    rw [kidsDict] at h
    obtain ⟨d1, h1, h⟩ := except_bind_ok.1 h
    obtain ⟨v, x, hv, rfl⟩ := dictChild_sets h1
    rw [ih h, Dict.keys_set, List.map_cons, distinctNames]
    by_cases hm : lower k.obj.rt ∈ d.keys
    · rw [if_pos hm, List.filter_cons_of_neg (by simpa using hm), List.filter_filter]
      congr 1
      apply List.filter_congr
      intro y _
      by_cases e : y = lower k.obj.rt
      · simp [e, hm]
      · simp [e]
    · rw [if_neg hm, List.filter_cons_of_pos (by simpa using hm), List.filter_filter]
      simp only [List.append_assoc, List.singleton_append, List.mem_append, List.mem_singleton]
      congr 2
      apply List.filter_congr
      intro y _
      simp

theorem kidsDict_nodup {rvn : Bool} {ks : List Tree} {d d' : Dict DVal} (hd : d.keys.Nodup) (h : kidsDict rvn d ks = .ok d') : d'.keys.Nodup := by
  induction ks generalizing d with
  | nil => rw [kidsDict] at h; cases h; exact hd
  | cons k ks ih =>
    rw [kidsDict] at h
    obtain ⟨d1, h1, h⟩ := except_bind_ok.1 h
    obtain ⟨v, x, hv, rfl⟩ := dictChild_sets h1
    exact ih (Dict.nodup_set hd _ _) h

/-! ## One round, by type -/

theorem step_scalar {d d' : Dict DVal} {rt : Str} {p : List DVal} {v : DVal}
    (h : dictChild d rt (py!"scalar") (.ok v) = .ok d') : d'.get? (lower rt) = (p ++ [v]).getLast? := by
  unfold dictChild at h
  rw [if_pos rfl] at h
  cases h
  simp

theorem step_seq {d d' : Dict DVal} {rt : Str} {p : List DVal} {v : DVal} (hd : d.get? (lower rt) = entrySeq p)
    (h : dictChild d rt (py!"sequence") (.ok v) = .ok d') : d'.get? (lower rt) = entrySeq (p ++ [v]) := by
  unfold dictChild at h
  rw [if_neg (by decide), if_pos rfl] at h
  dsimp only [bind, Except.bind] at h
  rw [hd] at h
  cases p with
  | nil => cases h; simp [entrySeq]
  | cons a p => cases h; simp [entrySeq]

theorem step_any {d d' : Dict DVal} {rt cpt : Str} {p : List DVal} {v : DVal} (hc : cpt ∉ specialTypes) (hl : lower rt = rt)
    (hp : ∀ x ∈ p, ∀ l, x ≠ .list l) (hd : d.get? (lower rt) = entryAny p)
    (h : dictChild d rt cpt (.ok v) = .ok d') : d'.get? (lower rt) = entryAny (p ++ [v]) := by
  unfold specialTypes at hc
  simp only [List.mem_cons, List.not_mem_nil, or_false, not_or] at hc
  unfold dictChild at h
  rw [if_neg hc.1, if_neg hc.2.1, if_neg hc.2.2.1, if_neg hc.2.2.2] at h
  dsimp only [bind, Except.bind] at h
  have hr : d.get? rt = entryAny p := by rw [← hl]; exact hd
  rw [hr, hd] at h
  match p, hp with
  | [], _ => cases h; simp [entryAny]
  | [a], hp =>
    have := hp a (by simp)
    cases a with
    | list l => exact absurd rfl (this l)
    | val x => cases h; simp [entryAny]
    | dict x => cases h; simp [entryAny]
  | a :: b :: p, _ => cases h; simp [entryAny]

theorem add_str {a : Str} {v r : DVal} (h : (DVal.ofStr a).add v.orEmpty = .ok r) : Textual v ∧ r = .ofStr (a ++ text v) := by
  unfold DVal.orEmpty at h
  split at h
  · next ht =>
    cases v with
    | list l => cases h
    | dict l => cases h
    | val x =>
      cases x with
      | str s => cases h; exact ⟨.inl ⟨s, rfl⟩, rfl⟩
      | none => cases h
      | int i => cases h
      | fls => cases h
      | obj i => cases h
  · next ht =>
    have ht : v.truthy = false := by simpa using ht
    refine ⟨.inr ht, ?_⟩
    cases h
    cases v with
    | list l => rfl
    | dict l => rfl
    | val x =>
      cases x with
      | str s => cases s with | nil => rfl | cons c s => cases ht
      | _ => rfl

theorem spaced_snoc (l : List Str) (w : Str) (h : l ≠ []) : spaced (l ++ [w]) = spaced l ++ ' ' :: w := by
  induction l with
  | nil => exact absurd rfl h
  | cons a l ih =>
    cases l with
    | nil => rfl
    | cons b l => 
      have := ih (by simp)
      simp only [List.cons_append, spaced] at this ⊢
      rw [this]; simp

theorem step_spaced {d d' : Dict DVal} {rt : Str} {p : List DVal} {v : DVal} (hd : d.get? (lower rt) = entrySpaced p)
    (h : dictChild d rt (py!"sconcat") (.ok v) = .ok d') : Textual v ∧ d'.get? (lower rt) = entrySpaced (p ++ [v]) := by
  unfold dictChild at h
  rw [if_neg (by decide), if_neg (by decide), if_pos rfl] at h
  rw [hd] at h
  obtain ⟨s, hs, h⟩ := except_bind_ok.1 h
  obtain ⟨v', hv, h⟩ := except_bind_ok.1 h
  cases hv
  obtain ⟨r, hr, h⟩ := except_bind_ok.1 h
  cases h
  cases p with
  | nil =>
    cases hs
    obtain ⟨t, rfl⟩ := add_str hr
    exact ⟨t, by simp [entrySpaced, spaced, DVal.ofStr]⟩
  | cons a p =>
    cases hs
    obtain ⟨t, rfl⟩ := add_str hr
    refine ⟨t, ?_⟩
    have := spaced_snoc ((a :: p).map text) (text v) (by simp)
    rw [Dict.get?_set_self]
    simp only [List.cons_append, entrySpaced, List.map_cons, List.map_append, List.map_nil, DVal.ofStr] at this ⊢
    rw [this]
    simp

theorem step_joined {d d' : Dict DVal} {rt : Str} {p : List DVal} {v : DVal} (hd : d.get? (lower rt) = entryJoined p)
    (h : dictChild d rt (py!"bconcat") (.ok v) = .ok d') : Textual v ∧ d'.get? (lower rt) = entryJoined (p ++ [v]) := by
  unfold dictChild at h
  rw [if_neg (by decide), if_neg (by decide), if_neg (by decide), if_pos rfl] at h
  obtain ⟨v', hv, h⟩ := except_bind_ok.1 h
  cases hv
  obtain ⟨r, hr, h⟩ := except_bind_ok.1 h
  cases h
  rw [hd] at hr
  cases p with
  | nil =>
    obtain ⟨t, rfl⟩ := add_str hr
    exact ⟨t, by simp [entryJoined, DVal.ofStr]⟩
  | cons a p =>
    obtain ⟨t, rfl⟩ := add_str hr
    refine ⟨t, ?_⟩
    rw [Dict.get?_set_self]
    simp [entryJoined, DVal.ofStr]

end Metatab
