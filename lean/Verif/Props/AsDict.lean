import Verif.Lemmas.AsDict
import Verif.Lemmas.Reach
import Verif.Lemmas.Examples
import Verif.Props.Enumerate
import Verif.Lemmas.DictCheck
/-! # C08, C09: conversion of terms to nested dicts -/
namespace Metatab
open Py _root_.Spec

theorem treeF_more {h : Nat → Obj} {f t : Nat} {tr : Tree} (e : treeF h f t = .ok tr) : treeF h (f + 1) t = .ok tr := by
  induction f generalizing t tr with
  | zero => cases e
  | succ f ih =>
    obtain ⟨ks, hk, rfl⟩ := treeF_iff.1 e
    exact treeF_iff.2 ⟨ks, hk.imp fun _ _ h => ih h, rfl⟩

theorem treeF_obj {h : Nat → Obj} {f t : Nat} {tr : Tree} (e : treeF h f t = .ok tr) : tr.obj = h t := by
  cases f with
  | zero => cases e
  | succ f => obtain ⟨ks, -, rfl⟩ := treeF_iff.1 e; rfl

theorem tree_kids {s : St} {t : Nat} {tr : Tree} (e : tree s t = .ok tr) :
    ∃ ks, List.Forall₂ (fun c k => tree s c = .ok k) (s.heap t).children ks ∧ tr = .node t (s.heap t) ks := by
  obtain ⟨ks, hk, rfl⟩ := treeF_iff.1 e
  exact ⟨ks, hk.imp fun _ _ h => treeF_more h, rfl⟩

theorem termAsDict_iff {rvn : Bool} {t : Nat} {s s' : St} {v : DVal} :
    termAsDict rvn t s = .ok v s' ↔ s' = s ∧ ∃ tr, tree s t = .ok tr ∧ tr.toDict rvn = .ok v := by
  unfold termAsDict
  rw [lift_run]
  cases h : tree s t with
  | error e => simp [bind, Except.bind]
  | ok tr =>
    simp only [bind, Except.bind]
    cases h' : tr.toDict rvn with
    | error e => simp [h']
    | ok w =>
      simp only [Except.ok.injEq, h', exists_eq_left', Res.ok.injEq]
      exact ⟨fun h => ⟨h.2.symm, h.1⟩, fun h => ⟨h.2, h.1.symm⟩⟩

/-- The conversion of a term, when it has one. -/
def convOf (s : St) (rvn : Bool) (c : Nat) : DVal := match tree s c with | .ok k => k.conv rvn | .error _ => .val .none

/-- What the conversion of a list of terms into one dict is made of. -/
structure Forest (s : St) (rvn : Bool) (ts : List Nat) (d : Dict DVal) : Prop where
  conv : ∀ c ∈ ts, termAsDict rvn c s = .ok (convOf s rvn c) s
  keys : d.keys = distinctNames (ts.map fun c => lower (s.heap c).rt)
  nodup : d.keys.Nodup
  any : ∀ n, (∀ c ∈ namedIn s ts n, (s.heap c).cpt ∉ specialTypes ∧ lower (s.heap c).rt = (s.heap c).rt) →
    d.get? n = entryAny ((namedIn s ts n).map (convOf s rvn))
  scalar : ∀ n, (∀ c ∈ namedIn s ts n, (s.heap c).cpt = py!"scalar") → d.get? n = ((namedIn s ts n).map (convOf s rvn)).getLast?
  seq : ∀ n, (∀ c ∈ namedIn s ts n, (s.heap c).cpt = py!"sequence") → d.get? n = entrySeq ((namedIn s ts n).map (convOf s rvn))
  spaced : ∀ n, (∀ c ∈ namedIn s ts n, (s.heap c).cpt = py!"sconcat") →
    (∀ c ∈ namedIn s ts n, Textual (convOf s rvn c)) ∧ d.get? n = entrySpaced ((namedIn s ts n).map (convOf s rvn))
  joined : ∀ n, (∀ c ∈ namedIn s ts n, (s.heap c).cpt = py!"bconcat") →
    (∀ c ∈ namedIn s ts n, Textual (convOf s rvn c)) ∧ d.get? n = entryJoined ((namedIn s ts n).map (convOf s rvn))

theorem forest_of {s : St} {rvn : Bool} {ts : List Nat} {ks : List Tree} {d : Dict DVal}
    (hk : List.Forall₂ (fun c k => tree s c = .ok k) ts ks) (h : kidsDict rvn [] ks = .ok d) : Forest s rvn ts d := by
  have hobj : List.Forall₂ (fun c k => k.obj = s.heap c ∧ convOf s rvn c = k.conv rvn) ts ks := by
    refine hk.imp fun c k h => ⟨treeF_obj h, ?_⟩
    unfold convOf; rw [h]
  have hnamed : ∀ n, (ks.filter fun k => lower k.obj.rt = n).map (Tree.conv rvn) = (namedIn s ts n).map (convOf s rvn) := by
    intro n
    unfold namedIn
    clear * - hobj
    induction hobj with
    | nil => rfl
    | cons h _ ih =>
      obtain ⟨h1, h2⟩ := h
      rw [List.filter_cons, List.filter_cons, h1]
      split
      · rw [List.map_cons, List.map_cons, h2, ih]
      · exact ih
  have hmem : ∀ n, ∀ k ∈ ks, lower k.obj.rt = n → ∃ c ∈ namedIn s ts n, k.obj = s.heap c := by
    intro n k hm hn
    obtain ⟨c, hc, h1, -⟩ := forall₂_mem_right hobj hm
    exact ⟨c, List.mem_filter.2 ⟨hc, by rw [← h1]; simpa using hn⟩, h1⟩
  have hnil : ∀ x ∈ ([] : List DVal), ∀ l, x ≠ .list l := by intro x hx; cases hx
  have textual : ∀ n, (∀ x ∈ (namedIn s ts n).map (convOf s rvn), Textual x) → ∀ c ∈ namedIn s ts n, Textual (convOf s rvn c) :=
    fun n h c hc => h _ (List.mem_map_of_mem hc)
  refine ⟨?_, ?_, ?_, ?_, ?_, ?_, ?_, ?_⟩
  · intro c hc
    obtain ⟨k, hkm, hkc⟩ := forall₂_mem_left hk hc
    have := kidsDict_conv h k hkm
    exact termAsDict_iff.2 ⟨rfl, k, hkc, by rw [this]; unfold convOf; rw [hkc]⟩
  · rw [kidsDict_keys h]
    have : (ks.map fun k => lower k.obj.rt) = ts.map fun c => lower (s.heap c).rt := by
      clear * - hobj
      induction hobj with
      | nil => rfl
      | cons h _ ih => rw [List.map_cons, List.map_cons, h.1, ih]
    rw [this]
    simp [Dict.keys]
  · exact kidsDict_nodup (by simp [Dict.keys]) h
  · intro n hn
    have := kidsDict_shape (n := n) (Q := fun o p => o = entryAny p) (ks := ks) (rvn := rvn) ?_ hnil rfl h
    · rw [← hnamed]; exact this
    · intro k hkm hkn d d' p v hp hd hv he
      obtain ⟨c, hc, h1⟩ := hmem n k hkm hkn
      subst hkn
      have := hn c hc
      rw [← h1] at this
      exact step_any this.1 this.2 hp hd he
  · intro n hn
    have := kidsDict_shape (n := n) (Q := fun o p => o = p.getLast?) (ks := ks) (rvn := rvn) ?_ hnil rfl h
    · rw [← hnamed]; exact this
    · intro k hkm hkn d d' p v hp hd hv he
      obtain ⟨c, hc, h1⟩ := hmem n k hkm hkn
      subst hkn
      have := hn c hc
      rw [← h1] at this
      rw [this] at he
      exact step_scalar he
  · intro n hn
    have := kidsDict_shape (n := n) (Q := fun o p => o = entrySeq p) (ks := ks) (rvn := rvn) ?_ hnil rfl h
    · rw [← hnamed]; exact this
    · intro k hkm hkn d d' p v hp hd hv he
      obtain ⟨c, hc, h1⟩ := hmem n k hkm hkn
      subst hkn
      have := hn c hc
      rw [← h1] at this
      rw [this] at he
      exact step_seq hd he
  · intro n hn
    have := kidsDict_shape (n := n) (Q := fun o p => (∀ x ∈ p, Textual x) ∧ o = entrySpaced p) (ks := ks) (rvn := rvn) ?_ hnil
      ⟨(by intro x hx; cases hx), rfl⟩ h
    · rw [List.nil_append, hnamed] at this; exact ⟨textual n this.1, this.2⟩
    · intro k hkm hkn d d' p v hp hd hv he
      obtain ⟨c, hc, h1⟩ := hmem n k hkm hkn
      subst hkn
      have := hn c hc
      rw [← h1] at this
      rw [this] at he
      obtain ⟨a, b⟩ := step_spaced hd.2 he
      exact ⟨by intro x hx; rcases List.mem_append.1 hx with hx | hx; exact hd.1 x hx; rw [List.mem_singleton.1 hx]; exact a, b⟩
  · intro n hn
    have := kidsDict_shape (n := n) (Q := fun o p => (∀ x ∈ p, Textual x) ∧ o = entryJoined p) (ks := ks) (rvn := rvn) ?_ hnil
      ⟨(by intro x hx; cases hx), rfl⟩ h
    · rw [List.nil_append, hnamed] at this; exact ⟨textual n this.1, this.2⟩
    · intro k hkm hkn d d' p v hp hd hv he
      obtain ⟨c, hc, h1⟩ := hmem n k hkm hkn
      subst hkn
      have := hn c hc
      rw [← h1] at this
      rw [this] at he
      obtain ⟨a, b⟩ := step_joined hd.2 he
      exact ⟨by intro x hx; rcases List.mem_append.1 hx with hx | hx; exact hd.1 x hx; rw [List.mem_singleton.1 hx]; exact a, b⟩

theorem toDict_kids {rvn : Bool} {i : Nat} {o : Obj} {ks : List Tree} {v : DVal} (hk : ks ≠ []) (h : (Tree.node i o ks).toDict rvn = .ok v) :
    ∃ d, kidsDict rvn [] ks = .ok d ∧ v = .dict (dictValue rvn o d) := by
  cases ks with
  | nil => exact absurd rfl hk
  | cons k ks =>
    rw [Tree.toDict] at h
    obtain ⟨d, hd, e⟩ := except_bind_ok.1 h
    cases e
    exact ⟨d, hd, rfl⟩

theorem termAsDict_kids {s s' : St} {rvn : Bool} {t : Nat} {v : DVal} (h : termAsDict rvn t s = .ok v s') (hk : (s.heap t).children ≠ []) :
    ∃ d, Forest s rvn (s.heap t).children d ∧ v = .dict (dictValue rvn (s.heap t) d) := by
  obtain ⟨-, tr, ht, hd⟩ := termAsDict_iff.1 h
  obtain ⟨ks, hks, rfl⟩ := tree_kids ht
  have hne : ks ≠ [] := by rintro rfl; exact hk (List.forall₂_nil_right_iff.1 hks)
  obtain ⟨d, hd, e⟩ := toDict_kids hne hd
  exact ⟨d, forest_of hks hd, e⟩

/-- The term carries a value that goes under the name `n`. -/
def _root_.Spec.ValueAt (rvn : Bool) (o : Obj) (n : Str) : Prop := o.value.truthy = true ∧ n = valueName rvn o

theorem dictValue_get {rvn : Bool} {o : Obj} {d : Dict DVal} {n : Str} (h : ¬ ValueAt rvn o n) : (dictValue rvn o d).get? n = d.get? n := by
  unfold dictValue
  split
  · next hv => rw [Dict.get?_set, if_neg]; exact fun e => h ⟨hv, e.symm⟩
  · rfl

theorem dictValue_keys {rvn : Bool} {o : Obj} {d : Dict DVal} : (dictValue rvn o d).keys =
    d.keys ++ (if o.value.truthy ∧ valueName rvn o ∉ d.keys then [valueName rvn o] else []) := by
  unfold dictValue
  by_cases hv : o.value.truthy = true
  · rw [if_pos hv, Dict.keys_set]
    change (if valueName rvn o ∈ d.keys then d.keys else d.keys ++ [valueName rvn o]) = _
    by_cases hm : valueName rvn o ∈ d.keys
    · rw [if_pos hm, if_neg (fun h => h.2 hm), List.append_nil]
    · rw [if_neg hm, if_pos ⟨hv, hm⟩]
  · rw [if_neg hv, if_neg (fun h => hv h.1), List.append_nil]

/-- **C08** (leaves). A term without children is converted to its value. -/
theorem C08_leaf {s : St} (rvn : Bool) {t : Nat} (h : (s.heap t).children = []) : termAsDict rvn t s = .ok (.val (s.heap t).value) s := by
  refine termAsDict_iff.2 ⟨rfl, .node t (s.heap t) [], treeF_iff.2 ⟨[], by rw [h]; exact .nil, rfl⟩, rfl⟩

/-- **C08.** In every reachable document, a term with children is converted to a dict. Its keys are the lower-cased child names in the
order of their first occurrence, followed by the value name when the term has a value and no child has that name. Under a name whose
children have no declared property type it holds the converted child, or the list of all of them in document order when there is more
than one. The value of the term is under the value name and replaces a child of that name. -/
theorem C08_groups {allow : Op → Prop} {s s' : St} (r : Reach allow s) {rvn : Bool} {t : Nat} {v : DVal} (h : termAsDict rvn t s = .ok v s')
    (hk : (s.heap t).children ≠ []) : ∃ (conv : Nat → DVal) (d : Dict DVal), v = .dict d ∧
      (∀ c ∈ (s.heap t).children, termAsDict rvn c s = .ok (conv c) s) ∧
      d.keys = distinctNames ((s.heap t).children.map fun c => lower (s.heap c).rt) ++
        (if (s.heap t).value.truthy ∧ valueName rvn (s.heap t) ∉ distinctNames ((s.heap t).children.map fun c => lower (s.heap c).rt)
          then [valueName rvn (s.heap t)] else []) ∧
      (∀ n, (∀ c ∈ namedIn s (s.heap t).children n, (s.heap c).cpt ∉ specialTypes) → ¬ ValueAt rvn (s.heap t) n →
        d.get? n = entryAny ((namedIn s (s.heap t).children n).map conv)) ∧
      ((s.heap t).value.truthy → d.get? (valueName rvn (s.heap t)) = some (.val (s.heap t).value)) := by
  have w : WF False s := r.wf fun f => f.elim
  obtain ⟨d, f, rfl⟩ := termAsDict_kids h hk
  refine ⟨convOf s rvn, _, rfl, f.conv, ?_, ?_, ?_⟩
  · rw [dictValue_keys, f.keys]
  · intro n hn hv
    rw [dictValue_get hv]
    exact f.any n fun c hc => ⟨hn c hc, (w.low c).2⟩
  · intro hv
    unfold dictValue
    rw [if_pos hv]
    exact Dict.get?_set_self _ _ _

mutual
theorem toDict_total {rvn : Bool} (h : St) : ∀ (tr : Tree), (∀ (t f : Nat), treeF h.heap f t = .ok tr →
    (∀ c, Hangs h.heap t c → (h.heap c).cpt ≠ py!"sconcat" ∧ (h.heap c).cpt ≠ py!"bconcat" ∧ lower (h.heap c).rt = (h.heap c).rt) →
    ∃ v, tr.toDict rvn = .ok v)
  | .node i o ks => by
    intro t f ht hc
    cases f with
    | zero => cases ht
    | succ f =>
      obtain ⟨ks', hk, e⟩ := treeF_iff.1 ht
      cases e
      cases ks with
      | nil => exact ⟨_, rfl⟩
      | cons k ks =>
        obtain ⟨d, hd⟩ := kidsDict_total h (k :: ks) (h.heap i).children f hk
          (fun c hc' => hc c (.kid hc')) (fun c hc' d hd => hc d (.deeper hc' hd)) []
        exact ⟨.dict (dictValue rvn (h.heap i) d), by rw [Tree.toDict, hd]; rfl⟩
theorem kidsDict_total {rvn : Bool} (h : St) : ∀ (ks : List Tree) (ts : List Nat) (f : Nat),
    List.Forall₂ (fun c k => treeF h.heap f c = .ok k) ts ks →
    (∀ c ∈ ts, (h.heap c).cpt ≠ py!"sconcat" ∧ (h.heap c).cpt ≠ py!"bconcat" ∧ lower (h.heap c).rt = (h.heap c).rt) →
    (∀ c ∈ ts, ∀ d, Hangs h.heap c d → (h.heap d).cpt ≠ py!"sconcat" ∧ (h.heap d).cpt ≠ py!"bconcat" ∧ lower (h.heap d).rt = (h.heap d).rt) →
    ∀ d, ∃ d', kidsDict rvn d ks = .ok d'
  | [], _, _, _, _, _ => fun d => ⟨d, rfl⟩
  | k :: ks, [], _, hk, _, _ => by cases hk
  | k :: ks, t :: ts, f, hk, h1, h2 => by
    intro d
    cases hk with
    | cons ht hk =>
      obtain ⟨v, hv⟩ := toDict_total h k t f ht (h2 t List.mem_cons_self)
      have ho := treeF_obj ht
      have hstep : ∃ d', dictChild d k.obj.rt k.obj.cpt (.ok v) = .ok d' := by
        obtain ⟨a, b, c⟩ := h1 t List.mem_cons_self
        rw [← ho] at a b c
        unfold dictChild
        dsimp only
        split
        · exact ⟨_, rfl⟩
        split
        · simp only [bind, Except.bind]
          split <;> exact ⟨_, rfl⟩
        try rw [if_neg a, if_neg b]
        split
        · exact ⟨_, rfl⟩
        · exact ⟨_, rfl⟩
        · next x _ hx =>
          rw [c] at hx
          rw [hx]
          exact ⟨_, rfl⟩
      obtain ⟨d', hd'⟩ := hstep
      obtain ⟨d'', hd''⟩ := kidsDict_total h ks ts f hk (fun c hc => h1 c (List.mem_cons_of_mem _ hc))
        (fun c hc => h2 c (List.mem_cons_of_mem _ hc)) d'
      refine ⟨d'', ?_⟩
      rw [kidsDict, hv, hd']
      exact hd''
end

/-- **C08** (it succeeds). In every document made without attaching children by hand and without terms that are their own child, a
term can be converted unless some term below it is declared `sconcat` or `bconcat`. -/
theorem C08_total {s : St} (r : Reach Op.noAddChild s) (hs : ∀ i, i ∉ (s.heap i).children) (rvn : Bool) {t : Nat}
    (hc : ∀ c, Hangs s.heap t c → (s.heap c).cpt ≠ py!"sconcat" ∧ (s.heap c).cpt ≠ py!"bconcat") : ∃ v, termAsDict rvn t s = .ok v s := by
  have w : WF True s := r.wf fun _ op ha => ha
  obtain ⟨tr, htr⟩ : ∃ tr, tree s t = .ok tr := by
    refine treeF_total (n := s.next) ?_ (by omega) (by omega)
    intro i c hc
    refine ⟨?_, w.kidLt i c hc⟩
    rcases w.edge trivial i c hc with h | ⟨rfl, -⟩
    · exact h
    · exact absurd hc (hs i)
  obtain ⟨v, hv⟩ := toDict_total (rvn := rvn) s tr t (s.next + 1) htr fun c hb => ⟨(hc c hb).1, (hc c hb).2, (w.low c).2⟩
  exact ⟨v, termAsDict_iff.2 ⟨rfl, tr, htr, hv⟩⟩

/-! ## C09 -/

/-- **C09** (scalar). Under a name whose children are all declared `scalar` the dict holds the last of the converted children. -/
theorem C09_scalar {s s' : St} {rvn : Bool} {t : Nat} {v : DVal} (h : termAsDict rvn t s = .ok v s') (hk : (s.heap t).children ≠ []) :
    ∃ (conv : Nat → DVal) (d : Dict DVal), v = .dict d ∧ (∀ c ∈ (s.heap t).children, termAsDict rvn c s = .ok (conv c) s) ∧
      ∀ n, (∀ c ∈ namedIn s (s.heap t).children n, (s.heap c).cpt = py!"scalar") → ¬ ValueAt rvn (s.heap t) n →
        d.get? n = ((namedIn s (s.heap t).children n).map conv).getLast? := by
  obtain ⟨d, f, rfl⟩ := termAsDict_kids h hk
  exact ⟨convOf s rvn, _, rfl, f.conv, fun n hn hv => by rw [dictValue_get hv]; exact f.scalar n hn⟩

/-- **C09** (sequence). Under a name whose children are all declared `sequence` the dict holds the list of all of them in order, also when
there is only one. -/
theorem C09_sequence {s s' : St} {rvn : Bool} {t : Nat} {v : DVal} (h : termAsDict rvn t s = .ok v s') (hk : (s.heap t).children ≠ []) :
    ∃ (conv : Nat → DVal) (d : Dict DVal), v = .dict d ∧ (∀ c ∈ (s.heap t).children, termAsDict rvn c s = .ok (conv c) s) ∧
      ∀ n, (∀ c ∈ namedIn s (s.heap t).children n, (s.heap c).cpt = py!"sequence") → ¬ ValueAt rvn (s.heap t) n →
        d.get? n = entrySeq ((namedIn s (s.heap t).children n).map conv) := by
  obtain ⟨d, f, rfl⟩ := termAsDict_kids h hk
  exact ⟨convOf s rvn, _, rfl, f.conv, fun n hn hv => by rw [dictValue_get hv]; exact f.seq n hn⟩

/-- **C09** (sconcat). Under a name whose children are all declared `sconcat` the dict holds their values, missing ones taken as empty,
with one blank between each two. The conversion succeeds only when each value is a string or false. -/
theorem C09_sconcat {s s' : St} {rvn : Bool} {t : Nat} {v : DVal} (h : termAsDict rvn t s = .ok v s') (hk : (s.heap t).children ≠ []) :
    ∃ (conv : Nat → DVal) (d : Dict DVal), v = .dict d ∧ (∀ c ∈ (s.heap t).children, termAsDict rvn c s = .ok (conv c) s) ∧
      ∀ n, (∀ c ∈ namedIn s (s.heap t).children n, (s.heap c).cpt = py!"sconcat") → ¬ ValueAt rvn (s.heap t) n →
        (∀ c ∈ namedIn s (s.heap t).children n, Textual (conv c)) ∧ d.get? n = entrySpaced ((namedIn s (s.heap t).children n).map conv) := by
  obtain ⟨d, f, rfl⟩ := termAsDict_kids h hk
  exact ⟨convOf s rvn, _, rfl, f.conv, fun n hn hv => by rw [dictValue_get hv]; exact f.spaced n hn⟩

/-- **C09** (bconcat). The same with nothing between the values. -/
theorem C09_bconcat {s s' : St} {rvn : Bool} {t : Nat} {v : DVal} (h : termAsDict rvn t s = .ok v s') (hk : (s.heap t).children ≠ []) :
    ∃ (conv : Nat → DVal) (d : Dict DVal), v = .dict d ∧ (∀ c ∈ (s.heap t).children, termAsDict rvn c s = .ok (conv c) s) ∧
      ∀ n, (∀ c ∈ namedIn s (s.heap t).children n, (s.heap c).cpt = py!"bconcat") → ¬ ValueAt rvn (s.heap t) n →
        (∀ c ∈ namedIn s (s.heap t).children n, Textual (conv c)) ∧ d.get? n = entryJoined ((namedIn s (s.heap t).children n).map conv) := by
  obtain ⟨d, f, rfl⟩ := termAsDict_kids h hk
  exact ⟨convOf s rvn, _, rfl, f.conv, fun n hn hv => by rw [dictValue_get hv]; exact f.joined n hn⟩

/-! Concrete cases -/

/-- Rows with a repeated child, a child with children of its own and a single child. -/
def dictRows : List (List Str) :=
  [[py!"Table", py!"t"], [py!".A", py!"1"], [py!".B", py!"2"], [py!".A", py!"3"], [py!"Table.Column", py!"c"], [py!".Type", py!"int"]]

theorem dict_example : ∃ s', termAsDict true 1 (exParse dictRows) = .ok (.dict [(py!"a", .list [.ofStr (py!"1"), .ofStr (py!"3")]),
    (py!"b", .ofStr (py!"2")), (py!"column", .dict [(py!"type", .ofStr (py!"int")), (py!"@value", .ofStr (py!"c"))]),
    (py!"@value", .ofStr (py!"t"))]) s' := returns_eq (by decide +kernel)

/-- The hypotheses of `C08_groups` can be met, with a name that occurs twice. -/
example : ∃ (conv : Nat → DVal) (d : Dict DVal), d.get? (py!"a") = some (.list [conv 2, conv 4]) := by
  obtain ⟨s', h⟩ := dict_example
  obtain ⟨conv, d, -, -, -, hn, -⟩ := C08_groups (exParse_reach (allow := fun _ => True) dictRows trivial) h (by decide +kernel)
  refine ⟨conv, d, ?_⟩
  rw [hn (py!"a") (by decide +kernel) (by rintro ⟨-, h⟩; revert h; decide +kernel)]
  rw [show namedIn (exParse dictRows) ((exParse dictRows).heap 1).children (py!"a") = [2, 4] by decide +kernel]
  rfl

/-- Those of `C08_total` as well. -/
example : ∃ v, termAsDict true 1 (exParse [[py!"Table", py!"t"], [py!".A", py!"1"]]) = .ok v (exParse [[py!"Table", py!"t"], [py!".A", py!"1"]]) := by
  have r := exParse_reach (allow := Op.noAddChild) [[py!"Table", py!"t"], [py!".A", py!"1"]] trivial
  have w : WF True (exParse [[py!"Table", py!"t"], [py!".A", py!"1"]]) := r.wf fun _ op ha => ha
  have hn : (exParse [[py!"Table", py!"t"], [py!".A", py!"1"]]).next = 3 := by decide +kernel
  have small : ∀ i, i < 3 ∨ (exParse [[py!"Table", py!"t"], [py!".A", py!"1"]]).heap i = Obj.blank := by
    intro i
    rcases Nat.lt_or_ge i 3 with h | h
    · exact .inl h
    · exact .inr (w.blank i (by rw [hn]; exact h))
  refine C08_total r ?_ true ?_
  · intro i
    rcases small i with h | h
    · revert i; decide +kernel
    · rw [h]; intro h; cases h
  · intro c hc
    clear hc
    rcases small c with h | h
    · revert c; decide +kernel
    · rw [h]; decide

/-- Declarations of a child of each type. -/
def typesFiles : Files :=
  ⟨fun t => if t = py!"d.csv" then some [[py!"Section", py!"DeclaredTerms", py!"ChildPropertyType"], [py!"DeclareTerm", py!"T.A", py!"scalar"],
    [py!"DeclareTerm", py!"T.B", py!"sequence"], [py!"DeclareTerm", py!"T.C", py!"sconcat"], [py!"DeclareTerm", py!"T.D", py!"bconcat"]] else none,
   fun _ n => if n = py!"d.csv" then some (py!"d.csv") else none⟩
def typesRows : List (List Str) :=
  [[py!"Declare", py!"d.csv"], [py!"T", py!"t"], [py!"T.A", py!"1"], [py!"T.A", py!"2"], [py!"T.B", py!"3"], [py!"T.C", py!"x"], [py!"T.C", []],
   [py!"T.C", py!"y"], [py!"T.D", py!"x"], [py!"T.D", py!"y"]]
def typesDoc : St := after (parseRows typesFiles 3 (py!"m.csv") typesRows) exDoc

theorem types_example : ∃ s', termAsDict true ((typesDoc.terms.getLastD 0)) typesDoc = .ok (.dict [(py!"a", .ofStr (py!"2")), (py!"b", .list [.ofStr (py!"3")]),
    (py!"c", .ofStr (py!"x  y")), (py!"d", .ofStr (py!"xy")), (py!"@value", .ofStr (py!"t"))]) s' := returns_eq (by decide +kernel)

/-- The hypotheses of `C09_scalar`, `C09_sequence`, `C09_sconcat` and `C09_bconcat` can be met, with one child or more of each type. -/
example : typesDoc.terms.getLastD 0 = 11 ∧ (typesDoc.heap 11).children = [12, 13, 14, 15, 16, 17, 18, 19] ∧
    (namedIn typesDoc (typesDoc.heap 11).children (py!"a")).map (fun c => (typesDoc.heap c).cpt) = [py!"scalar", py!"scalar"] ∧
    (namedIn typesDoc (typesDoc.heap 11).children (py!"b")).map (fun c => (typesDoc.heap c).cpt) = [py!"sequence"] ∧
    (namedIn typesDoc (typesDoc.heap 11).children (py!"c")).map (fun c => (typesDoc.heap c).cpt) = [py!"sconcat", py!"sconcat", py!"sconcat"] ∧
    (namedIn typesDoc (typesDoc.heap 11).children (py!"d")).map (fun c => (typesDoc.heap c).cpt) = [py!"bconcat", py!"bconcat"] := by
  decide +kernel

end Metatab
