import Verif.Model.Rows
import Verif.Props.Enumerate
/-! # C47, C48: the rows a document writes -/
namespace Metatab
open Py Spec

/-! ## C47: columns and extra rows -/

theorem takeArgs_spec {ns : List Str} {d : Dict Val} (hn : d.keys.Nodup) :
    (takeArgs ns d).1.length = ns.length ∧
    (∀ j n, ns[j]? = some n → (takeArgs ns d).1[j]? =
      some (if lower n ∈ (ns.take j).map lower then .str [] else (d.get? (lower n)).getD (.str []))) ∧
    (takeArgs ns d).2 = d.filter fun kv => decide (kv.1 ∉ ns.map lower) := by
  induction ns generalizing d with
  | nil => refine ⟨rfl, ?_, ?_⟩
           · intro j n h; simp at h
           · simp [takeArgs]
  | cons m ns ih =>
    obtain ⟨h1, h2, h3⟩ := ih (Dict.nodup_del hn (lower m))
    refine ⟨by simp [takeArgs, h1], ?_, ?_⟩
    · intro j n hj
      cases j with
      | zero =>
        simp only [List.getElem?_cons_zero, Option.some.injEq] at hj
        subst hj
        simp [takeArgs]
      | succ j =>
        simp only [List.getElem?_cons_succ] at hj
        simp only [takeArgs, List.getElem?_cons_succ, h2 j n hj, Dict.get?_del hn, List.take_succ_cons, List.map_cons, List.mem_cons]
        by_cases e : lower n = lower m
        · simp [e]
        · simp [e, Ne.symm e]
    · simp only [takeArgs, h3]
      rw [Dict.del_eq_filter hn, List.filter_filter]
      refine List.filter_congr ?_
      intro kv _
      simp [not_or, Bool.and_comm]

theorem lowerKeys_spec {d : Dict Val} (hd : (d.keys.map lower).Nodup) : lowerKeys d = d.map fun kv => (lower kv.1, kv.2) := by
  unfold lowerKeys
  have : ∀ (a : Dict Val), (a.keys ++ d.keys.map lower).Nodup →
      d.foldl (fun a kv => a.set (lower kv.1) kv.2) a = a ++ d.map fun kv => (lower kv.1, kv.2) := by
    clear hd
    induction d with
    | nil => intro a _; simp
    | cons kv d ih =>
      intro a ha
      have hkv : lower kv.1 ∉ a.keys := by
        intro hm
        have := List.disjoint_of_nodup_append ha
        exact this hm (by simp [Dict.keys])
      simp only [List.foldl_cons]
      rw [Dict.set_append hkv, ih]
      · simp
      · simpa [Dict.keys] using ha
  have := this [] (by simpa [Dict.keys] using hd)
  simpa using this

theorem keys_lowered (d : Dict Val) : Dict.keys (d.map fun kv => (lower kv.1, kv.2)) = d.keys.map lower := by
  unfold Dict.keys; simp [Function.comp_def]

theorem entryRows_spec {s : St} {sec : Nat} {term : Str} {d : Dict Val} (hd : (d.keys.map lower).Nodup) :
    ∃ args, entryRows s sec (term, d) = (term, .args args) ::
        (d.filter fun kv => decide (lower kv.1 ∉ (writtenTvn s term :: (s.heap sec).secPropertyNames).map lower)).map
          (fun kv => ((splitOn '.' term).getLastD [] ++ '.' :: lower kv.1, .one kv.2)) ∧
      args.length = (s.heap sec).secPropertyNames.length + 1 ∧
      ∀ j n, (writtenTvn s term :: (s.heap sec).secPropertyNames)[j]? = some n → args[j]? =
        some (if lower n ∈ ((writtenTvn s term :: (s.heap sec).secPropertyNames).take j).map lower then .str []
          else (Dict.get? (d.map fun kv => (lower kv.1, kv.2)) (lower n)).getD (.str [])) := by
  have hk : (Dict.keys (d.map fun kv => (lower kv.1, kv.2))).Nodup := by rw [keys_lowered]; exact hd
  obtain ⟨h1, h2, h3⟩ := takeArgs_spec (ns := writtenTvn s term :: (s.heap sec).secPropertyNames) hk
  refine ⟨_, ?_, h1, h2⟩
  unfold entryRows rowArgs
  rw [lowerKeys_spec hd]
  simp only [h3, List.cons.injEq, true_and]
  rw [List.filter_map, List.map_map]
  rfl

/-- **C47** (columns). A section writes an entry as one row of cells, one for the value and one for each column of the section. A
property whose name is a column (up to case) stands in the first such column; no extra row carries it. -/
theorem C47_column {s : St} {sec : Nat} {term : Str} {d : Dict Val} (hd : (d.keys.map lower).Nodup) {k : Str} {v : Val} (hk : (k, v) ∈ d)
    {j : Nat} {n : Str} (hj : (writtenTvn s term :: (s.heap sec).secPropertyNames)[j]? = some n) (hn : lower n = lower k)
    (hf : ∀ i m, i < j → (writtenTvn s term :: (s.heap sec).secPropertyNames)[i]? = some m → lower m ≠ lower k) :
    ∃ args rest, entryRows s sec (term, d) = (term, .args args) :: rest ∧ args.length = (s.heap sec).secPropertyNames.length + 1 ∧
      args[j]? = some v ∧ ∀ r ∈ rest, r.1 ≠ (splitOn '.' term).getLastD [] ++ '.' :: lower k := by
  obtain ⟨args, h1, h2, h3⟩ := entryRows_spec (s := s) (sec := sec) (term := term) hd
  refine ⟨args, _, h1, h2, ?_, ?_⟩
  · rw [h3 j n hj, hn, if_neg]
    · congr 1
      rw [Dict.get?_of_mem (by rw [keys_lowered]; exact hd) (v := v)]
      · rfl
      · exact List.mem_map.2 ⟨(k, v), hk, rfl⟩
    · intro hm
      obtain ⟨m, hm, e⟩ := List.mem_map.1 hm
      obtain ⟨i, hi, rfl⟩ := List.getElem_of_mem hm
      rw [List.length_take] at hi
      refine hf i _ (by omega) ?_ e
      rw [List.getElem_take]
      exact List.getElem?_eq_getElem _
  · intro r hr e
    obtain ⟨kv, hkv, rfl⟩ := List.mem_map.1 hr
    rw [List.mem_filter] at hkv
    have e' := List.append_cancel_left e
    simp only [List.cons.injEq, true_and] at e'
    have := of_decide_eq_true hkv.2
    rw [e'] at this
    exact this (List.mem_map.2 ⟨n, List.mem_of_getElem? hj, hn⟩)

/-- **C47** (extra rows). A property whose name is no column gets exactly one extra row, named after the last part of the term's name,
and stands in no cell. -/
theorem C47_row {s : St} {sec : Nat} {term : Str} {d : Dict Val} (hd : (d.keys.map lower).Nodup) {k : Str} {v : Val} (hk : (k, v) ∈ d)
    (hn : ∀ n ∈ writtenTvn s term :: (s.heap sec).secPropertyNames, lower n ≠ lower k) :
    ∃ args rest, entryRows s sec (term, d) = (term, .args args) :: rest ∧
      rest.filter (fun r => decide (r.1 = (splitOn '.' term).getLastD [] ++ '.' :: lower k)) =
        [((splitOn '.' term).getLastD [] ++ '.' :: lower k, .one v)] := by
  obtain ⟨args, h1, -, -⟩ := entryRows_spec (s := s) (sec := sec) (term := term) hd
  refine ⟨args, _, h1, ?_⟩
  rw [List.filter_map, List.filter_filter]
  have : (fun a : Str × Val => (((fun r : Str × RowVal => decide (r.1 = (splitOn '.' term).getLastD [] ++ '.' :: lower k)) ∘
        fun kv : Str × Val => ((splitOn '.' term).getLastD [] ++ '.' :: lower kv.1, RowVal.one kv.2)) a &&
        decide (lower a.1 ∉ (writtenTvn s term :: (s.heap sec).secPropertyNames).map lower))) =
      fun a => decide (lower a.1 = lower k) := by
    funext a
    simp only [Function.comp_apply, List.append_cancel_left_eq, List.cons.injEq, true_and]
    by_cases e : lower a.1 = lower k
    · rw [e]
      have : lower k ∉ (writtenTvn s term :: (s.heap sec).secPropertyNames).map lower := by
        intro hm
        obtain ⟨n, h, e⟩ := List.mem_map.1 hm
        exact hn n h e
      rw [decide_eq_true this]; simp
    · simp [e]
  rw [this]
  have hone : d.filter (fun a => decide (lower a.1 = lower k)) = [(k, v)] := by
    clear this h1 hn
    induction d with
    | nil => cases hk
    | cons kv d ih =>
      have hd' : ((Dict.keys d).map lower).Nodup ∧ lower kv.1 ∉ (Dict.keys d).map lower := by
        have := hd
        simp only [Dict.keys, List.map_cons, List.nodup_cons] at this
        exact ⟨this.2, this.1⟩
      rcases List.mem_cons.1 hk with rfl | hk'
      · rw [List.filter_cons_of_pos (by simp), List.cons.injEq]
        refine ⟨rfl, ?_⟩
        rw [List.filter_eq_nil_iff]
        intro a ha e
        refine hd'.2 ?_
        rw [← of_decide_eq_true e]
        exact List.mem_map.2 ⟨a.1, List.mem_map.2 ⟨a, ha, rfl⟩, rfl⟩
      · rw [List.filter_cons_of_neg, ih hd'.1 hk']
        intro e
        refine hd'.2 ?_
        rw [of_decide_eq_true e]
        exact List.mem_map.2 ⟨k, List.mem_map.2 ⟨(k, v), hk', rfl⟩, rfl⟩
  rw [hone]
  rfl

/-- **C47** (nothing else). Every cell is empty or holds the property its column is named after, and every extra row holds a property
that has no column. -/
theorem C47_nothing_else {s : St} {sec : Nat} {term : Str} {d : Dict Val} (hd : (d.keys.map lower).Nodup) :
    ∃ args rest, entryRows s sec (term, d) = (term, .args args) :: rest ∧
      (∀ (j : Nat) (v : Val), args[j]? = some v → v ≠ .str [] → ∃ n k, (writtenTvn s term :: (s.heap sec).secPropertyNames)[j]? = some n ∧
        lower k = lower n ∧ (k, v) ∈ d) ∧
      ∀ r ∈ rest, ∃ k v, (k, v) ∈ d ∧ r = ((splitOn '.' term).getLastD [] ++ '.' :: lower k, .one v) ∧
        ∀ n ∈ writtenTvn s term :: (s.heap sec).secPropertyNames, lower n ≠ lower k := by
  obtain ⟨args, h1, h2, h3⟩ := entryRows_spec (s := s) (sec := sec) (term := term) hd
  refine ⟨args, _, h1, ?_, ?_⟩
  · intro j v hv hne
    have hjl : j < args.length := by
      rcases Nat.lt_or_ge j args.length with h | h
      · exact h
      · rw [List.getElem?_eq_none h] at hv; cases hv
    have hjn : j < (writtenTvn s term :: (s.heap sec).secPropertyNames).length := by simpa [h2] using hjl
    have hg := List.getElem?_eq_getElem hjn
    have := h3 j _ hg
    rw [hv, Option.some.injEq] at this
    split at this
    · exact absurd this hne
    · cases hq : Dict.get? (d.map fun kv => (lower kv.1, kv.2)) (lower (writtenTvn s term :: (s.heap sec).secPropertyNames)[j]) with
      | none => rw [hq] at this; exact absurd this hne
      | some w =>
        rw [hq] at this
        simp only [Option.getD_some] at this
        subst this
        obtain ⟨kv, hkv, e⟩ := List.mem_map.1 (Dict.mem_of_get? hq)
        simp only [Prod.mk.injEq] at e
        exact ⟨_, kv.1, hg, e.1, by rw [← e.2]; exact hkv⟩
  · intro r hr
    obtain ⟨kv, hkv, rfl⟩ := List.mem_map.1 hr
    rw [List.mem_filter] at hkv
    refine ⟨kv.1, kv.2, hkv.1, rfl, ?_⟩
    intro n hn e
    exact of_decide_eq_true hkv.2 (List.mem_map.2 ⟨n, hn, e⟩)

/-- A section with the columns A and B: the property `b` has a column, `c` has none. -/
example : entryRows (exParse [[py!"Section", py!"S", py!"A", py!"B"], [py!"T", py!"v"]]) 1 (py!"root.t", [(py!"@value", .str (py!"v")),
      (py!"c", .str (py!"3")), (py!"b", .str (py!"2"))]) =
    [(py!"root.t", .args [.str (py!"v"), .str [], .str (py!"2")]), (py!"t.c", .one (.str (py!"3")))] := by decide +kernel

/-! ## C48: the entries of a term -/

/-- The entry `e` is that of the object `t`: its name is the qualified name; under the name of the value stands the value, and under
the name of every terminal child the value of the last such child. -/
structure _root_.Spec.EntryOf (s : St) (t : Nat) (e : Str × Dict Val) : Prop where
  name : qualified s (s.heap t) = .ok e.1
  keys : e.2.keys.Nodup
  child : ∀ l c r, (s.heap t).children = l ++ c :: r → (s.heap c).children = [] → lower (s.heap c).rt ≠ [] →
    (∀ c' ∈ r, (s.heap c').children = [] → lower (s.heap c').rt ≠ lower (s.heap c).rt) →
    e.2.get? (lower (s.heap c).rt) = some (s.heap c).value
  value : (∀ c ∈ (s.heap t).children, (s.heap c).children = [] → lower (s.heap c).rt ≠ writtenTvn s e.1) →
    e.2.get? (writtenTvn s e.1) = some (s.heap t).value
  only : ∀ k ∈ e.2.keys, k = writtenTvn s e.1 ∨ ∃ c ∈ (s.heap t).children, (s.heap c).children = [] ∧ lower (s.heap c).rt = k

theorem rowProps_other {ks : List Tree} {d : Dict Val} {k : Str} (h : ∀ c ∈ ks, c.kids = [] → lower c.obj.rt ≠ k) :
    (rowProps ks d).get? k = d.get? k := by
  induction ks generalizing d with
  | nil => rfl
  | cons c ks ih =>
    simp only [rowProps]
    rw [ih fun c' hc' => h c' (List.mem_cons_of_mem _ hc')]
    split
    · rename_i hc
      rw [Dict.get?_set, if_neg (h c List.mem_cons_self (List.isEmpty_iff.1 hc.1))]
    · rfl

theorem rowProps_append (a b : List Tree) (d : Dict Val) : rowProps (a ++ b) d = rowProps b (rowProps a d) := by
  induction a generalizing d with
  | nil => rfl
  | cons c a ih => simp only [List.cons_append, rowProps, ih]

theorem rowProps_child {l r : List Tree} {c : Tree} {d : Dict Val} (hc : c.kids = []) (hn : lower c.obj.rt ≠ [])
    (hr : ∀ c' ∈ r, c'.kids = [] → lower c'.obj.rt ≠ lower c.obj.rt) :
    (rowProps (l ++ c :: r) d).get? (lower c.obj.rt) = some c.obj.value := by
  rw [rowProps_append]
  simp only [rowProps, hc, List.isEmpty_nil, true_and, if_pos hn]
  rw [rowProps_other hr, Dict.get?_set_self]

theorem rowProps_nodup {ks : List Tree} {d : Dict Val} (h : d.keys.Nodup) : (rowProps ks d).keys.Nodup := by
  induction ks generalizing d with
  | nil => exact h
  | cons c ks ih =>
    simp only [rowProps]
    refine ih ?_
    split
    · exact Dict.nodup_set h _ _
    · exact h

theorem rowProps_keys {ks : List Tree} {d : Dict Val} {k : Str} (h : k ∈ (rowProps ks d).keys) :
    k ∈ d.keys ∨ ∃ c ∈ ks, c.kids = [] ∧ lower c.obj.rt = k := by
  induction ks generalizing d with
  | nil => exact .inl h
  | cons c ks ih =>
    simp only [rowProps] at h
    rcases ih h with h | ⟨c', hc', h⟩
    · split at h
      · rename_i hc
        rw [Dict.keys_set] at h
        split at h
        · exact .inl h
        · rcases List.mem_append.1 h with h | h
          · exact .inl h
          · exact .inr ⟨c, List.mem_cons_self, List.isEmpty_iff.1 hc.1, (List.mem_singleton.1 h).symm⟩
      · exact .inl h
    · exact .inr ⟨c', List.mem_cons_of_mem _ hc', h⟩

/-- The objects with children among the list. -/
def withKids (s : St) (l : List Nat) : List Nat := l.filter fun i => (s.heap i).children ≠ []

theorem treeF_node {h : Nat → Obj} {f t : Nat} {tr : Tree} (e : treeF h f t = .ok tr) :
    tr.id = t ∧ tr.obj = h t ∧ (tr.kids = [] ↔ (h t).children = []) := by
  cases f with
  | zero => cases e
  | succ f =>
    obtain ⟨ks, hk, rfl⟩ := treeF_iff.1 e
    refine ⟨rfl, rfl, ?_⟩
    simp only [Tree.kids]
    have := hk.length_eq
    rw [← List.length_eq_zero_iff, ← List.length_eq_zero_iff, this]

theorem forall₂_split {α β : Type} {R : α → β → Prop} {l r : List α} {m : List β} (h : List.Forall₂ R (l ++ r) m) :
    ∃ l' r', List.Forall₂ R l l' ∧ List.Forall₂ R r r' ∧ m = l' ++ r' := by
  induction l generalizing m with
  | nil => exact ⟨[], m, .nil, h, rfl⟩
  | cons a l ih =>
    cases h with
    | cons hab h =>
      obtain ⟨l', r', h1, h2, rfl⟩ := ih h
      exact ⟨_ :: l', r', .cons hab h1, h2, rfl⟩

theorem entryOf_node {s : St} {f t : Nat} {ks : List Tree} (hk : List.Forall₂ (fun c k => treeF s.heap f c = .ok k) (s.heap t).children ks)
    {q : Str} (hq : qualified s (s.heap t) = .ok q) : EntryOf s t (q, rowProps ks [(writtenTvn s q, (s.heap t).value)]) where
  name := hq
  keys := rowProps_nodup (by simp [Dict.keys])
  child := by
    intro l c r e hc hn hr
    rw [e] at hk
    obtain ⟨l', r', hl, hcr, rfl⟩ : ∃ l' r', List.Forall₂ (fun c k => treeF s.heap f c = .ok k) l l' ∧
        List.Forall₂ (fun c k => treeF s.heap f c = .ok k) (c :: r) r' ∧ ks = l' ++ r' := by
      exact forall₂_split hk
    cases hcr with
    | cons hck hr' =>
      rename_i c' r'
      obtain ⟨-, h2, h3⟩ := treeF_node hck
      have := rowProps_child (l := l') (r := r') (c := c') (d := [(writtenTvn s q, (s.heap t).value)]) (h3.2 hc) (by rw [h2]; exact hn) (by
        intro k hkm hk0
        obtain ⟨x, hx, hxk⟩ := forall₂_mem_right hr' hkm
        obtain ⟨-, g2, g3⟩ := treeF_node hxk
        rw [g2, h2]
        exact hr x hx (g3.1 hk0))
      rw [h2] at this
      exact this
  value := by
    intro hv
    simp only
    rw [rowProps_other]
    · simp [Dict.get?_cons]
    · intro k hkm hk0
      obtain ⟨x, hx, hxk⟩ := forall₂_mem_right hk hkm
      obtain ⟨-, g2, g3⟩ := treeF_node hxk
      rw [g2]
      exact hv x hx (g3.1 hk0)
  only := by
    intro k hkk
    rcases rowProps_keys hkk with h | ⟨c, hc, h0, h⟩
    · left
      simpa [Dict.keys] using h
    · right
      obtain ⟨x, hx, hxk⟩ := forall₂_mem_right hk hc
      obtain ⟨-, g2, g3⟩ := treeF_node hxk
      exact ⟨x, hx, g3.1 h0, by rw [← g2]; exact h⟩

theorem treeRows_spec {s : St} {f t : Nat} {tr : Tree} (e : treeF s.heap f t = .ok tr) {es : List (Str × Dict Val)} (h : tr.rows s = .ok es) :
    List.Forall₂ (EntryOf s) (t :: withKids s tr.descendents) es := by
  induction f generalizing t tr es with
  | zero => cases e
  | succ f ih =>
    obtain ⟨ks, hk, rfl⟩ := treeF_iff.1 e
    unfold Tree.rows at h
    split at h
    · cases h
    obtain ⟨q, hq, h⟩ := except_bind_ok.1 h
    simp only at h
    split at h
    · cases h
    obtain ⟨rest, hrest, h⟩ := except_bind_ok.1 h
    cases h
    refine .cons (entryOf_node hk hq) ?_
    simp only [Tree.descendents]
    have hall : ∀ k ∈ ks, ∃ c, treeF s.heap f c = .ok k := fun k hkm => by
      obtain ⟨x, -, hx⟩ := forall₂_mem_right hk hkm; exact ⟨x, hx⟩
    clear hk e hq
    rename_i h1 h2
    clear * - ih hrest hall
    induction ks generalizing rest with
    | nil =>
      cases hrest
      exact .nil
    | cons k ks ihk =>
      unfold treeRowsL at hrest
      obtain ⟨a, ha, hrest⟩ := except_bind_ok.1 hrest
      obtain ⟨b, hb, hrest⟩ := except_bind_ok.1 hrest
      cases hrest
      obtain ⟨x, hx⟩ := hall k List.mem_cons_self
      obtain ⟨g1, -, g3⟩ := treeF_node hx
      have hrec := ihk b hb fun k' hk' => hall k' (List.mem_cons_of_mem _ hk')
      have e1 : withKids s (descendentsL (k :: ks)) = withKids s (k.id :: k.descendents) ++ withKids s (descendentsL ks) := by
        unfold withKids; simp only [descendentsL]; rw [← List.filter_append]; rfl
      rw [e1]
      refine List.rel_append ?_ hrec
      by_cases hk0 : k.kids = []
      · rw [if_pos (by simp [hk0])] at ha
        cases ha
        have : k.descendents = [] := by
          cases k with
          | node i o kk => simp only [Tree.kids] at hk0; subst hk0; rfl
        unfold withKids
        rw [this, g1]
        simp [g3.1 hk0]
      · rw [if_neg (by simpa using hk0)] at ha
        have := ih hx ha
        unfold withKids
        rw [g1, List.filter_cons_of_pos (by simpa using fun e => hk0 (g3.2 e))]
        exact this

/-- The entries of a term, `Term.rows`. -/
def termRows (s : St) (t : Nat) : Except Err (List (Str × Dict Val)) := do
  let tr ← tree s t
  tr.rows s

/-- **C48**. `Term.rows` yields one entry for the term and one for each of its descendants that have children, in the order of
`descendents`. Each entry has the qualified name of its term and holds the term's value and, by name, the values of the terminal
children; of several terminal children with the same name only the last is seen. -/
theorem C48_entries {s : St} {t : Nat} {es : List (Str × Dict Val)} (h : termRows s t = .ok es) :
    ∃ ds, descendents s t = .ok ds ∧ List.Forall₂ (EntryOf s) (t :: ds.filter fun i => (s.heap i).children ≠ []) es := by
  obtain ⟨tr, htr, h⟩ := except_bind_ok.1 h
  exact ⟨tr.descendents, by unfold descendents; rw [htr]; rfl, treeRows_spec htr h⟩

/-- The name under which a term is written: its own, below that of its parent object; a term without parent object must have a root-level
name. -/
def _root_.Spec.WrittenAs (h : Nat → Obj) (t : Nat) (q : Str) : Prop :=
  (∃ p, (h t).parent = some p ∧ q = dotJoin (lower (h p).rt) (lower (h t).rt)) ∨
    ((h t).parent = none ∧ lower (h t).pt = py!"root" ∧ q = dotJoin (py!"root") (lower (h t).rt))

/-- **C48** (names). Each entry bears the name of its term below its parent; in particular no entry is written for a term that has no parent
object although its name says so. -/
theorem C48_names {s : St} {t : Nat} {es : List (Str × Dict Val)} (h : termRows s t = .ok es) :
    ∃ ds, descendents s t = .ok ds ∧
      List.Forall₂ (fun i (e : Str × Dict Val) => WrittenAs s.heap i e.1) (t :: ds.filter fun i => (s.heap i).children ≠ []) es := by
  obtain ⟨ds, h1, h2⟩ := C48_entries h
  refine ⟨ds, h1, h2.imp fun i e he => ?_⟩
  have hn := he.name
  unfold qualified at hn
  cases hp : (s.heap i).parent with
  | some p => rw [hp] at hn; injection hn with hn; exact .inl ⟨p, hp, hn.symm⟩
  | none =>
    rw [hp] at hn
    dsimp only at hn
    split at hn
    · next hr => injection hn with hn; exact .inr ⟨hp, hr, hn.symm⟩
    · cases hn

/-- **C48** (orphans). A term without parent object whose name is not root-level cannot be written. -/
theorem C48_orphan {s : St} {t : Nat} (hp : (s.heap t).parent = none) (hr : lower (s.heap t).pt ≠ py!"root") (es : List (Str × Dict Val)) :
    termRows s t ≠ .ok es := by
  intro h
  obtain ⟨ds, -, h2⟩ := C48_names h
  clear h
  cases h2 with
  | cons h _ =>
    rcases h with ⟨p, h, -⟩ | ⟨-, h, -⟩
    · rw [hp] at h; cases h
    · exact hr h

/-- Such a term: `Term('Table.Column', ...)` made on its own. -/
example : let s := after (newTermObj .term (py!"Table.Column") (.str (py!"c")) [] none (some 0)) exDoc
    (s.heap 1).parent = none ∧ lower (s.heap 1).pt ≠ py!"root" := by decide +kernel

/-- **C48** (loss). Of two terminal children with the same name only the last is written. -/
theorem C48_duplicate_witness : ∃ s : St, (s.heap 1).children = [2, 3] ∧ show_ s [2, 3] = [(py!"a.b", .str (py!"x")), (py!"a.b", .str (py!"y"))] ∧
    termRows s 1 = .ok [(py!"root.a", [(py!"@value", .none), (py!"b", .str (py!"y"))])] :=
  ⟨exParse [[py!"A"], [py!"A.B", py!"x"], [py!"A.B", py!"y"]], by decide +kernel, by decide +kernel, by decide +kernel⟩

/-- A term with a terminal child and a child that has a child. -/
example : termRows (exParse [[py!"A", py!"1"], [py!"A.B", py!"2"], [py!"B.C", py!"3"], [py!"A.D", py!"4"]]) 1 =
    .ok [(py!"root.a", [(py!"@value", .str (py!"1")), (py!"d", .str (py!"4"))]),
      (py!"a.b", [(py!"@value", .str (py!"2")), (py!"c", .str (py!"3"))])] := by decide +kernel

end Metatab
