import Verif.Model.Views
import Verif.Spec.Dict
import Verif.Props.Items
import Mathlib.Data.List.Induction
/-! # C51: `props`, `arg_props` and `all_props` -/
namespace Metatab
open Py _root_.Spec

/-- The last child of `t` with this (lower-case) name has this value. -/
def _root_.Spec.LastChildValue (h : Nat → Obj) (t : Nat) (k : Str) (v : Val) : Prop :=
  ∃ pre c post, (h t).children = pre ++ c :: post ∧ lower (h c).rt = k ∧ (h c).value = v ∧ ∀ x ∈ post, lower (h x).rt ≠ k

/-- The cell `a` stands in the last column of this (lower-case) name for which there is a cell. -/
def _root_.Spec.LastCell (names : List Str) (cells : List Str) (k : Str) (a : Str) : Prop :=
  ∃ i n, names[i]? = some n ∧ lower n = k ∧ cells[i]? = some a ∧
    ∀ j m, i < j → names[j]? = some m → j < cells.length → lower m ≠ k

/-- Column names that have a cell. -/
def _root_.Spec.withCell (names cells : List Str) : List Str := names.take cells.length

theorem dict_keys_update (d e : Dict Val) :
    Dict.keys (Dict.update d e) = Dict.keys d ++ (distinctNames (Dict.keys e)).filter (· ∉ Dict.keys d) := by
  induction e generalizing d with
  | nil => simp [Dict.update_nil, Dict.keys, distinctNames]
  | cons kv e ih =>
    obtain ⟨k, v⟩ := kv
    rw [Dict.update_cons, ih, Dict.keys_set]
    have : Dict.keys ((k, v) :: e) = k :: Dict.keys e := rfl
    rw [this, distinctNames]
    by_cases hk : k ∈ Dict.keys d
    · simp only [hk, if_true, List.filter_cons, not_true_eq_false, decide_false, Bool.false_eq_true, if_false, List.filter_filter]
      congr 1
      apply List.filter_congr
      intro x _
      by_cases hx : x = k
      · subst hx; simp [hk]
      · simp [hx]
    · simp only [hk, if_false, List.filter_cons, not_false_eq_true, decide_true, if_true, List.filter_filter, List.append_assoc,
        List.singleton_append]
      congr 2
      apply List.filter_congr
      intro x _
      by_cases hx : x = k
      · subst hx; simp
      · simp [hx]

/-- Reading a dict made from a list of pairs gives the last pair of that name. -/
theorem get?_reverse_some (l : List (Str × Val)) (k : Str) (v : Val) :
    Dict.get? l.reverse k = some v ↔ ∃ pre post, l = pre ++ (k, v) :: post ∧ ∀ p ∈ post, p.1 ≠ k := by
  have hu := Dict.get?_update ([] : Dict Val) l k
  simp only [Dict.get?_nil, Option.or_none] at hu
  rw [← hu]
  clear hu
  induction l using List.reverseRecOn with
  | nil => simp [Dict.update_nil]
  | append_singleton l p ih =>
    obtain ⟨k', v'⟩ := p
    rw [Dict.update_append, Dict.update_cons, Dict.update_nil, Dict.get?_set]
    by_cases hk : k' = k
    · subst hk
      simp only [if_true, Option.some.injEq]
      constructor
      · rintro rfl; exact ⟨l, [], rfl, by simp⟩
      · rintro ⟨pre, post, h1, h2⟩
        rcases List.eq_nil_or_concat post with rfl | ⟨post', b, rfl⟩
        · have := (List.append_inj' h1 rfl).2
          simpa using this
        · rw [List.concat_eq_append, ← List.cons_append, ← List.append_assoc] at h1
          have := (List.append_inj' h1 rfl).2
          simp only [List.cons.injEq, and_true] at this
          exact absurd (by rw [← this]) (h2 b (by simp))
    · rw [if_neg hk]
      refine Iff.trans ih ?_
      constructor
      · rintro ⟨pre, post, h1, h2⟩
        refine ⟨pre, post ++ [(k', v')], by rw [h1]; simp, fun p hp => ?_⟩
        rcases List.mem_append.1 hp with hp | hp
        · exact h2 p hp
        · rw [List.mem_singleton.1 hp]; exact hk
      · rintro ⟨pre, post, h1, h2⟩
        rcases List.eq_nil_or_concat post with rfl | ⟨post', b, rfl⟩
        · have := (List.append_inj' h1 rfl).2
          simp only [List.cons.injEq, Prod.mk.injEq, and_true] at this
          exact absurd this.1 hk
        · rw [List.concat_eq_append, ← List.cons_append, ← List.append_assoc] at h1
          have h3 := (List.append_inj' h1 rfl).1
          exact ⟨pre, post', h3, fun p hp => h2 p (by simp [hp])⟩

theorem get?_made (l : List (Str × Val)) (k : Str) (v : Val) :
    Dict.get? (Dict.update [] l) k = some v ↔ ∃ pre post, l = pre ++ (k, v) :: post ∧ ∀ p ∈ post, p.1 ≠ k := by
  rw [Dict.get?_update, Dict.get?_nil, Option.or_none]
  exact get?_reverse_some l k v

/-- **C51.** `props` has one entry for each name of a child, in the order in which the names first occur, and the entry is the value of the
last child of that name. -/
theorem C51_props (s : St) (t : Nat) :
    Dict.keys (props s t) = distinctNames ((s.heap t).children.map fun c => lower (s.heap c).rt) ∧
      ∀ k v, Dict.get? (props s t) k = some v ↔ LastChildValue s.heap t k v := by
  unfold props
  constructor
  · rw [dict_keys_update]
    simp only [Dict.keys, List.map_nil, List.nil_append, List.not_mem_nil, not_false_eq_true, decide_true, List.map_map]
    rw [List.filter_eq_self.2 (by simp)]
    rfl
  · intro k v
    rw [get?_made]
    constructor
    · rintro ⟨pre, post, h1, h2⟩
      rw [List.map_eq_append_iff] at h1
      obtain ⟨a, b, h3, h4, h5⟩ := h1
      rw [List.map_eq_cons_iff] at h5
      obtain ⟨c, b', h6, h7, h8⟩ := h5
      simp only [Prod.mk.injEq] at h7
      refine ⟨a, c, b', by rw [h3, h6], h7.1, h7.2, fun x hx => ?_⟩
      exact h2 (lower (s.heap x).rt, (s.heap x).value) (by rw [← h8]; exact List.mem_map.2 ⟨x, hx, rfl⟩)
    · rintro ⟨pre, c, post, h1, h2, h3, h4⟩
      refine ⟨_, _, by rw [h1, List.map_append, List.map_cons, h2, h3], fun p hp => ?_⟩
      obtain ⟨x, hx, rfl⟩ := List.mem_map.1 hp
      exact h4 x hx

theorem zip_last (names cells : List Str) (k : Str) (v : Val) :
    Dict.get? (Dict.update [] ((names.map lower).zip (cells.map Val.str))) k = some v ↔ ∃ a, v = .str a ∧ LastCell names cells k a := by
  rw [get?_made]
  constructor
  · rintro ⟨pre, post, h1, h2⟩
    have hi : ((names.map lower).zip (cells.map Val.str))[pre.length]? = some (k, v) := by rw [h1]; simp
    rw [List.getElem?_zip_eq_some] at hi
    obtain ⟨h3, h4⟩ := hi
    rw [List.getElem?_map, Option.map_eq_some_iff] at h3 h4
    obtain ⟨n, h5, h6⟩ := h3
    obtain ⟨a, h7, h8⟩ := h4
    refine ⟨a, h8.symm, pre.length, n, h5, h6, h7, fun j m hj hm hl e => ?_⟩
    have hz : ((names.map lower).zip (cells.map Val.str))[j]? = some (lower m, Val.str cells[j]) := by
      rw [List.getElem?_zip_eq_some]
      simp [hm, List.getElem?_eq_getElem hl]
    rw [h1, List.getElem?_append_right (by omega)] at hz
    obtain ⟨i, hi⟩ : ∃ i, j - pre.length = i + 1 := ⟨j - pre.length - 1, by omega⟩
    rw [hi, List.getElem?_cons_succ] at hz
    exact h2 _ (List.mem_of_getElem? hz) e
  · rintro ⟨a, rfl, i, n, h1, h2, h3, h4⟩
    have hz : ((names.map lower).zip (cells.map Val.str))[i]? = some (k, Val.str a) := by
      rw [List.getElem?_zip_eq_some]; simp [h1, h2, h3]
    obtain ⟨hlt, hget⟩ := List.getElem?_eq_some_iff.1 hz
    refine ⟨_, _, by rw [← hget]; exact ((List.take_append_drop i _).symm.trans (by rw [List.drop_eq_getElem_cons hlt])), fun p hp => ?_⟩
    obtain ⟨q, hq⟩ := List.mem_iff_getElem?.1 hp
    rw [List.getElem?_drop] at hq
    rw [List.getElem?_zip_eq_some] at hq
    obtain ⟨h5, h6⟩ := hq
    rw [List.getElem?_map, Option.map_eq_some_iff] at h5 h6
    obtain ⟨m, h7, h8⟩ := h5
    obtain ⟨b, h9, _⟩ := h6
    rw [← h8]
    exact h4 _ m (by omega) h7 (List.getElem?_eq_some_iff.1 h9).1

theorem map_fst_zip_take (names cells : List Str) :
    ((names.map lower).zip (cells.map Val.str)).map (fun x => x.1) = (names.map lower).take cells.length := by
  induction names generalizing cells with
  | nil => simp
  | cons n names ih =>
    cases cells with
    | nil => simp
    | cons c cells => simpa using ih cells

/-- **C51.** `arg_props` of a term in a section has an entry for each of the section's column names for which the row has a cell, and one
for the value; the latter wins over a column of the same name, and a later column over an earlier one. -/
theorem C51_args {s : St} {t x : Nat} (hx : (s.heap t).sec = some x) :
    ∃ d, argProps s t = .ok d ∧
      Dict.keys d = distinctNames ((withCell (s.heap x).secPropertyNames (s.heap t).args).map lower ++ [lower (s.heap t).tvn]) ∧
      ∀ k v, Dict.get? d k = some v ↔ (k = lower (s.heap t).tvn ∧ v = (s.heap t).value) ∨
        (k ≠ lower (s.heap t).tvn ∧ ∃ a, v = .str a ∧ LastCell (s.heap x).secPropertyNames (s.heap t).args k a) := by
  refine ⟨_, by unfold argProps; simp only [hx, reduceCtorEq, and_false, if_false]; rfl, ?_, fun k v => ?_⟩
  · have hset : ∀ (l : List (Str × Val)) (k : Str) (v : Val), Dict.set (Dict.update [] l) k v = Dict.update [] (l ++ [(k, v)]) :=
      fun l k v => by rw [Dict.update_append, Dict.update_cons, Dict.update_nil]
    rw [hset, dict_keys_update]
    simp only [Dict.keys, List.map_nil, List.nil_append, List.not_mem_nil, not_false_eq_true, decide_true, List.map_append,
      List.map_cons, withCell]
    rw [List.filter_eq_self.2 (by simp), List.map_take]
    congr 2
    exact map_fst_zip_take _ _
  · rw [Dict.get?_set]
    by_cases hk : lower (s.heap t).tvn = k
    · simp [hk, eq_comm]
    · rw [if_neg hk, zip_last]
      simp [Ne.symm hk]

/-- **C51.** `all_props` is `arg_props` overridden by `props`: a name of a child gives the child's value, any other name what `arg_props`
gives. -/
theorem C51_all {s : St} {t x : Nat} (hx : (s.heap t).sec = some x) :
    ∃ d a, argProps s t = .ok a ∧ allProps s t = .ok d ∧
      (∀ k v, Dict.get? d k = some v ↔ LastChildValue s.heap t k v ∨ ((∀ c ∈ (s.heap t).children, lower (s.heap c).rt ≠ k) ∧ Dict.get? a k = some v)) ∧
      ∀ k, k ∈ Dict.keys d ↔ k ∈ Dict.keys a ∨ k ∈ Dict.keys (props s t) := by
  obtain ⟨a, ha, _⟩ := C51_args hx
  refine ⟨a.update (props s t), a, ha, by unfold allProps; rw [ha]; rfl, fun k v => ?_, fun k => ?_⟩
  · have hn : (Dict.keys (props s t)).Nodup := Dict.nodup_update (by simp [Dict.keys]) _
    have hrev : Dict.get? (props s t).reverse k = Dict.get? (props s t) k := by
      have h1 := Dict.get?_update ([] : Dict Val) (props s t) k
      rw [Dict.update_append_fresh hn (by simp [Dict.keys])] at h1
      simpa using h1.symm
    rw [Dict.get?_update, hrev]
    rw [← (C51_props s t).2 k v]
    have hnone : Dict.get? (props s t) k = none ↔ ∀ c ∈ (s.heap t).children, lower (s.heap c).rt ≠ k := by
      unfold props
      rw [Dict.get?_update, Dict.get?_nil, Option.or_none, Dict.get?_eq_none]
      simp only [Dict.keys, List.mem_map, List.mem_reverse, not_exists, not_and]
      exact ⟨fun h c hc e => h _ ⟨c, hc, rfl⟩ e, (by rintro h p ⟨c, hc, rfl⟩ e'; exact h c hc e')⟩
    cases hg : Dict.get? (props s t) k with
    | none => simp only [Option.none_or, reduceCtorEq, false_or]; exact ⟨fun h => ⟨hnone.1 hg, h⟩, fun h => h.2⟩
    | some u =>
      simp only [Option.some_or, Option.some.injEq]
      constructor
      · exact .inl
      · rintro (h | ⟨h, _⟩)
        · exact h
        · rw [hnone.2 h] at hg; cases hg
  · rw [dict_keys_update, List.mem_append, List.mem_filter]
    have hd : ∀ l : List Str, ∀ k, k ∈ distinctNames l ↔ k ∈ l := by
      intro l k
      induction l with
      | nil => rfl
      | cons b l ih =>
        rw [distinctNames, List.mem_cons, List.mem_cons, List.mem_filter, ih]
        by_cases h : k = b <;> simp [h]
    rw [hd]
    by_cases h : k ∈ Dict.keys a <;> simp [h]

/-- A term without a section, such as one made by hand or a section, has no `arg_props`. -/
theorem C51_no_section (s : St) (t : Nat) (h : (s.heap t).sec = none) :
    argProps s t = .error .attributeError ∧ allProps s t = .error .attributeError := by
  have : argProps s t = .error .attributeError := by unfold argProps; simp [h]
  exact ⟨this, by unfold allProps; rw [this]; rfl⟩

/-- The child row overrides the cell; the second of two `Email` columns wins; the last of two children wins. -/
example : let s := exParse [[py!"Section", py!"Contacts", py!"Email", py!"Tel", py!"email"], [py!"Wrangler", py!"Bob", py!"b@x", py!"12", py!"c@x"],
      [py!".Tag", py!"one"], [py!".Tag", py!"two"], [py!".Email", py!"d@x"]]
    (s.heap 2).sec = some 1 ∧
    argProps s 2 = .ok [(py!"email", .str (py!"c@x")), (py!"tel", .str (py!"12")), (py!"@value", .str (py!"Bob"))] ∧
    props s 2 = [(py!"email", .str (py!"d@x")), (py!"tel", .str (py!"12")), (py!"tag", .str (py!"two"))] ∧
    allProps s 2 = .ok [(py!"email", .str (py!"d@x")), (py!"tel", .str (py!"12")), (py!"@value", .str (py!"Bob")), (py!"tag", .str (py!"two"))] := by
  decide +kernel

end Metatab
