import Verif.Py.Str
import Mathlib.Data.List.Nodup
/-! Facts about insertion-ordered dictionaries. -/
namespace Py
namespace Dict
variable {α : Type}

@[simp] theorem get?_nil (x : Str) : get? ([] : Dict α) x = none := rfl
theorem get?_cons (k : Str) (v : α) (d : Dict α) (x : Str) : get? ((k, v) :: d) x = if k = x then some v else get? d x := rfl

theorem get?_set (d : Dict α) (x y : Str) (v : α) : get? (set d x v) y = if x = y then some v else get? d y := by
  induction d with
  | nil => simp [set, get?]
  | cons kv d ih =>
    obtain ⟨k, w⟩ := kv
    by_cases h : k = x
    · subst h
      simp only [set, if_true, get?_cons]
      split <;> rfl
    · simp only [set, h, if_false, get?_cons, ih]
      by_cases h2 : k = y
      · have : ¬ x = y := fun e => h (h2.trans e.symm)
        simp [h2, this]
      · simp [h2]

@[simp] theorem get?_set_self (d : Dict α) (x : Str) (v : α) : get? (set d x v) x = some v := by simp [get?_set]

theorem get?_eq_none {d : Dict α} {x : Str} : get? d x = none ↔ x ∉ d.keys := by
  induction d with
  | nil => simp [keys]
  | cons kv d ih =>
    obtain ⟨k, w⟩ := kv
    simp only [get?_cons, keys, List.map_cons, List.mem_cons] at *
    by_cases h : k = x
    · simp [h]
    · have h' : ¬ x = k := fun e => h e.symm
      simp [h, h', ih]

theorem has_iff {d : Dict α} {x : Str} : d.has x = true ↔ x ∈ d.keys := by
  unfold has
  rw [Option.isSome_iff_ne_none, ne_eq, get?_eq_none, Decidable.not_not]

theorem mem_of_get? {d : Dict α} {x : Str} {v : α} (h : get? d x = some v) : (x, v) ∈ d := by
  induction d with
  | nil => simp at h
  | cons kv d ih =>
    obtain ⟨k, w⟩ := kv
    rw [get?_cons] at h
    by_cases hk : k = x
    · rw [if_pos hk] at h; cases h; subst hk; exact List.mem_cons_self
    · rw [if_neg hk] at h; exact List.mem_cons_of_mem _ (ih h)

theorem get?_of_mem {d : Dict α} {x : Str} {v : α} (hn : d.keys.Nodup) (h : (x, v) ∈ d) : get? d x = some v := by
  induction d with
  | nil => simp at h
  | cons kv d ih =>
    obtain ⟨k, w⟩ := kv
    simp only [keys, List.map_cons, List.nodup_cons] at hn
    rw [get?_cons]
    rcases List.mem_cons.1 h with h | h
    · cases h; simp
    · have hk : k ≠ x := by
        intro e; subst e
        exact hn.1 (List.mem_map.2 ⟨(k, v), h, rfl⟩)
      rw [if_neg hk]; exact ih hn.2 h

theorem keys_set (d : Dict α) (x : Str) (v : α) : (set d x v).keys = if x ∈ d.keys then d.keys else d.keys ++ [x] := by
  induction d with
  | nil => simp [set, keys]
  | cons kv d ih =>
    obtain ⟨k, w⟩ := kv
    by_cases h : k = x
    · subst h; simp [set, keys]
    · have h' : ¬ x = k := fun e => h e.symm
      simp only [set, h, if_false, keys, List.map_cons, List.mem_cons, h', false_or] at *
      rw [ih]; split <;> simp_all

theorem nodup_set {d : Dict α} (h : d.keys.Nodup) (x : Str) (v : α) : (set d x v).keys.Nodup := by
  rw [keys_set]
  split
  · exact h
  · rename_i hx
    exact List.nodup_append.2 ⟨h, by simp, by
      intro a ha b hb e; simp at hb; subst hb; subst e; exact hx ha⟩

/-- Setting an absent key appends. -/
theorem set_append {d : Dict α} {x : Str} (h : x ∉ d.keys) (v : α) : set d x v = d ++ [(x, v)] := by
  induction d with
  | nil => rfl
  | cons kv d ih =>
    obtain ⟨k, w⟩ := kv
    simp only [keys, List.map_cons, List.mem_cons, not_or] at h
    have hk : ¬ k = x := fun e => h.1 e.symm
    simp only [set, hk, if_false, List.cons_append]
    rw [ih h.2]

/-- Setting a key to the value it has changes nothing. -/
theorem set_same {d : Dict α} {x : Str} {v : α} (h : get? d x = some v) : set d x v = d := by
  induction d with
  | nil => simp at h
  | cons kv d ih =>
    obtain ⟨k, w⟩ := kv
    rw [get?_cons] at h
    by_cases hk : k = x
    · rw [if_pos hk] at h; cases h; simp [set, hk]
    · rw [if_neg hk] at h; simp [set, hk, ih h]

theorem del_eq_filter {d : Dict α} (hn : d.keys.Nodup) (x : Str) : del d x = d.filter fun kv => kv.1 ≠ x := by
  induction d with
  | nil => rfl
  | cons kv d ih =>
    obtain ⟨k, w⟩ := kv
    simp only [keys, List.map_cons, List.nodup_cons] at hn
    by_cases h : k = x
    · subst h
      simp only [del, if_true, ne_eq, decide_not, List.filter_cons, decide_true, Bool.not_true]
      rw [if_neg (by simp)]
      refine (List.filter_eq_self.2 ?_).symm
      intro a ha
      have : a.1 ≠ k := fun e => hn.1 (List.mem_map.2 ⟨a, ha, e⟩)
      simp [this]
    · simp only [del, h, if_false]
      rw [ih hn.2, List.filter_cons]
      simp [h]

theorem keys_del {d : Dict α} (hn : d.keys.Nodup) (x : Str) : (del d x).keys = d.keys.filter (· ≠ x) := by
  rw [del_eq_filter hn]; unfold keys; rw [List.filter_map]; rfl

theorem nodup_del {d : Dict α} (hn : d.keys.Nodup) (x : Str) : (del d x).keys.Nodup := by
  rw [keys_del hn]; exact hn.filter _

theorem get?_filter (d : Dict α) (p : Str → Bool) (x : Str) :
    get? (d.filter fun kv => p kv.1) x = if p x then get? d x else none := by
  induction d with
  | nil => simp
  | cons kv d ih =>
    obtain ⟨k, w⟩ := kv
    by_cases hp : p k
    · simp only [List.filter_cons, hp, if_true, get?_cons, ih]
      by_cases hk : k = x
      · subst hk; simp [hp]
      · simp [hk]
    · simp only [List.filter_cons, hp, get?_cons]
      by_cases hk : k = x
      · subst hk; simp [hp, ih]
      · simp [hk, ih]

theorem get?_del {d : Dict α} (hn : d.keys.Nodup) (x y : Str) : get? (del d x) y = if x = y then none else get? d y := by
  rw [del_eq_filter hn]
  have := get?_filter d (fun k => decide (k ≠ x)) y
  rw [this]
  by_cases h : x = y
  · subst h; simp
  · have : y ≠ x := fun e => h e.symm
    simp [h, this]

/-- Keys removed twice do not matter; deletion in general (keys may repeat). -/
theorem get?_del_other (d : Dict α) {x y : Str} (h : x ≠ y) : get? (del d x) y = get? d y := by
  induction d with
  | nil => rfl
  | cons kv d ih =>
    obtain ⟨k, w⟩ := kv
    by_cases hk : k = x
    · subst hk; simp [del, get?_cons, h]
    · simp only [del, hk, if_false, get?_cons, ih]

theorem update_nil (d : Dict α) : update d [] = d := rfl
theorem update_cons (d e : Dict α) (k : Str) (v : α) : update d ((k, v) :: e) = update (set d k v) e := rfl
theorem update_append (d e f : Dict α) : update d (e ++ f) = update (update d e) f := by simp [update, List.foldl_append]

theorem nodup_update {d : Dict α} (h : d.keys.Nodup) (e : Dict α) : (update d e).keys.Nodup := by
  induction e generalizing d with
  | nil => exact h
  | cons kv e ih => exact ih (nodup_set h kv.1 kv.2)

/-- Updating with fresh distinct keys appends. -/
theorem update_append_fresh {d e : Dict α} (hn : e.keys.Nodup) (hd : ∀ k ∈ e.keys, k ∉ d.keys) : update d e = d ++ e := by
  induction e generalizing d with
  | nil => simp [update_nil]
  | cons kv e ih =>
    obtain ⟨k, v⟩ := kv
    simp only [keys, List.map_cons, List.nodup_cons] at hn
    rw [update_cons, set_append (hd k (by simp [keys])), ih hn.2]
    · simp
    · intro k' hk'
      simp only [keys, List.map_append, List.map_cons, List.map_nil, List.mem_append, List.mem_singleton, not_or]
      refine ⟨hd k' (by simp only [keys, List.map_cons, List.mem_cons]; exact Or.inr hk'), ?_⟩
      rintro rfl; exact hn.1 hk'

/-- The last binding wins in an update. -/
theorem get?_update (d e : Dict α) (x : Str) : get? (update d e) x = (get? e.reverse x).or (get? d x) := by
  induction e generalizing d with
  | nil => simp [update_nil]
  | cons kv e ih =>
    obtain ⟨k, v⟩ := kv
    rw [update_cons, ih]
    have app : ∀ (l : Dict α) (k : Str) (v : α) (x : Str), get? (l ++ [(k, v)]) x = (get? l x).or (if k = x then some v else none) := by
      intro l k v x
      induction l with
      | nil => simp [get?_cons]
      | cons a l ih2 =>
        obtain ⟨a1, a2⟩ := a
        simp only [List.cons_append, get?_cons]
        split <;> simp_all
    simp only [List.reverse_cons]
    rw [app, get?_set]
    cases get? e.reverse x <;> simp
    split <;> simp_all

end Dict
end Py
