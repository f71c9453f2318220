import Verif.Model.Flatten
import Verif.Lemmas.Str
/-! # C57: flatten -/
namespace Metatab
open Py Spec
variable {α : Type}

theorem natStrGo_ne_nil (f n : Nat) : natStrGo f n ≠ [] := by
  unfold natStrGo; split <;> (try split) <;> simp

theorem natStr_ne_nil (n : Nat) : natStr n ≠ [] := natStrGo_ne_nil n n

/-- Key of a leaf below a named position. -/
theorem join_cons_prefix {k : Str} (hk : k ≠ []) (sep : Str) {p : List Str} (hp : p ≠ []) :
    flatPrefix k sep ++ join sep p = join sep (k :: p) := by
  cases p with
  | nil => exact absurd rfl hp
  | cons a p => simp [flatPrefix, hk, join]

mutual
theorem flattenGo_spec (sep : Str) : ∀ (j : J α) (pk : Str), pk ≠ [] → KeysNonempty j →
    flattenGo sep j pk = (leaves j).map fun p => (join sep (pk :: p.1), p.2)
  | .leaf a, pk, h, hn => by simp [flattenGo, leaves, join]
  | .map kvs, pk, h, hn => by
    simp only [flattenGo, leaves]
    rw [flattenKVs_spec sep kvs (by simpa [KeysNonempty] using hn)]
    simp only [List.map_map]
    apply List.map_congr_left
    intro p hp
    simp [Function.comp, join_cons_prefix h sep (leavesKVs_ne kvs p hp)]
  | .seq es, pk, h, hn => by
    simp only [flattenGo, leaves]
    rw [flattenJs_spec sep es 0 (by simpa [KeysNonempty] using hn)]
    simp only [List.map_map]
    apply List.map_congr_left
    intro p hp
    simp [Function.comp, join_cons_prefix h sep (leavesJs_ne es 0 p hp)]
theorem flattenKVs_spec (sep : Str) : ∀ (kvs : KVs α), KVsNonempty kvs →
    flattenKVs sep kvs = (leavesKVs kvs).map fun p => (join sep p.1, p.2)
  | .nil, _ => by simp [flattenKVs, leavesKVs]
  | .cons k v rest, hn => by
    simp only [KVsNonempty] at hn
    simp only [flattenKVs, leavesKVs, List.map_append, List.map_map]
    rw [flattenGo_spec sep v k hn.1 hn.2.1, flattenKVs_spec sep rest hn.2.2]
    rfl
theorem flattenJs_spec (sep : Str) : ∀ (es : Js α) (i : Nat), JsNonempty es →
    flattenJs sep es i = (leavesJs es i).map fun p => (join sep p.1, p.2)
  | .nil, _, _ => by simp [flattenJs, leavesJs]
  | .cons v rest, i, hn => by
    simp only [JsNonempty] at hn
    simp only [flattenJs, leavesJs, List.map_append, List.map_map]
    rw [flattenGo_spec sep v _ (natStr_ne_nil i) hn.1, flattenJs_spec sep rest (i + 1) hn.2]
    rfl
theorem leavesKVs_ne : ∀ (kvs : KVs α) (p), p ∈ leavesKVs kvs → p.1 ≠ []
  | .nil, p, h => by simp [leavesKVs] at h
  | .cons k v rest, p, h => by
    simp only [leavesKVs, List.mem_append, List.mem_map] at h
    rcases h with ⟨q, _, rfl⟩ | h
    · simp
    · exact leavesKVs_ne rest p h
theorem leavesJs_ne : ∀ (es : Js α) (i : Nat) (p), p ∈ leavesJs es i → p.1 ≠ []
  | .nil, _, p, h => by simp [leavesJs] at h
  | .cons v rest, i, p, h => by
    simp only [leavesJs, List.mem_append, List.mem_map] at h
    rcases h with ⟨q, _, rfl⟩ | h
    · simp
    · exact leavesJs_ne rest (i + 1) p h
end

/-- **C57**. `flatten` lists every scalar leaf in traversal order, under the joined path of its keys and indices. -/
theorem C57_flatten (sep : Str) (j : J α) (h : KeysNonempty j) :
    flatten sep j = (leaves j).map fun p => (join sep p.1, p.2) := by
  unfold flatten
  cases j with
  | leaf a => simp [flattenGo, leaves, join]
  | map kvs =>
    simp only [flattenGo, leaves, flatPrefix, if_true, List.nil_append]
    rw [flattenKVs_spec sep kvs (by simpa [KeysNonempty] using h)]
    simp
  | seq es =>
    simp only [flattenGo, leaves, flatPrefix, if_true, List.nil_append]
    rw [flattenJs_spec sep es 0 (by simpa [KeysNonempty] using h)]
    simp

/-- **C57** (values). With or without empty keys, every scalar leaf is listed once, in traversal order. -/
theorem C57_values (sep : Str) (j : J α) : (flatten sep j).map (·.2) = (leaves j).map (·.2) := by
  have key : ∀ (j : J α), (∀ pk, (flattenGo sep j pk).map (·.2) = (leaves j).map (·.2)) := by
    intro j
    refine J.rec (motive_1 := fun j => ∀ pk, (flattenGo sep j pk).map (·.2) = (leaves j).map (·.2))
      (motive_2 := fun kvs => (flattenKVs sep kvs).map (·.2) = (leavesKVs kvs).map (·.2))
      (motive_3 := fun es => ∀ i, (flattenJs sep es i).map (·.2) = (leavesJs es i).map (·.2))
      ?_ ?_ ?_ ?_ ?_ ?_ ?_ j
    · intro a pk; simp [flattenGo, leaves]
    · intro kvs ih pk
      simp only [flattenGo, leaves, List.map_map]
      rw [← ih]; rfl
    · intro es ih pk
      simp only [flattenGo, leaves, List.map_map]
      rw [← ih]; rfl
    · simp [flattenKVs, leavesKVs]
    · intro k v rest h1 h2
      simp only [flattenKVs, leavesKVs, List.map_append, List.map_map, h1, h2]
      rfl
    · intro i; simp [flattenJs, leavesJs]
    · intro v rest h1 h2 i
      simp only [flattenJs, leavesJs, List.map_append, List.map_map, h1, h2]
      rfl
  exact key j []

/-- A concrete nested structure. -/
def exJ : J Nat := .map (.cons (py!"a") (.seq (.cons (.leaf 1) (.cons (.map (.cons (py!"b") (.leaf 2) .nil)) .nil))) (.cons (py!"c") (.leaf 3) .nil))
example : KeysNonempty exJ := by simp [exJ, KeysNonempty, KVsNonempty, JsNonempty]
example : flatten (py!".") exJ = [(py!"a.0", 1), (py!"a.1.b", 2), (py!"c", 3)] := by decide
/-- With an empty key a path component disappears, so two leaves can get the same key. -/
theorem C57_empty_key_witness :
    flatten (py!".") (.map (.cons [] (.map (.cons (py!"a") (.leaf 1) .nil)) (.cons (py!"a") (.leaf 2) .nil)) : J Nat) =
      [(py!"a", 1), (py!"a", 2)] := by decide

end Metatab
