import Verif.Py.Str
/-! # `flatten` (metatab/util.py:54-69) -/
namespace Metatab
open Py

mutual
/-- A nested Python structure: a scalar (anything that is not a mutable mapping or sequence), a dict, or a list. -/
inductive J (α : Type)
  | leaf (a : α)
  | map (kvs : KVs α)
  | seq (es : Js α)
/-- The items of a dict with string keys. -/
inductive KVs (α : Type)
  | nil
  | cons (k : Str) (v : J α) (rest : KVs α)
/-- The elements of a list. -/
inductive Js (α : Type)
  | nil
  | cons (v : J α) (rest : Js α)
end

variable {α : Type}

/-- `prefix = parent_key + sep if parent_key else ''`, metatab/util.py:60. -/
def flatPrefix (parentKey sep : Str) : Str := if parentKey = [] then [] else parentKey ++ sep

mutual
/-- `_flatten`, metatab/util.py:57-67. -/
def flattenGo (sep : Str) : J α → Str → List (Str × α)
  | .leaf a, pk => [(pk, a)]
  | .map kvs, pk => (flattenKVs sep kvs).map fun kv => (flatPrefix pk sep ++ kv.1, kv.2)
  | .seq es, pk => (flattenJs sep es 0).map fun kv => (flatPrefix pk sep ++ kv.1, kv.2)
/-- The items of a dict: `for k, v in e.items() for k2, v2 in _flatten(v, k, sep)`, metatab/util.py:63. -/
def flattenKVs (sep : Str) : KVs α → List (Str × α)
  | .nil => []
  | .cons k v rest => flattenGo sep v k ++ flattenKVs sep rest
/-- The elements of a list: `for i, v in enumerate(e) for k2, v2 in _flatten(v, str(i), sep)`, metatab/util.py:65. -/
def flattenJs (sep : Str) : Js α → Nat → List (Str × α)
  | .nil, _ => []
  | .cons v rest, i => flattenGo sep v (natStr i) ++ flattenJs sep rest (i + 1)
end

/-- `flatten`, metatab/util.py:54-69. -/
def flatten (sep : Str) (d : J α) : List (Str × α) := flattenGo sep d []

end Metatab

namespace Spec
open Py Metatab
variable {α : Type}
mutual
/-- Every scalar leaf with the keys and indices leading to it, in traversal order. -/
def leaves : J α → List (List Str × α)
  | .leaf a => [([], a)]
  | .map kvs => leavesKVs kvs
  | .seq es => leavesJs es 0
/-- Leaves of dict items. -/
def leavesKVs : KVs α → List (List Str × α)
  | .nil => []
  | .cons k v rest => (leaves v).map (fun p => (k :: p.1, p.2)) ++ leavesKVs rest
/-- Leaves of list elements. -/
def leavesJs : Js α → Nat → List (List Str × α)
  | .nil, _ => []
  | .cons v rest, i => (leaves v).map (fun p => (natStr i :: p.1, p.2)) ++ leavesJs rest (i + 1)
end

mutual
/-- No dict has an empty key. -/
def KeysNonempty : J α → Prop
  | .leaf _ => True
  | .map kvs => KVsNonempty kvs
  | .seq es => JsNonempty es
/-- No empty key in these items. -/
def KVsNonempty : KVs α → Prop
  | .nil => True
  | .cons k v rest => k ≠ [] ∧ KeysNonempty v ∧ KVsNonempty rest
/-- No empty key in these elements. -/
def JsNonempty : Js α → Prop
  | .nil => True
  | .cons v rest => KeysNonempty v ∧ JsNonempty rest
end
end Spec
