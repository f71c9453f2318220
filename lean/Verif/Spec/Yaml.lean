import Verif.Model.Flatten
import Verif.Model.Heap
/-! # What a YAML file of metadata says -/
namespace Spec
open Py Metatab

/-- A root-level term: name, value, and its properties in order. -/
structure YTerm where
  name : Str
  value : Val
  props : List (Str × Val)
deriving DecidableEq

/-- The entries of a mapping that has only scalars. -/
def scalars : KVs Val → Option (List (Str × Val))
  | .nil => some []
  | .cons k (.leaf v) rest => (scalars rest).map ((k, v) :: ·)
  | .cons _ _ _ => none

/-- A list of mappings of scalars: each has a value under the key `vn`, its other entries are properties. -/
inductive YItems (vn : Str) : Js Val → List (Val × List (Str × Val)) → Prop
  | nil : YItems vn .nil []
  | cons {kvs : KVs Val} {l : List (Str × Val)} {v : Val} {es : Js Val} {r : List (Val × List (Str × Val))}
      (h : scalars kvs = some l) (hv : Dict.get? l vn = some v) (hr : YItems vn es r) :
      YItems vn (.cons (.map kvs) es) ((v, l.filter fun kv => kv.1 ≠ vn) :: r)

/-- A mapping of scalars and of lists of mappings of scalars, and the terms it stands for; `vn` gives the key of the value for each name. -/
inductive YTable (vn : Str → Str) : KVs Val → List YTerm → Prop
  | nil : YTable vn .nil []
  | one {k : Str} {v : Val} {rest : KVs Val} {ts : List YTerm} (h : YTable vn rest ts) : YTable vn (.cons k (.leaf v) rest) (⟨k, v, []⟩ :: ts)
  | many {k : Str} {es : Js Val} {is : List (Val × List (Str × Val))} {rest : KVs Val} {ts : List YTerm} (hi : YItems (vn k) es is)
      (h : YTable vn rest ts) : YTable vn (.cons k (.seq es) rest) (is.map (fun i => ⟨k, i.1, i.2⟩) ++ ts)

/-- The entries of one mapping and then those of another. -/
def followed : KVs Val → KVs Val → KVs Val
  | .nil, b => b
  | .cons k v rest, b => .cons k v (followed rest b)

end Spec
