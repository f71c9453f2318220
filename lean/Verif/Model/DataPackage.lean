import Verif.Model.AsDict
import Verif.Model.Decl
import Verif.Model.DocOps
/-! # Conversion to a data package (metatab/datapackage.py) -/
namespace Metatab
open Py

/-- `type_map`, metatab/datapackage.py:10-16. -/
def typeMap : Dict Str :=
  [(py!"str", py!"string"), (py!"text", py!"string"), (py!"unicode", py!"string"), (py!"int", py!"integer"), (py!"float", py!"number")]

/-- `t.as_dict()` by the class of the object, metatab/terms.py:539, 968, 984. Registered classes are assumed not to redefine it. -/
def asDict (t : Nat) : M DVal := do
  let o ← obj t
  match o.cls with
  | .root => rootAsDict true t
  | .section => sectionAsDict true t
  | _ => termAsDict true t

/-- `try: m except KeyError: h`. -/
def tryKey {α : Type} (m : M α) (h : M α) : M α := fun s =>
  match m s with
  | .ok a s' => .ok a s'
  | .err e s' => if e = .keyError then h s' else .err e s'

/-- `dp.update(v)` for a dict `dp`: a string is a sequence of one-letter strings, none of which is a pair. -/
def updateDict (dp : Dict DVal) : DVal → Except Err (Dict DVal)
  | .dict d => .ok (dp.update d)
  | .val (.str []) => .ok dp
  | .val (.str _) => .error .valueError
  | .val (.obj _) => .error .unmodelled
  | .val _ => .error .typeError
  | .list [] => .ok dp
  | .list _ => .error .unmodelled

/-- `dp = doc['root'].as_dict()` and the update with the identity section, metatab/datapackage.py:20-25. When `dp` is not a dict,
`dp.update` does not exist. -/
def packageBase : M (Dict DVal) := do
  let x ← M.lift fun s => getSection s (py!"root")
  let dp ← asDict x
  match dp with
  | .dict dp =>
    tryKey (do
      let y ← M.lift fun s => getSection s (py!"identity")
      let v ← asDict y
      M.lift fun _ => updateDict dp v) (pure dp)
  | _ => M.raise .attributeError

/-- The name, metatab/datapackage.py:27-31; the second name is spelt as in the code. -/
def packageName (dp : Dict DVal) : Except Err (Dict DVal) :=
  if dp.has (py!"name") then .ok dp
  else match dp.get? (py!"indentifier") with
    | some v => .ok (dp.set (py!"name") v)
    | none => .error .conversionError

/-- `d[k] = v` in a dict with arbitrary keys. -/
def vSet {α : Type} (d : List (Val × α)) (k : Val) (v : α) : List (Val × α) :=
  match d with
  | [] => [(k, v)]
  | (k', v') :: d => if Val.pyEq k' k then (k', v) :: d else (k', v') :: vSet d k v

/-- `d.get(k)` in a dict with arbitrary keys. -/
def vGet {α : Type} (d : List (Val × α)) (k : Val) : Option α :=
  match d with
  | [] => none
  | (k', v) :: d => if Val.pyEq k' k then some v else vGet d k

/-- `v['column']`. -/
def columnOf : DVal → Except Err DVal
  | .dict d => match Dict.get? d (py!"column") with
    | some c => .ok c
    | none => .error .keyError
  | .val (.obj _) => .error .unmodelled
  | _ => .error .typeError

/-- `{t.value: t.as_dict()['column'] for t in terms}`, metatab/datapackage.py:34. -/
def schemasOf (acc : List (Val × DVal)) : List Nat → M (List (Val × DVal))
  | [] => pure acc
  | t :: ts => do
    let o ← obj t
    let d ← asDict t
    let c ← M.lift fun _ => columnOf d
    schemasOf (vSet acc o.value c) ts

/-- `table_schemas`, metatab/datapackage.py:33-36. -/
def tableSchemas : M (List (Val × DVal)) :=
  tryKey (do
    let x ← M.lift fun s => getSection s (py!"schema")
    let o ← obj x
    schemasOf [] o.terms) (M.raise .conversionError)

/-- `file_resources`, metatab/datapackage.py:38. -/
def fileResources (s : St) : List Nat → Except Err (List (Dict Val))
  | [] => .ok []
  | t :: ts => do
    let o := s.heap t
    if ← termIs o.pt o.rt (py!"root.datafile") then do
      let r ← argProps s t
      return r :: (← fileResources s ts)
    else fileResources s ts

/-- The columns for a data file, metatab/datapackage.py:44-48; `none` when a `KeyError` lets the loop go on to the next one. -/
def columnsFor (tabs : List (Val × DVal)) (r : Dict Val) : Option DVal :=
  if (vGet tabs ((r.get? (py!"name")).getD (.str (py!"<none>")))).isSome then
    (r.get? (py!"name")).bind (vGet tabs)
  else (r.get? (py!"table")).bind (vGet tabs)

/-- The elements a loop over the value goes through. -/
def dIter : DVal → Except Err (List DVal)
  | .list l => .ok l
  | .dict d => .ok ((Dict.keys d).map DVal.ofStr)
  | .val (.str t) => .ok (t.map fun c => .ofStr [c])
  | .val (.obj _) => .error .unmodelled
  | .val _ => .error .typeError

/-- `type_map.get(v, v)`, metatab/datapackage.py:57; lists and dicts cannot be looked up. -/
def mapType : DVal → Except Err DVal
  | .val (.str t) => .ok (.ofStr ((typeMap.get? t).getD t))
  | .val v => .ok (.val v)
  | _ => .error .typeError

/-- `if c.get(prop): d[prop] = c[prop]`, metatab/datapackage.py:53-55. -/
def copyProp (c d : Dict DVal) (prop : Str) : Dict DVal :=
  match c.get? prop with
  | some v => if v.truthy then d.set prop v else d
  | none => d

/-- `mkdict`, metatab/datapackage.py:50-59. -/
def mkField : DVal → Except Err DVal
  | .dict c => do
    let d := [py!"name", py!"title", py!"description"].foldl (copyProp c) []
    let t ← mapType ((Dict.get? c (py!"datatype")).getD (.val .none))
    return .dict (Dict.set d (py!"type") t)
  | .val (.obj _) => .error .unmodelled
  | _ => .error .attributeError

/-- `r[k]`. -/
def keyed (r : Dict Val) (k : Str) : Except Err Val :=
  match r.get? k with
  | some v => .ok v
  | none => .error .keyError

/-- The entry for one data file, metatab/datapackage.py:61-65. -/
def mkResource (r : Dict Val) (columns : DVal) : Except Err DVal := do
  let u ← keyed r (py!"url")
  let n ← keyed r (py!"name")
  let cs ← dIter columns
  let fs ← cs.mapM mkField
  return .dict [(py!"path", .val u), (py!"name", .val n), (py!"schema", .dict [(py!"fields", .list fs)])]

/-- The loop over the data files, metatab/datapackage.py:42-67. -/
def mkResources (tabs : List (Val × DVal)) : List (Dict Val) → Except Err (List DVal)
  | [] => .ok []
  | r :: rs => match columnsFor tabs r with
    | none => mkResources tabs rs
    | some c => do
      let d ← mkResource r c
      return d :: (← mkResources tabs rs)

/-- `convert_to_datapackage`, metatab/datapackage.py:19-69. -/
def convertToDatapackage : M DVal := do
  let dp ← packageBase
  let dp ← M.lift fun _ => packageName dp
  let tabs ← tableSchemas
  let x ← M.lift fun s => getSection s (py!"resources")
  let rs ← M.lift fun s => fileResources s (s.heap x).terms
  let ds ← M.lift fun _ => mkResources tabs rs
  return .dict (dp.set (py!"resources") (.list ds))

end Metatab
