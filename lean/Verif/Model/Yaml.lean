import Verif.Model.Flatten
import Verif.Model.DocOps
/-! # The YAML source (metatab/rowgen.py:9-89)

The parsed YAML file is a nested structure whose leaves are scalars. Keys are strings. Opening and parsing the file, the constructor of
the document with its declarations, and the `print` of line 73 are not modelled; the result is the document whose rows are then
yielded (`docRows`). -/
namespace Metatab
open Py

/-- What `yield_dict` yields: name, value, name of the parent. -/
abbrev YEvent := Str × J Val × Option Str

/-- What a generator yields and how it ends. -/
abbrev YEvents := List YEvent × Option Err

/-- One generator after the other; an exception ends both. -/
def YEvents.then (a b : YEvents) : YEvents :=
  match a.2 with
  | some e => (a.1, some e)
  | none => (a.1 ++ b.1, b.2)

/-- The name of an entry, metatab/rowgen.py:23. -/
def yamlName (parent : Option Str) (k : Str) : Str :=
  lower (((splitOn '.' (parent.getD (py!"Root"))).getLastD []) ++ '.' :: k)

/-- The declared value name of an entry, metatab/rowgen.py:24-25. -/
def yamlValueName (d : Dict DTerm) (tn : Str) : Str := lower (declProp d tn (py!"termvaluename") [])

/-- `e[k]`; `none` is `KeyError`. -/
def KVs.get? : KVs Val → Str → Option (J Val)
  | .nil, _ => none
  | .cons k v rest, x => if k = x then some v else rest.get? x

mutual
/-- One round of the loop of `yield_dict`, metatab/rowgen.py:27-40. -/
def yieldVal (d : Dict DTerm) (parent : Option Str) (tn : Str) : J Val → YEvents
  | .leaf v => ([(tn, .leaf v, parent)], none)
  | .map kvs => yieldKVs d (some tn) none kvs
  | .seq es => yieldJs d parent tn es
/-- `yield_dict`, metatab/rowgen.py:19-40, for a dict without its entry `skip` (see `yieldJs`). -/
def yieldKVs (d : Dict DTerm) (parent : Option Str) (skip : Option Str) : KVs Val → YEvents
  | .nil => ([], none)
  | .cons k v rest =>
    if skip = some k then yieldKVs d parent skip rest
    else (yieldVal d parent (yamlName parent k) v).then (yieldKVs d parent skip rest)
/-- The loop over the elements of a list, metatab/rowgen.py:27-36: the value is taken out of the dict before the other entries are
visited. Subscripting anything but a dict with a string raises `TypeError`. -/
def yieldJs (d : Dict DTerm) (parent : Option Str) (tn : Str) : Js Val → YEvents
  | .nil => ([], none)
  | .cons (.map kvs) rest =>
    match kvs.get? (yamlValueName d tn) with
    | some v => (YEvents.then ([(tn, v, parent)], none) (yieldKVs d (some tn) (some (yamlValueName d tn)) kvs)).then (yieldJs d parent tn rest)
    | none => (yieldKVs d (some tn) none kvs).then (yieldJs d parent tn rest)
  | .cons (.leaf _) _ => ([], some .typeError)
  | .cons (.seq _) _ => ([], some .typeError)
end

/-- One round of the loop of `__iter__`, metatab/rowgen.py:71-84; the result is `last_term`. A value that is no scalar is not modelled. -/
def yamlEvent (secMap : Dict Str) (secs : Dict Nat) (last : Dict Nat) (ev : YEvent) : M (Dict Nat) :=
  match ev with
  | (tn, .leaf v, none) =>
    match secs.get? ((secMap.get? tn).getD (py!"root")) with
    | some x => do
      let t ← newTerm x tn v
      return last.set tn t
    | none => M.raise .attributeError
  | (tn, .leaf v, some p) =>
    match last.get? p with
    | some q => do
      let t ← newChild q tn v []
      return last.set tn t
    | none => M.raise .keyError
  | _ => M.raise .unmodelled

/-- The loop of `__iter__`, metatab/rowgen.py:69-84. -/
def yamlLoop (secMap : Dict Str) (secs : Dict Nat) : Dict Nat → List YEvent → M (Dict Nat)
  | last, [] => pure last
  | last, ev :: evs => do
    let last ← yamlEvent secMap secs last ev
    yamlLoop secMap secs last evs

/-- The sections set up by `__iter__`, metatab/rowgen.py:60-67. -/
def yamlSections : List Str → Dict Str → Dict Nat → M (Dict Str × Dict Nat)
  | [], m, secs => pure (m, secs)
  | n :: ns, m, secs => do
    let s ← M.get
    match s.declSecs.get? n with
    | none => M.raise .keyError
    | some d => do
      let x ← getOrNewSection n d.args
      yamlSections ns (m.update (d.terms.map fun tn => (lower tn, n))) (secs.set n x)

/-- `section_names`, metatab/rowgen.py:58. -/
def yamlSectionNames : List Str := [py!"root", py!"contacts", py!"documentation", py!"resources", py!"references", py!"schema"]

/-- `YamlMetatabSource.__iter__` after the document has been made, metatab/rowgen.py:58-84. -/
def yamlDoc (d : KVs Val) : M Unit := do
  let (m, secs) ← yamlSections yamlSectionNames [] []
  let s ← M.get
  let evs := yieldKVs s.declTerms none none d
  let _ ← yamlLoop m secs [] evs.1
  match evs.2 with
  | some e => M.raise e
  | none => pure ()

end Metatab
