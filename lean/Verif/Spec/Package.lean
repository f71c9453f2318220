import Verif.Spec.Dict
/-! What a data package should list, written down without looking at the conversion. -/
namespace Spec
open Py Metatab

/-- The last of the terms with the value. -/
def lastWith (s : St) (ts : List Nat) (v : Val) : Option Nat := (ts.filter fun t => Val.pyEq (s.heap t).value v).getLast?

/-- The table that describes a data file with the properties `r`: the one with the value of its `Name`, or else of its `Table`. A data
file without a name is not described. -/
def tableFor (s : St) (tables : List Nat) (r : Dict Val) : Option Nat :=
  match r.get? (py!"name") with
  | none => none
  | some n => match lastWith s tables n with
    | some t => some t
    | none => (r.get? (py!"table")).bind (lastWith s tables)

/-- The name a data type has in a data package. -/
def typeName (t : Str) : Str :=
  if t = py!"str" ∨ t = py!"text" ∨ t = py!"unicode" then py!"string"
  else if t = py!"int" then py!"integer"
  else if t = py!"float" then py!"number"
  else t

/-- The type entry for a column: the mapped data type, any other value as it is, and nothing where there is no data type. -/
def typeEntry : Option DVal → DVal
  | none => .val .none
  | some (.val (.str t)) => .val (.str (typeName t))
  | some v => v

/-- The field made for a column with the properties `c`: name, title and description where they are not empty, and the type. -/
def IsField (c : Dict DVal) (f : DVal) : Prop :=
  ∃ d : Dict DVal, f = .dict d ∧ d.keys.Nodup ∧ ∀ n, d.get? n =
    if n = py!"type" then some (typeEntry (c.get? (py!"datatype")))
    else if n = py!"name" ∨ n = py!"title" ∨ n = py!"description" then (c.get? n).filter DVal.truthy
    else none

/-- The entry made for a data file with the properties `r` and the given fields. -/
def IsResource (r : Dict Val) (fields : List DVal) (e : DVal) : Prop :=
  ∃ u n, r.get? (py!"url") = some u ∧ r.get? (py!"name") = some n ∧
    e = .dict [(py!"path", .val u), (py!"name", .val n), (py!"schema", .dict [(py!"fields", .list fields)])]

/-- A term called `Root.Datafile` in any case. -/
def isDatafile (o : Obj) : Bool := lower o.pt = py!"root" && lower o.rt = py!"datafile"

end Spec
