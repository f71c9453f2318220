import Verif.Py.Str
/-! # Python values held by terms -/
namespace Metatab
open Py

/-- The Python values a term's `value` attribute takes in this code base: `None`, a string, an integer (`update_version` stores `0`,
metatab/doc.py:624), `False` (the default of `get_or_new_term`, metatab/terms.py:788) or a section object (stored by the attribute
interception of `Term.__setattr__`, metatab/terms.py:357-379). Floats and other objects are not modelled. -/
inductive Val
  | none
  | str (s : Str)
  | int (i : Int)
  | fls
  | obj (id : Nat)
deriving DecidableEq, Repr

namespace Val
/-- Python truth value. Term objects define neither `__bool__` nor `__len__`, so they are true. -/
def truthy : Val → Bool
  | .none => false
  | .str s => !s.isEmpty
  | .int i => i != 0
  | .fls => false
  | .obj _ => true

/-- Python `==`; `0 == False` holds. Terms compare by identity. -/
def pyEq : Val → Val → Bool
  | .int i, .fls => i == 0
  | .fls, .int i => i == 0
  | a, b => a == b

/-- `strip_if_str(value) if value else None`, metatab/terms.py:55-59, 68. -/
def mk (v : Val) : Val :=
  if v.truthy then
    match v with
    | .str s => .str (strip s)
    | v => v
  else .none

/-- `str(v)`; not modelled for term objects. -/
def toStr : Val → Option Str
  | .none => some (py!"None")
  | .str s => some s
  | .int i => some (intStr i)
  | .fls => some (py!"False")
  | .obj _ => Option.none

end Val
end Metatab
