import Verif.Model.Decl
import Verif.Model.TermOps
/-! # Property views and attribute access of a term (metatab/terms.py:319-399, 507-537) -/
namespace Metatab
open Py

/-- `Term.props`, metatab/terms.py:507-513. -/
def props (s : St) (t : Nat) : Dict Val :=
  Dict.update [] ((s.heap t).children.map fun c => (lower (s.heap c).rt, (s.heap c).value))

/-- `Term.all_props`, metatab/terms.py:529-537. When `arg_props` raises `AttributeError` (a term without a section), Python goes on to
`__getattr__('arg_props')`, which raises `AttributeError` again unless a child has that very name; the model stops at the first error. -/
def allProps (s : St) (t : Nat) : Except Err (Dict Val) := do
  let d ← argProps s t
  return d.update (props s t)

/-- `_common_properties`, metatab/terms.py:34. -/
def commonProperties : List Str := [py!"url", py!"name", py!"description", py!"schema"]

/-- The instance attributes set by `Term.__init__`, the setter of `term` and that of `section`, metatab/terms.py:37-104, 110-119, 402-409. -/
def ownAttrs : List Str :=
  [py!"parent", py!"_term", py!"parent_term", py!"record_term", py!"_orig_term", py!"value", py!"args", py!"_section", py!"doc",
   py!"file_name", py!"file_type", py!"row", py!"col", py!"term_value_name", py!"child_property_type", py!"valid", py!"options",
   py!"children", py!"_doc", py!"_Term__initialised"]

/-- Further instance attributes of sections, metatab/terms.py:674-700. -/
def sectionOwnAttrs : List Str := [py!"terms", py!"header_args", py!"default_term_value_name"]

/-- The methods and properties of `Term`, metatab/terms.py:19-667, other than the special methods. -/
def classAttrs : List Str :=
  [py!"_common_properties", py!"section", py!"split_term", py!"split_term_lower", py!"file_ref", py!"add_child", py!"new_child",
   py!"remove_child", py!"new_children", py!"set_ownership", py!"find", py!"find_first", py!"find_first_value", py!"find_value",
   py!"get_or_new_child", py!"get", py!"get_value", py!"term", py!"normalize_term", py!"join", py!"join_lc", py!"record_term_lc",
   py!"parent_term_lc", py!"qualified_term", py!"term_is", py!"is_terminal", py!"is_arg_child", py!"has_elided_parent",
   py!"property_names", py!"props", py!"arg_props", py!"all_props", py!"as_dict", py!"_convert_to_dict", py!"rows", py!"descendents"]

/-- The methods and properties `SectionTerm` adds, metatab/terms.py:671-960, other than the special methods. -/
def sectionClassAttrs : List Str :=
  [py!"subclass", py!"name", py!"add_arg", py!"remove_arg", py!"add_term", py!"move_term", py!"new_term", py!"get_term",
   py!"get_or_new_term", py!"set_terms", py!"remove_term", py!"clean", py!"sort_by_term", py!"_args", py!"lines", py!"as_lines"]

/-- `item in self.__dict__`, where `x` holds the attributes given to the object from outside. -/
def inDict (s : St) (x : Dict Val) (t : Nat) (item : Str) : Bool :=
  x.has item || decide (item ∈ ownAttrs) || ((s.heap t).cls.isSection && decide (item ∈ sectionOwnAttrs))

/-- The class provides an attribute of this name. All names with two leading underscores are counted in. -/
def inClass (s : St) (t : Nat) (item : Str) : Bool :=
  decide (item ∈ classAttrs) || ((s.heap t).cls.isSection && decide (item ∈ sectionClassAttrs)) || (py!"__").isPrefixOf item

/-- `Term.__getattr__`, metatab/terms.py:326-354, reached when Python finds no attribute of that name; for the same reason the
`__getattribute__` in the last line raises. A section gives `None` for a missing item, any other term raises `KeyError`. -/
def getAttrMissing (s : St) (t : Nat) (item : Str) : Except Err Val :=
  if item = py!"__setstate__" then .error .attributeError
  else match getItem s t item with
    | .ok (some c) => .ok (s.heap c).value
    | .ok none => .error .attributeError
    | .error .keyError => if lower item ∈ commonProperties then .ok .none else .error .attributeError
    | .error e => .error e

/-- Reading the attribute `item` of the term `t`: Python's own attributes first, then `__getattr__`. The outcome for Python's own
attributes is not modelled, other than that of `value` and of those given from outside (`x`). -/
def getAttr (s : St) (x : Dict Val) (t : Nat) (item : Str) : Except Err Val :=
  if item = py!"value" then .ok (s.heap t).value
  else match x.get? item with
    | some v => .ok v
    | none => if inDict s x t item ∨ inClass s t item then .error .unmodelled else getAttrMissing s t item

/-- `object.__setattr__` for a name that Python does not provide itself, metatab/terms.py:367, 381. -/
def setPlain (x : Dict Val) (t : Nat) (item : Str) (value : Val) : M (Dict Val) := do
  let s ← M.get
  if item ∈ ownAttrs ∨ ((s.heap t).cls.isSection ∧ item ∈ sectionOwnAttrs) ∨ inClass s t item then M.raise .unmodelled
  else return x.set item value

/-- `Term.__setattr__` of an initialised term, metatab/terms.py:357-383. Returns the attributes given from outside. -/
def setAttr (x : Dict Val) (t : Nat) (item : Str) (value : Val) : M (Dict Val) := do
  let s ← M.get
  let isValue := decide (lower item = lower (s.heap t).tvn ∨ lower item = py!"value")
  if inDict s x t item && !isValue then setPlain x t item value
  else if isValue then do
    upd t fun o => { o with value := value }
    return x
  else if lower item ∈ (propertyNames s t).map lower then do
    setItemAny t item value
    return x
  else setPlain x t item value

/-- `sub in text` for strings. -/
def isInfix (sub : Str) : Str → Bool
  | [] => sub == []
  | c :: rest => sub.isPrefixOf (c :: rest) || isInfix sub rest

/-- `Term.__contains__`, metatab/terms.py:319-324. No class defines `properties`, so the name goes to `__getattr__`. -/
def termContains (s : St) (x : Dict Val) (t : Nat) (item : Str) : Except Err Bool := do
  if lower item = py!"value" then return true
  else if lower item ∈ commonProperties then return true
  else match ← getAttr s x t (py!"properties") with
    | .str v => return isInfix (lower item) v
    | _ => .error .typeError

end Metatab
