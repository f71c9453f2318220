import Verif.Py.Str
import Verif.Model.Err
import Verif.Model.Names
import Verif.Model.Val
/-! # Object heap, document state and the state-and-exception monad

One document is modelled. Terms and sections are objects on a heap and are referred to by number, as Python refers to them by
identity. An exception keeps the state reached when it was raised. -/
namespace Metatab
open Py

/-- Python class of a term object: `Term`, `SectionTerm`, `RootSectionTerm`, or a registered user subclass of `Term`, assumed to add
behaviour only under names of its own. -/
inductive Cls | term | section | root | user (n : Nat)
deriving DecidableEq, Repr

/-- `isinstance(t, SectionTerm)`. -/
def Cls.isSection : Cls → Bool
  | .section | .root => true
  | _ => false

/-- A term object (metatab/terms.py:37-104) or section object (metatab/terms.py:672-700). Row number and file name only serve error
messages and are kept apart (Model/Where.lean). The `doc` attribute is left out: every object belongs to the one document. -/
structure Obj where
  cls : Cls
  /-- `_term`: the name as given -/
  raw : Str
  /-- `parent_term` -/
  pt : Str
  /-- `record_term` -/
  rt : Str
  value : Val
  args : List Str
  parent : Option Nat
  /-- `_section` -/
  sec : Option Nat
  /-- `file_type == 'declare'` -/
  isDecl : Bool
  col : Nat
  /-- `term_value_name` -/
  tvn : Str
  /-- `child_property_type` -/
  cpt : Str
  valid : Option Bool
  options : List Str
  children : List Nat
  /-- sections: `terms` -/
  terms : List Nat
  /-- sections: `header_args` -/
  headerArgs : List Str
  /-- sections: `default_term_value_name` -/
  defTvn : Str
deriving DecidableEq, Repr

/-- The attributes a constructor call leaves at their defaults (metatab/terms.py:91-100, 682-698). -/
def Obj.blank : Obj :=
  { cls := .term, raw := [], pt := [], rt := [], value := .none, args := [], parent := none, sec := none, isDecl := false, col := 0,
    tvn := py!"@value", cpt := py!"any", valid := none, options := [], children := [], terms := [], headerArgs := [],
    defTvn := py!"@value" }

/-- An entry of `_declared_terms` (metatab/parser.py:150-157, 587-591): string properties, and the value set, absent in the
pre-installed entries. -/
structure DTerm where
  props : Dict Str
  values : Option (List (Val × Val))
deriving DecidableEq, Repr

/-- An entry of `_declared_sections` (metatab/parser.py:159-164, 542-545). -/
structure DSec where
  args : List Str
  terms : List Str
deriving DecidableEq, Repr

/-- What the code takes from its surroundings. -/
structure Env where
  /-- `unicodedata.normalize('NFKD', ·)` -/
  nfkd : Str → Str
  /-- iteration order of a set of names, given in insertion order -/
  setOrd : List Str → List Str
  /-- `str(uuid4())`, indexed by the number of objects so far -/
  uuid : Nat → Str

/-- Local state of a running `TermParser` (metatab/parser.py:67-73, 413-420). -/
structure PSt where
  paramMap : List Str
  declTerms : Dict DTerm
  declSecs : Dict DSec
  lastParent : Str
  lastMap : Dict Nat
  defTvn : Str
  lastSec : Nat

/-- State of a document and its parser. -/
structure St where
  env : Env
  heap : Nat → Obj
  next : Nat
  /-- `MetatabDoc.terms` -/
  terms : List Nat
  /-- `MetatabDoc.sections` -/
  sections : Dict Nat
  root : Nat
  declTerms : Dict DTerm
  declSecs : Dict DSec
  superTerms : Dict Str
  derived : Dict (List Str)
  /-- `TermParser.term_classes` -/
  classes : Dict Cls
  p : PSt

/-- Result of a computation. -/
inductive Res (α : Type) | ok (a : α) (s : St) | err (e : Err) (s : St)

/-- A computation that reads and changes the state and may raise. -/
def M (α : Type) := St → Res α

namespace M
variable {α β : Type}

def pure (a : α) : M α := fun s => .ok a s
def bind (m : M α) (f : α → M β) : M β := fun s =>
  match m s with
  | .ok a s' => f a s'
  | .err e s' => .err e s'

instance : Monad M where
  pure := M.pure
  bind := M.bind

/-- Raise an exception. -/
def raise (e : Err) : M α := fun s => .err e s
/-- Read the state. -/
def get : M St := fun s => .ok s s
/-- Change the state. -/
def modify (f : St → St) : M Unit := fun s => .ok () (f s)
/-- A pure computation on the state. -/
def lift (f : St → Except Err α) : M α := fun s =>
  match f s with
  | .ok a => .ok a s
  | .error e => .err e s
/-- `assert b`. -/
def assert (b : Bool) : M Unit := if b then M.pure () else raise .assertionError

end M

/-- Read an object. -/
def obj (i : Nat) : M Obj := fun s => .ok (s.heap i) s
/-- Heap update. -/
def St.setObj (s : St) (i : Nat) (o : Obj) : St := { s with heap := fun j => if j = i then o else s.heap j }
/-- Update an object. -/
def upd (i : Nat) (f : Obj → Obj) : M Unit := fun s => .ok () (s.setObj i (f (s.heap i)))
/-- Allocate an object. -/
def alloc (o : Obj) : M Nat := fun s => .ok s.next ({ s with next := s.next + 1 }.setObj s.next o)

/-- `join_lc`, metatab/terms.py:421-424. -/
def Obj.joinLc (o : Obj) : Str := dotJoin (lower o.pt) (lower o.rt)
/-- `join`, metatab/terms.py:416-419. -/
def Obj.join (o : Obj) : Str := dotJoin o.pt o.rt
/-- `property_names` of a section, metatab/terms.py:715-722. -/
def Obj.secPropertyNames (o : Obj) : List Str := if o.headerArgs ≠ [] then o.headerArgs else o.args

/-- `property_names`, metatab/terms.py:497-505 and 715-722. -/
def propertyNames (s : St) (t : Nat) : List Str :=
  if (s.heap t).cls.isSection then (s.heap t).secPropertyNames
  else match (s.heap t).sec with
    | some x => (s.heap x).secPropertyNames
    | none => []

/-- Value names that would make `Term.__setattr__` (metatab/terms.py:364-371) divert an assignment of this code base to the term's
value. The model stops when a declaration uses one of these as `TermValueName`. (`section` is modelled.) -/
def reservedTvn : List Str :=
  [py!"parent", py!"parent_term", py!"record_term", py!"doc", py!"_doc", py!"_section", py!"child_property_type",
   py!"term_value_name", py!"valid", py!"options"]

/-- `t.term_value_name = v`. -/
def setTvn (t : Nat) (v : Str) : M Unit :=
  if lower v ∈ reservedTvn then M.raise .unmodelled else upd t fun o => { o with tvn := v }

end Metatab
