import Verif.Py.Str
/-! Files of ordinary rows, told apart by looking at the rows alone.

Ordinary are comments, section rows, header rows, and term rows whose name means nothing special to the parser. A row `Parent.Name`
must come after a row named `Parent`. -/
namespace Spec
open Py

/-- The two parts of a name, in lower case; the first part of `.Name` is empty, and `Name` stands for `Root.Name`. -/
def cellNames (c : Str) : Option (Str × Str) :=
  match splitOn '.' c with
  | [r] => some (py!"root", lower (strip r))
  | [p, r] => some (lower (strip p), lower (strip r))
  | _ => none

/-- Names that mean something to the parser, or that it takes for column numbers. -/
def ordinary (r : Str) : Bool :=
  r ≠ [] && !([py!"section", py!"root", py!"header", py!"include", py!"declare", py!"<elided_term>", py!"synonym", py!"declareterm",
    py!"declaresection", py!"declarevalueset"].contains r) && (pyInt r).isNone

/-- Column names, none of which is `Section`. -/
def freeColumns (cols : List Str) : Bool := !((cols.map fun c => lower (strip c)).contains (py!"section"))

/-- Value names that the reader can handle. -/
def freeValueName (v : Str) : Bool :=
  !([py!"parent", py!"parent_term", py!"record_term", py!"doc", py!"_doc", py!"_section", py!"child_property_type",
    py!"term_value_name", py!"valid", py!"options"].contains (lower (strip v)))

/-- The kinds of rows. -/
inductive Kind
  | noise
  | «section» (name : Str) (cols : List Str)
  | header (name : Str) (cols : List Str)
  | elided (name : Str)
  | named (parent name : Str)
  | special
deriving DecidableEq, Repr

/-- The kind of a row. -/
def kind : List Str → Kind
  | [] => .noise
  | c :: rest =>
    if strip c = [] ∨ (strip c).head? = some '#' then .noise
    else match cellNames c with
      | none => .special
      | some (p, r) =>
        if p = py!"root" ∧ r = py!"section" then
          if rest.headD [] ≠ [] ∧ lower (strip (rest.headD [])) ≠ py!"root" ∧ freeColumns (rest.drop 1) = true
          then .section (strip (rest.headD [])) ((rest.drop 1).map strip) else .special
        else if p = py!"root" ∧ r = py!"header" then
          if strip (rest.headD []) ≠ [] ∧ freeValueName (rest.headD []) = true ∧ freeColumns (rest.drop 1) = true
          then .header (strip (rest.headD [])) ((rest.drop 1).map strip) else .special
        else if ordinary r = true ∧ p ≠ r ∧ p ≠ py!"<elided_term>" then
          if p = [] then .elided r else .named p r
        else .special

/-- All rows are ordinary, and the parents of `Parent.Name` rows are `known` or come earlier. -/
def plainFrom : List Str → List (List Str) → Bool
  | _, [] => true
  | known, row :: rows =>
    match kind row with
    | .special => false
    | .named p r => known.contains p && plainFrom (r :: known) rows
    | _ => plainFrom known rows

/-- A file of ordinary rows. -/
def plainFile (rows : List (List Str)) : Bool := plainFrom [py!"root"] rows

end Spec
