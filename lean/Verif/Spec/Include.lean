import Verif.Spec.Reader
import Verif.Model.Url
/-! Include rows, for the reference reader. -/
namespace Spec
open Py

/-- The text of an include row that names a file. -/
def includeRow : List Str → Option Str
  | [] => none
  | c :: rest =>
    if strip c = [] ∨ (strip c).head? = some '#' then none
    else if cellNames c = some (py!"root", py!"include") ∧ rest.headD [] ≠ [] then some (strip (rest.headD [])) else none

/-- The file an include row of a file in the directory `dir` means: a web address as it stands, anything else below the directory. A file
whose directory is unknown can include web addresses only. -/
def includeTarget (dir v : Str) : Option Str :=
  let r := stripChar '/' v
  if (py!"http").isPrefixOf r then some r else if dir = [] then none else some (Metatab.pathJoin dir r)

/-- The include term itself. -/
def Reader.includeTerm (a : Reader) (v : Str) : Reader :=
  { a with nodes := a.nodes ++ [⟨py!"root", py!"include", .str v, none, a.cur, a.vname⟩]
           known := (py!"include", some a.nodes.length) :: a.known
           last := (py!"include", some a.nodes.length) }

/-- Going on in section `here` of the including file. A proper section is opened anew, so that its columns apply again; going back to the
root section keeps the columns and the term that elided rows belong to. -/
def Reader.reopen (a : Reader) (here : Str) : Reader :=
  if here = py!"root" then { a with cur := py!"root" }
  else match a.secs.get? here with
    | some (_, cs) => { a with cur := here, cols := cs, vname := py!"@value", last := (py!"root", none) }
    | none => a

/-- The section of the file after the row. -/
def sectionAfter (here : Str) (row : List Str) : Str :=
  match kind row with
  | .section n _ => lower n
  | _ => here

/-- Reading the rows of the file `ref` in directory `dir`, included files in place. `here` is the current section of this file; the number
bounds the depth of inclusion. Only rows of the file itself open sections: an included file starts in the current section, but after an
include of its own it goes on in the section it has opened itself, or in the root section. -/
inductive Reads (files : Str → Option (List (List Str))) : Nat → Str → Str → Str → List (List Str) → Reader → Reader → Prop
  | nil {n : Nat} {dir ref here : Str} {a : Reader} : Reads files n dir ref here [] a a
  | row {n : Nat} {dir ref here : Str} {a b : Reader} {row : List Str} {rows : List (List Str)} (ordinary : kind row ≠ .special)
      (parent : ∀ p r, kind row = .named p r → (Dict.get? a.known p).isSome)
      (more : Reads files n dir ref (sectionAfter here row) rows (a.row row) b) : Reads files n dir ref here (row :: rows) a b
  | include {n : Nat} {dir ref here v t : Str} {a b c : Reader} {row : List Str} {rows inc : List (List Str)}
      (isInclude : includeRow row = some v) (target : includeTarget dir v = some t) (other : t ≠ ref) (found : files t = some inc)
      (sub : Reads files n [] t (py!"root") inc (a.includeTerm v) b)
      (more : Reads files (n + 1) dir ref here rows (b.reopen here) c) : Reads files (n + 1) dir ref here (row :: rows) a c

/-- Why reading may stop. -/
inductive Stop
  /-- an include that cannot be followed -/
  | broken
  /-- more nested includes than the interpreter can bear -/
  | tooDeep
deriving DecidableEq, Repr

/-- A declare row, with the name of the wanted document. -/
def declareRow : List Str → Option Str
  | [] => none
  | c :: rest =>
    if strip c = [] ∨ (strip c).head? = some '#' then none
    else if cellNames c = some (py!"root", py!"declare") ∧ rest.headD [] ≠ [] then some (strip (rest.headD [])) else none

/-- An include that cannot be followed: the directory is not known, the file includes itself, or there is no such file. -/
def brokenInclude (files : Str → Option (List (List Str))) (dir ref v : Str) : Bool :=
  match includeTarget dir v with
  | none => true
  | some t => t == ref || (files t).isNone

/-- Reading the rows of the file `ref` stops. The number is the number of nested includes that can still be followed. -/
inductive Stops (files : Str → Option (List (List Str))) (decl : Str → Str → Option Str) :
    Nat → Str → Str → Str → List (List Str) → Reader → Stop → Prop
  | broken {n : Nat} {dir ref here v : Str} {a : Reader} {row : List Str} {rows : List (List Str)} (isInclude : includeRow row = some v)
      (bad : brokenInclude files dir ref v = true) : Stops files decl n dir ref here (row :: rows) a .broken
  | noDeclaration {n : Nat} {dir ref here v : Str} {a : Reader} {row : List Str} {rows : List (List Str)} (isDeclare : declareRow row = some v)
      (bad : decl dir v = none) : Stops files decl n dir ref here (row :: rows) a .broken
  | tooDeep {dir ref here v t : Str} {a : Reader} {row : List Str} {rows inc : List (List Str)} (isInclude : includeRow row = some v)
      (target : includeTarget dir v = some t) (other : t ≠ ref) (found : files t = some inc) :
      Stops files decl 0 dir ref here (row :: rows) a .tooDeep
  | inside {n : Nat} {dir ref here v t : Str} {a : Reader} {row : List Str} {rows inc : List (List Str)} {w : Stop}
      (isInclude : includeRow row = some v) (target : includeTarget dir v = some t) (other : t ≠ ref) (found : files t = some inc)
      (sub : Stops files decl n [] t (py!"root") inc (a.includeTerm v) w) : Stops files decl (n + 1) dir ref here (row :: rows) a w
  | row {n : Nat} {dir ref here : Str} {a : Reader} {row : List Str} {rows : List (List Str)} {w : Stop} (ordinary : kind row ≠ .special)
      (parent : ∀ p r, kind row = .named p r → (Dict.get? a.known p).isSome)
      (more : Stops files decl n dir ref (sectionAfter here row) rows (a.row row) w) : Stops files decl n dir ref here (row :: rows) a w
  | include {n : Nat} {dir ref here v t : Str} {a b : Reader} {row : List Str} {rows inc : List (List Str)} {w : Stop}
      (isInclude : includeRow row = some v) (target : includeTarget dir v = some t) (other : t ≠ ref) (found : files t = some inc)
      (sub : Reads files n [] t (py!"root") inc (a.includeTerm v) b)
      (more : Stops files decl (n + 1) dir ref here rows (b.reopen here) w) : Stops files decl (n + 1) dir ref here (row :: rows) a w

/-- All rows are ordinary or include rows, and the parents of `Parent.Name` rows are `known` or come earlier. -/
def includesFrom : List Str → List (List Str) → Bool
  | _, [] => true
  | known, row :: rows =>
    if (includeRow row).isSome then includesFrom known rows
    else match kind row with
    | .special => false
    | .named p r => known.contains p && includesFrom (r :: known) rows
    | _ => includesFrom known rows

/-- The file that a row of a file in the directory `dir` leads to: an include row, or a declare row of a known document. -/
def leads (decl : Str → Str → Option Str) (dir : Str) (row : List Str) : Option Str :=
  match includeRow row with
  | some v => includeTarget dir v
  | none => match declareRow row with
    | some v => decl dir v
    | none => none

/-- The first row that belongs somewhere says where. -/
def anchored : List (List Str) → Bool
  | [] => true
  | row :: rows => match kind row with
    | .noise | .header _ _ => anchored rows
    | .elided _ => false
    | _ => true

/-- Comments and term rows only. -/
def termRows (rows : List (List Str)) : Bool :=
  rows.all fun row => match kind row with | .noise | .elided _ | .named _ _ => true | _ => false

/-- The columns and the name of values are those of the section itself; in the root section, any. -/
def Reader.OwnColumns (a : Reader) : Prop :=
  a.cur = py!"root" ∨ (a.vname = py!"@value" ∧ ∃ n, a.secs.get? a.cur = some (n, a.cols))

end Spec
