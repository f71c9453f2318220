import Verif.Spec.Reader
import Verif.Spec.Where
/-! The lines a listing of the terms of a file of ordinary rows consists of. -/
namespace Spec
open Py

/-- How a value is printed. -/
def printValue : Metatab.Val → Str
  | .str v => v
  | _ => py!"None"

/-- The line of a term: the name of its section, its name and its value. -/
def nodeLine (secs : Dict (Str × List Str)) (n : Node) : Str :=
  (match secs.get? n.sec with | some (name, _) => name | none => py!"None") ++ ':' :: n.pt ++ '.' :: n.rt ++ '=' :: printValue n.value

/-- The lines of the terms a row adds, and of the section it opens. -/
def Reader.rowLines (a : Reader) (row : List Str) : List Str :=
  match kind row with
  | .section n _ => [py!"None:root.section=" ++ (match a.secs.get? (lower n) with | some (m, _) => m | none => n)]
  | _ => ((a.row row).nodes.drop a.nodes.length).map (nodeLine a.secs)

/-- The lines of rows that are read one after the other. -/
def Reader.lines (a : Reader) : List (List Str) → List Str
  | [] => []
  | row :: rows => a.rowLines row ++ Reader.lines (a.row row) rows

/-- The listing of a file: the root section, then sections and terms in the order of the file. -/
def listing (rows : List (List Str)) : List Str := py!"None:root.root=Root" :: Reader.start.lines rows

/-! ## The lines with the places in front -/

/-- The row that opens a section for the first time; `n` is the number of the first row. -/
def openedFrom (k : Str) : Nat → List (List Str) → Option Nat
  | _, [] => none
  | n, row :: rows =>
    match kind row with
    | .section m _ => if lower m = k then some n else openedFrom k (n + 1) rows
    | _ => openedFrom k (n + 1) rows

/-- Name of the file, row and column. -/
def frontAt (file : Str) (r c : Nat) : Str := file ++ ' ' :: natStr r ++ ':' :: natStr c ++ [' ']

/-- The front of the line of a section: the row that opens it for the first time, twice. -/
def secFront (file : Str) (rows : List (List Str)) (k : Str) : Str :=
  if k = py!"root" then py!"<none> 0:0 " else match openedFrom k 1 rows with | some r => frontAt file r r | none => []

/-- The lines of row `n` with their fronts. `at_` is the front for a row and a column, `sec` the front of a section. -/
def Reader.placedRow (at_ : Nat → Nat → Str) (sec : Str → Str) (n : Nat) (a : Reader) (row : List Str) : List Str :=
  match kind row with
  | .section m _ => (a.rowLines row).map fun l => sec (lower m) ++ l
  | _ => List.zipWith (fun p l => at_ p.1 p.2 ++ l) (rowPlaces n row) (a.rowLines row)

/-- The lines of rows that are read one after the other, with their fronts. -/
def Reader.placed (at_ : Nat → Nat → Str) (sec : Str → Str) : Nat → Reader → List (List Str) → List Str
  | _, _, [] => []
  | n, a, row :: rows => a.placedRow at_ sec n row ++ Reader.placed at_ sec (n + 1) (a.row row) rows

/-- The listing of a file with the place of each term; `file` is the name of the file as its terms have it. -/
def placedListing (file : Str) (rows : List (List Str)) : List Str :=
  py!"<none> 0:0 None:root.root=Root" :: Reader.placed (frontAt file) (secFront file rows) 1 Reader.start rows

/-- Up to the first section or header row no row has argument cells. -/
def bareStart : List (List Str) → Bool
  | [] => true
  | row :: rows =>
    match kind row with
    | .section _ _ | .header _ _ => true
    | _ => (row.drop 2).all (fun v => strip v = []) && bareStart rows

end Spec
