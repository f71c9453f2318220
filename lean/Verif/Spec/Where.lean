import Verif.Spec.Plain
/-! # Where the terms of a file stand

Rows are numbered from 1, cells of a row from 0. The term of a row has column 1, which is the cell of its value. -/
namespace Spec
open Py

/-- The columns of the cells of a list that are not blank; the first cell of the list is in column `c`. -/
def columns : Nat → List Str → List Nat
  | _, [] => []
  | c, v :: vs => if strip v = [] then columns (c + 1) vs else c :: columns (c + 1) vs

/-- The terms of a row: one for the row, and one for each cell after the value that is not blank. -/
def rowPlaces (n : Nat) (row : List Str) : List (Nat × Nat) :=
  match kind row with
  | .named _ _ | .elided _ => (n, 1) :: (columns 2 (row.drop 2)).map fun c => (n, c)
  | _ => []

/-- Row and column of the terms of a file, in the order of the file; `n` is the number of the first row. -/
def placesFrom : Nat → List (List Str) → List (Nat × Nat)
  | _, [] => []
  | n, row :: rows => rowPlaces n row ++ placesFrom (n + 1) rows

def placesOf (rows : List (List Str)) : List (Nat × Nat) := placesFrom 1 rows

end Spec
