import Verif.Py.Str
/-! # Small differences between two files

What an edit of a document may change in the rows of its file. -/
namespace Spec
open Py

/-- The second file is the first with the rows or lines `X` at one place replaced by `Y`. -/
def Replaces {α : Type} (X Y R R' : List α) : Prop := ∃ A B, R = A ++ X ++ B ∧ R' = A ++ Y ++ B

/-- The files differ in one cell, which is `u` in the first and `v` in the second. -/
def OneCell (u v : Str) (R R' : List (List Str)) : Prop := ∃ x y, Replaces [x ++ u :: y] [x ++ v :: y] R R'

/-- The second file has the rows or lines `N` more, at one place. -/
def Gains {α : Type} (N R R' : List α) : Prop := Replaces [] N R R'

end Spec
