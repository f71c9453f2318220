import Verif.Py.Str
/-! Specification of the Lines format, independent of the reader. -/
namespace Spec
open Py

/-- A comment line: blanks, then `#`. -/
def CommentLine (l : Str) : Prop := ∃ ws rest, (∀ c ∈ ws, isSpace c = true) ∧ l = ws ++ '#' :: rest

/-- Escape the pipes of a cell. -/
def escPipe (cell : Str) : Str := cell.flatMap fun c => if c = '|' then ['\\', '|'] else [c]

/-- A row as one line of the Lines format. -/
def writeLine (name : Str) (cells : List Str) : Str := name ++ py!": " ++ join ['|'] (cells.map escPipe)

/-- Rows that the Lines format can hold: the name has no colon and no outer blanks and is neither a comment nor a `====` marker; no
cell but the last ends in a backslash; the line's value part has no outer blanks; nothing contains a line break. -/
structure LineRow (name : Str) (cells : List Str) : Prop where
  colon : ':' ∉ name
  stripped : strip name = name
  nonempty : name ≠ []
  comment : name.head? ≠ some '#'
  marker : ¬ (py!"====" <+: name)
  cells_ne : cells ≠ []
  back : ∀ c ∈ cells.dropLast, c.getLast? ≠ some '\\'
  outer : strip (join ['|'] (cells.map escPipe)) = join ['|'] (cells.map escPipe)
  breaks : ∀ c ∈ name ++ cells.flatten, isLineBreak c = false

end Spec
