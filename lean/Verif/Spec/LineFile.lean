import Verif.Spec.Outline
/-! Outlines that survive being written and read in the Lines format, which has no quoting: a cell ends at `|` and a line at any line
break, the name of a row ends at `:` and `====` starts a section. -/
namespace Spec
open Py

/-- No line breaks. -/
def oneLine (x : Str) : Bool := x.all fun c => !isLineBreak c

/-- Names that can start a line. -/
def lineName (n : Str) : Bool := !n.contains ':' && oneLine n && !(py!"====").isPrefixOf n

/-- Cells of a line. -/
def lineCell (v : Str) : Bool := !v.contains '|' && oneLine v

mutual
/-- An item whose names and values can be written in lines. -/
def Item.lineOk : Item → Bool
  | .mk n v ks => lineName n && (match v with | none => true | some x => lineCell x) && lineOkL ks
def lineOkL : List Item → Bool
  | [] => true
  | k :: ks => k.lineOk && lineOkL ks
end

/-- Columns that can be written in the section's line and as names of elided rows; a blank column can be written, too. -/
def lineColumn (c : Str) : Bool :=
  lineCell c && decide (c.getLast? ≠ some '\\') && (decide (c = []) || (ordinary (lower c) && !c.contains '.' && !c.contains ':'))

/-- A section that can be written in lines. -/
def Part.lineOk (d : Part) : Bool :=
  lineCell d.name && decide (d.name.getLast? ≠ some '\\') && d.cols.all lineColumn && lineOkL d.items

/-- An outline that survives. -/
def lineWritable (D : List Part) : Bool := writable D && D.all Part.lineOk

end Spec
