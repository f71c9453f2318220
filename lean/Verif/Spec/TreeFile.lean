import Verif.Spec.Reader
import Verif.Spec.Outline
/-! Files whose sections are trees of their own. -/
namespace Spec
open Py

/-- Rows `Parent.Name` refer to terms of the same section or to the root, elided rows have no argument cells, and there are no header rows.
`known` has the names that rows can refer to with the sections of the latest terms of these names, `cur` is the current section. -/
def treeFrom : List (Str × Str) → Str → List (List Str) → Bool
  | _, _, [] => true
  | known, cur, row :: rows =>
    match kind row with
    | .special | .header _ _ => false
    | .noise => treeFrom known cur rows
    | .section n _ => treeFrom known (lower n) rows
    | .elided _ => (row.drop 2).all (fun c => decide (strip c = [])) && treeFrom known cur rows
    | .named p r => (decide (p = py!"root") || decide (Dict.get? known p = some cur)) && treeFrom ((r, cur) :: known) cur rows

/-- A file whose sections are trees of their own. -/
def treeFile (rows : List (List Str)) : Bool := treeFrom [] (py!"root") rows

/-- The positions of the nodes with a certain property. -/
def places (nodes : List Node) (f : Node → Bool) : List Nat := (nodes.zipIdx.filter fun ni => f ni.1).map (·.2)

/-- The value of a node. -/
def nodeText : Metatab.Val → Option Str
  | .str v => some v
  | _ => none

/-- The tree below the node at a position: its children are the nodes that refer to it. The first argument bounds the depth. -/
def itemOf (nodes : List Node) : Nat → Nat → Item
  | 0, _ => .mk [] none []
  | m + 1, i =>
    match nodes[i]? with
    | none => .mk [] none []
    | some n => .mk n.rt (nodeText n.value) ((places nodes fun k => decide (k.parent = some i)).map (itemOf nodes m))

/-- The outline of what a reader has read: the sections with the trees below their root-level terms. -/
def readerOutline (a : Reader) : List Part :=
  a.secs.map fun s =>
    ⟨s.2.1, s.2.2, (places a.nodes fun n => decide (n.pt = py!"root") && decide (n.sec = s.1)).map (itemOf a.nodes a.nodes.length)⟩

/-- The outline of a file. -/
def fileOutline (rows : List (List Str)) : List Part := readerOutline (readAll rows)

/-- No argument cells and no elided rows before the first section row. -/
def shortHead : List (List Str) → Bool
  | [] => true
  | row :: rows =>
    match kind row with
    | .noise => shortHead rows
    | .named _ _ => (row.drop 2).all (fun v => decide (strip v = [])) && shortHead rows
    | .section _ _ => true
    | _ => false

/-- An outline with items in front of those of its first section. -/
def inFront (is : List Item) : List Part → List Part
  | [] => []
  | d :: ds => ⟨d.name, d.cols, is ++ d.items⟩ :: ds

end Spec
