import Verif.Spec.Plain
import Verif.Model.Heap
import Mathlib.Data.List.Forall2
/-! Outlines of documents: sections with their columns and trees of names and values, without objects, classes or references. -/
namespace Spec
open Py

/-- A term with its name, value and children. -/
inductive Item | mk (name : Str) (value : Option Str) (kids : List Item)

namespace Item
def name : Item → Str | .mk n _ _ => n
def value : Item → Option Str | .mk _ v _ => v
def kids : Item → List Item | .mk _ _ ks => ks
/-- No children. -/
def leaf (k : Item) : Bool := k.kids.isEmpty
end Item

/-- A section: its name, its columns and its terms. -/
structure Part where
  name : Str
  cols : List Str
  items : List Item

/-- The value of a term. -/
def asVal : Option Str → Metatab.Val
  | none => .none
  | some v => .str v

mutual
/-- The object `t` and everything below it is the item. All of it belongs to the section `x`, and parents and children refer to each
other. -/
def ShowsItem (s : Metatab.St) (x : Nat) : Item → Nat → Prop
  | .mk n v ks, t => (s.heap t).rt = n ∧ (s.heap t).value = asVal v ∧ (s.heap t).sec = some x ∧
      (∀ c ∈ (s.heap t).children, (s.heap c).parent = some t ∧ (s.heap c).pt = n) ∧ ShowsItems s x ks (s.heap t).children
/-- The objects are the items, in this order. -/
def ShowsItems (s : Metatab.St) (x : Nat) : List Item → List Nat → Prop
  | [], l => l = []
  | k :: ks, l => ∃ t r, l = t :: r ∧ ShowsItem s x k t ∧ ShowsItems s x ks r
end

/-- The section registered under `kv.1` is the part. -/
structure ShowsPart (s : Metatab.St) (kv : Str × Nat) (d : Part) : Prop where
  key : kv.1 = lower d.name
  name : (s.heap kv.2).value = .str d.name
  cols : (s.heap kv.2).secPropertyNames = d.cols
  items : ShowsItems s kv.2 d.items (s.heap kv.2).terms
  rootLevel : ∀ t ∈ (s.heap kv.2).terms, (s.heap t).pt = py!"root" ∧ ((s.heap t).parent = none ∨ (s.heap t).parent = some s.root)

/-- The document is the outline. -/
structure Shows (s : Metatab.St) (D : List Part) : Prop where
  rootName : (s.heap s.root).rt = py!"root"
  parts : List.Forall₂ (ShowsPart s) s.sections D

/-! ## The order in which children are read back -/

/-- The terminal child that belongs in a column. -/
def colKid (ks : List Item) (c : Str) : Option Item := ks.find? fun k => k.leaf && decide (k.name = lower c)

/-- A terminal child that has a column. -/
def inCols (cols : List Str) (k : Item) : Bool := k.leaf && (cols.map lower).contains k.name

mutual
/-- The same item with the children in the order: those with a column, by column; the other terminal ones; those with children. -/
def Item.norm (cols : List Str) : Item → Item
  | .mk n v ks => .mk n v (cols.filterMap (colKid ks) ++ (ks.filter fun k => k.leaf && !inCols cols k) ++ normL cols ks)
def normL (cols : List Str) : List Item → List Item
  | [] => []
  | k :: ks => if k.leaf then normL cols ks else k.norm cols :: normL cols ks
end

def Part.norm (d : Part) : Part := { d with items := d.items.map (Item.norm d.cols) }

/-- The second item is the first with children in another order, at any depth. -/
inductive Reordered : Item → Item → Prop
  | mk {n : Str} {v : Option Str} {ks l ks' : List Item} (h : List.Forall₂ Reordered ks l) (p : l.Perm ks') : Reordered (.mk n v ks) (.mk n v ks')

/-- The second section is the first with children of terms in another order. -/
structure PartReordered (d e : Part) : Prop where
  name : e.name = d.name
  cols : e.cols = d.cols
  items : List.Forall₂ Reordered d.items e.items

/-! ## Outlines that survive being written and read -/

/-- Names that are read as they are written. -/
def cleanName (n : Str) : Bool :=
  ordinary n && !n.contains '.' && decide (strip n = n) && decide (lower n = n) && decide (n.head? ≠ some '#')

/-- Values that are read as they are written. -/
def cleanValue : Option Str → Bool
  | none => true
  | some v => decide (v ≠ []) && decide (strip v = v)

mutual
/-- The names of the rows written for an item. -/
def Item.rowNames (cols : List Str) : Item → List Str
  | .mk n _ ks => n :: rowNamesL cols ks
def rowNamesL (cols : List Str) : List Item → List Str
  | [] => []
  | k :: ks => (if inCols cols k then [] else k.rowNames cols) ++ rowNamesL cols ks
end

mutual
/-- An item below a term named `p` survives. The names of its terminal children must differ, none of them is `@value`, and no row below
the item has the item's own name. -/
def Item.ok (cols : List Str) (p : Str) : Item → Bool
  | .mk n v ks => cleanName n && decide (p ≠ n) && cleanValue v && decide (((ks.filter Item.leaf).map Item.name).Nodup) &&
      !((ks.filter Item.leaf).map Item.name).contains (py!"@value") && !(rowNamesL cols ks).contains n && okKids cols n ks
/-- Children with a column have a value; all others survive, and their parent's name does not end in `root`. -/
def okKids (cols : List Str) (n : Str) : List Item → Bool
  | [] => true
  | k :: ks => (if inCols cols k then decide (k.name ≠ []) && k.value.isSome && cleanValue k.value
      else k.ok cols n && !(py!"root").isSuffixOf n) && okKids cols n ks
end

mutual
/-- The values of the item and of the terms with children below it are written under names, given by `tv`, that no terminal child
has. -/
def Item.valuesOk (tv : Str → Str) (p : Str) : Item → Bool
  | .mk n _ ks => decide (tv (Metatab.dotJoin p n) ≠ []) && !((ks.filter Item.leaf).map Item.name).contains (lower (tv (Metatab.dotJoin p n))) && valuesOkL tv n ks
def valuesOkL (tv : Str → Str) (p : Str) : List Item → Bool
  | [] => true
  | k :: ks => (k.leaf || k.valuesOk tv p) && valuesOkL tv p ks
end

/-- A section that survives. -/
def Part.ok (d : Part) : Bool :=
  decide (d.name ≠ []) && decide (strip d.name = d.name) && decide (lower d.name ≠ py!"root") && freeColumns d.cols &&
    d.cols.all (fun c => decide (strip c = c)) && decide (((d.cols.filter fun c => decide (c ≠ [])).map lower).Nodup) &&
    d.items.all (Item.ok d.cols (py!"root"))

/-- An outline that survives being written and read. -/
def writable : List Part → Bool
  | [] => false
  | r :: ds => decide (r.name = py!"Root") && decide (r.cols = []) && r.items.all (Item.ok [] (py!"root")) && ds.all Part.ok &&
      decide ((ds.map fun d => lower d.name).Nodup)

end Spec
