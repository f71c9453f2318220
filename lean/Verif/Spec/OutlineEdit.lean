import Verif.Spec.Build
import Verif.Spec.Sort
/-! # Edits of an outline

A position in an outline is the number of a section, the number of a root-level term in it and the numbers of the children on the way
down. -/
namespace Spec
open Py Metatab

/-- The object at a position: `ts[j].children[k]...` -/
def termAt (s : St) : List Nat → Nat → List Nat → Option Nat
  | ts, j, [] => ts[j]?
  | ts, j, k :: p => match ts[j]? with
    | some t => termAt s (s.heap t).children k p
    | none => none

/-- The item at a position. -/
def itemAt : List Item → Nat → List Nat → Option Item
  | is, j, [] => is[j]?
  | is, j, k :: p => match is[j]? with
    | some (.mk _ _ ks) => itemAt ks k p
    | none => none

/-- Change the children of an item. -/
def Item.onKids (f : List Item → List Item) : Item → Item
  | .mk n v ks => .mk n v (f ks)

/-- The items with the one at the position changed, and nothing else. -/
def editIn (f : Item → Item) : List Item → Nat → List Nat → List Item
  | is, j, [] => is.modify j f
  | is, j, k :: p => is.modify j (Item.onKids fun ks => editIn f ks k p)

/-- The object at a position of the document. -/
def docAt (s : St) (i j : Nat) (p : List Nat) : Option Nat :=
  match s.sections[i]? with
  | some kv => termAt s (s.heap kv.2).terms j p
  | none => none

/-- One edit. -/
inductive Edit
  /-- `t.value = v` -/
  | value (i j : Nat) (p : List Nat) (v : Option Str)
  /-- `c = t.new_child(name, value)`, and the same for everything below -/
  | child (i j : Nat) (p : List Nat) (it : Item)
  /-- `t.remove_child(t.children[m])` -/
  | dropChild (i j : Nat) (p : List Nat) (m : Nat)
  /-- `t = section.new_term(name, value)`, and `new_child` for everything below -/
  | term (i : Nat) (it : Item)
  /-- `doc.remove_term(section.terms[j])` -/
  | dropTerm (i j : Nat)
  /-- `doc.new_section(name, columns)` and its terms -/
  | part (d : Part)
  /-- `del doc[name]` -/
  | dropPart (i : Nat)
  /-- `doc.sort_sections(names)` -/
  | order (names : List Str)
  /-- `section.sort_by_term()`, or `section.sort_by_term(["root.name", ...])` with the names -/
  | sort (i : Nat) (names : Option (List Str))
  /-- `t.get_or_new_child(name, value)` -/
  | setChild (i j : Nat) (p : List Nat) (n : Str) (v : Option Str)

/-- The first child of the name gets the value; if there is none, there is a new one at the end. -/
def setKid (n : Str) (v : Option Str) : List Item → List Item
  | [] => [.mk n v []]
  | .mk m u ks :: r => if m = n then .mk m v ks :: r else .mk m u ks :: setKid n v r

/-- The sections named, in the order of the names and each once, then the others in the order they had. -/
def orderParts (names : List Str) (D : List Part) : List Part :=
  ((firsts names).filterMap fun n => D.find? fun d => lower d.name = n) ++ D.filter fun d => lower d.name ∉ names

/-- Put an item before the first one whose name does not come before its own. -/
def insertItem (k : Item) : List Item → List Item
  | [] => [k]
  | j :: l => if lower k.name ≤ lower j.name then k :: j :: l else j :: insertItem k l

/-- The items with the names, in the order of the names, then the others in alphabetical order; items of one name keep their order. -/
def sortItems : List Str → List Item → List Item
  | [], is => is.foldr insertItem []
  | n :: ns, is => is.filter (fun k => decide (PartMatches n k.name)) ++ sortItems ns (is.filter fun k => !decide (PartMatches n k.name))

/-- Change one section of an outline. -/
def onItems (f : List Item → List Item) (d : Part) : Part := { d with items := f d.items }

/-- What the edit means. -/
def Edit.apply : Edit → List Part → List Part
  | .value i j p v, D => D.modify i (onItems fun is => editIn (fun | .mk n _ ks => .mk n v ks) is j p)
  | .child i j p it, D => D.modify i (onItems fun is => editIn (Item.onKids fun ks => ks ++ [it.low]) is j p)
  | .dropChild i j p m, D => D.modify i (onItems fun is => editIn (Item.onKids fun ks => ks.eraseIdx m) is j p)
  | .term i it, D => D.modify i (onItems fun is => is ++ [it.low])
  | .dropTerm i j, D => D.modify i (onItems fun is => is.eraseIdx j)
  | .part d, D => D ++ [d.low]
  | .dropPart i, D => D.eraseIdx i
  | .order names, D => orderParts (names.map lower) D
  | .sort i names, D => D.modify i (onItems (sortItems (names.getD [])))
  | .setChild i j p n v, D => D.modify i (onItems fun is => editIn (Item.onKids fun ks => setKid (lower n) v ks) is j p)

/-- The item at a position of the outline. -/
def outlineAt (D : List Part) (i j : Nat) (p : List Nat) : Option Item :=
  match D[i]? with
  | some d => itemAt d.items j p
  | none => none

/-- No column of the section is called `Section`. -/
def freeCols (D : List Part) (i : Nat) : Prop := ∃ d, D[i]? = some d ∧ py!"section" ∉ d.cols.map lower

/-- The edit is possible: the position is there, and new names and values are ordinary ones. -/
def Edit.ok (D : List Part) : Edit → Prop
  | .value i j p _ => (outlineAt D i j p).isSome
  | .child i j p it => (outlineAt D i j p).isSome ∧ it.given
  | .dropChild i j p m => ∃ n v ks, outlineAt D i j p = some (.mk n v ks) ∧ n ≠ py!"root" ∧ m < ks.length
  | .term i it => freeCols D i ∧ it.given
  | .dropTerm i j => freeCols D i ∧ ∃ n v ks, outlineAt D i j [] = some (.mk n v ks) ∧ n ≠ py!"declaresection"
  | .part d => d.given ∧ lower d.name ∉ [py!"root", py!"declaredterms", py!"declaredsections"] ∧ ∀ e ∈ D, lower e.name ≠ lower d.name
  | .dropPart i => i < D.length
  | .order _ => True
  | .sort i names => i < D.length ∧ ∀ n ∈ names.getD [], PlainPart n
  | .setChild i j p n v => ∃ m u ks, outlineAt D i j p = some (.mk m u ks) ∧ PlainPart m ∧ m ≠ py!"root" ∧ PlainPart n ∧ lower n ≠ py!"section" ∧
      cleanValue v = true

/-- The calls. -/
def Edit.run : Edit → M Unit
  | .value i j p v => do
    match docAt (← M.get) i j p with
    | some t => upd t fun o => { o with value := asVal v }
    | none => M.raise .indexError
  | .child i j p it => do
    match docAt (← M.get) i j p with
    | some t => addKid t it
    | none => M.raise .indexError
  | .dropChild i j p m => do
    let s ← M.get
    match docAt s i j p with
    | some t => match (s.heap t).children[m]? with
      | some c => removeChild t c
      | none => M.raise .indexError
    | none => M.raise .indexError
  | .term i it => do
    match (← M.get).sections[i]? with
    | some kv => addItem kv.2 it
    | none => M.raise .indexError
  | .dropTerm i j => do
    match docAt (← M.get) i j [] with
    | some t => removeTerm t
    | none => M.raise .indexError
  | .part d => do
    let x ← newSection d.name d.cols
    addItems x d.items
  | .dropPart i => do
    match (← M.get).sections[i]? with
    | some kv => delSection kv.1
    | none => M.raise .indexError
  | .order names => sortSections names
  | .sort i names => do
    match (← M.get).sections[i]? with
    | some kv => sortByTerm kv.2 (names.map fun ns => ns.map (dotJoin (py!"root")))
    | none => M.raise .indexError
  | .setChild i j p n v => do
    match docAt (← M.get) i j p with
    | some t => do let _ ← getOrNewChild t n (asVal v) []
    | none => M.raise .indexError

/-- One edit after the other. -/
def runEdits : List Edit → M Unit
  | [] => pure ()
  | e :: es => do
    e.run
    runEdits es

/-- All edits are possible, each after the ones before. -/
def okEdits : List Part → List Edit → Prop
  | _, [] => True
  | D, e :: es => e.ok D ∧ okEdits (e.apply D) es

/-- The outline after the edits. -/
def applyEdits (D : List Part) (es : List Edit) : List Part := es.foldl (fun D e => e.apply D) D

end Spec
