import Verif.Spec.Plain
import Verif.Model.Heap
/-! A reference reader for files of ordinary rows.

It builds a flat list of terms. Each term refers to its parent by position, so that the tree, the terms of a section and the
document's terms can be read off the list. It knows nothing of Python objects, classes or the two lists the code keeps. -/
namespace Spec
open Py

/-- A term. -/
structure Node where
  /-- the name of the parent -/
  pt : Str
  /-- the term's own name -/
  rt : Str
  value : Metatab.Val
  /-- position of the parent; `none` is the root section -/
  parent : Option Nat
  /-- the section's name in lower case -/
  sec : Str
  /-- the name of the value -/
  valueName : Str
deriving DecidableEq, Repr

/-- A document being read. -/
structure Reader where
  /-- names of the sections in lower case, with their names as first written and their columns -/
  secs : Dict (Str × List Str)
  /-- the current section -/
  cur : Str
  /-- the names of the argument cells -/
  cols : List Str
  /-- the name of values -/
  vname : Str
  nodes : List Node
  /-- the names rows can refer to, the latest first -/
  known : List (Str × Option Nat)
  /-- where elided rows go -/
  last : Str × Option Nat

/-- Before the first row. -/
def Reader.start : Reader :=
  { secs := [(py!"root", py!"Root", [])], cur := py!"root", cols := [], vname := py!"@value", nodes := [], known := [(py!"root", none)],
    last := (py!"root", none) }

/-- The value of a cell: nothing if empty, otherwise without outer blanks. -/
def cellValue (c : Str) : Metatab.Val := if c = [] then .none else .str (strip c)

/-- The name of the argument cell number `k`. -/
def colName (cols : List Str) (k : Nat) : Str :=
  match cols[k]? with
  | some c => if c = [] then natStr k else lower c
  | none => natStr k

/-- Add the terms of the argument cells of a term named `r`. -/
def Reader.addArgs (r : Str) : Nat → List Str → Reader → Reader
  | _, [], a => a
  | k, v :: vs, a =>
    Reader.addArgs r (k + 1) vs
      (if strip v = [] then a
       else { a with nodes := a.nodes ++ [⟨r, colName a.cols k, .str (strip v), a.last.2, a.cur, a.vname⟩] })

/-- Read one row. -/
def Reader.row (a : Reader) (row : List Str) : Reader :=
  match kind row with
  | .noise | .special => a
  | .section n cols =>
    match a.secs.get? (lower n) with
    | some (_, cs) => { a with cur := lower n, cols := cs, vname := py!"@value", last := (py!"root", none) }
    | none => { a with secs := a.secs ++ [(lower n, n, cols)], cur := lower n, cols := cols, vname := py!"@value", last := (py!"root", none) }
  | .header n cols => { a with cols := cols, vname := lower n }
  | .elided r =>
    Reader.addArgs r 0 (row.drop 2)
      { a with nodes := a.nodes ++ [⟨a.last.1, r, cellValue (row.getD 1 []), a.last.2, a.cur, a.vname⟩] }
  | .named p r =>
    Reader.addArgs r 0 (row.drop 2)
      { a with nodes := a.nodes ++ [⟨p, r, cellValue (row.getD 1 []), ((Dict.get? a.known p).getD none), a.cur, a.vname⟩]
               known := (r, some a.nodes.length) :: a.known
               last := (r, some a.nodes.length) }

/-- Read all rows. -/
def readAll (rows : List (List Str)) : Reader := rows.foldl Reader.row Reader.start

/-- The objects at the places of the nodes with a certain property. -/
def pick (nodes : List Node) (ids : List Nat) (f : Node → Bool) : List Nat :=
  ((nodes.zip ids).filter fun nt => f nt.1).map (·.2)

/-- The object a parent reference stands for. -/
def ref (s : Metatab.St) (ids : List Nat) : Option Nat → Nat
  | none => s.root
  | some i => ids.getD i s.root

/-- The state `s` holds the document `a`; the objects in `ids` are its terms, in this order. Every list and every reference of the
state is determined. -/
structure Holds (s : Metatab.St) (a : Reader) (ids : List Nat) : Prop where
  count : ids.length = a.nodes.length
  distinct : ids.Pairwise (· < ·)
  exist : ∀ t ∈ ids, t < s.next ∧ (s.heap t).cls.isSection = false
  term : ∀ n t, (n, t) ∈ a.nodes.zip ids → (s.heap t).pt = n.pt ∧ (s.heap t).rt = n.rt ∧ (s.heap t).value = n.value ∧
    (s.heap t).tvn = n.valueName ∧ (s.heap t).cpt = py!"any" ∧ (s.heap t).parent = some (ref s ids n.parent) ∧
    (s.heap t).sec = s.sections.get? n.sec
  children : ∀ i, i < ids.length → (s.heap (ref s ids (some i))).children = pick a.nodes ids fun n => n.parent = some i
  rootChildren : (s.heap s.root).children = pick a.nodes ids fun n => n.parent = none
  terms : s.terms = pick a.nodes ids fun n => n.pt = py!"root"
  sections : s.sections.keys = a.secs.keys
  columns : ∀ k x, s.sections.get? k = some x → ∃ n, (s.heap x).value = .str n ∧ a.secs.get? k = some (n, (s.heap x).args)
  sectionTerms : ∀ k x, s.sections.get? k = some x → (s.heap x).terms = pick a.nodes ids fun n => n.pt = py!"root" && n.sec = k

end Spec
