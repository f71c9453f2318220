import Verif.Model.Version
import Verif.Model.Views
/-! # Cleaning a document before it is written (metatab/doc.py:520-569) -/
namespace Metatab
open Py

/-- `MetatabError` and its subclasses, metatab/exc.py:9-43. -/
def _root_.Err.isMetatab : Err → Bool
  | .includeError | .parserError | .declarationError | .generateError | .conversionError | .metatabError | .formatError => true
  | _ => false

/-- `slugify(v)` of a value, metatab/util.py:40-51. -/
def slugVal (env : Env) (v : Val) : Except Err Str := do
  let x ← fmtVal v
  return slugify env.nfkd x

/-- The value of the identifier; `None` has no attribute `value`, metatab/doc.py:530, 537, 539. -/
def identifierValue (s : St) (ident : Option Nat) : Except Err Val :=
  match ident with
  | some i => .ok (s.heap i).value
  | none => .error .attributeError

/-- The handler in `cleanse`, metatab/doc.py:530-539. -/
def cleanseName : M Unit := do
  let x ← M.lift fun s => getSection s (py!"Root")
  let ident ← M.lift fun s => sectionFindFirst s x (py!"Root.Identifier")
  let name ← M.lift fun s => sectionFindFirst s x (py!"Root.Name")
  match name with
  | some n => do
    let o ← obj n
    if o.value.truthy then do
      let v ← M.lift fun s => slugVal s.env o.value
      upd n fun o => { o with value := .str v }
    else do
      let i ← M.lift fun s => identifierValue s ident
      let v ← M.lift fun s => slugVal s.env i
      upd n fun o => { o with value := .str v }
  | none => do
    let i ← M.lift fun s => identifierValue s ident
    let v ← M.lift fun s => slugVal s.env i
    let n ← getOrNewTerm x (py!"Root.Name")
    upd n fun o => { o with value := .str v }

/-- `try: m except MetatabError: h`. -/
def tryMetatab (m : M Unit) (h : M Unit) : M Unit := fun s =>
  match m s with
  | .ok a s' => .ok a s'
  | .err e s' => if e.isMetatab then h s' else .err e s'

/-- `MetatabDoc.cleanse`, metatab/doc.py:520-539. -/
def cleanse : M Unit := do
  ensureIdentifier
  tryMetatab (do let _ ← updateName false false true .keep) cleanseName

/-- `v and v.strip()`, metatab/doc.py:553, 568. A term as a value is not modelled. -/
def hasText : Val → Except Err Bool
  | .none | .fls => .ok false
  | .str t => .ok (decide (strip t ≠ []))
  | .int i => if i = 0 then .ok false else .error .attributeError
  | .obj _ => .error .unmodelled

/-- `SectionTerm.find`, metatab/terms.py:782-783. -/
def sectionFind (s : St) (x : Nat) (term : Str) (value : Val := .fls) : Except Err (List Nat) :=
  match (s.heap x).value with
  | .str n => find s term value (some [n])
  | .none => find s term value none
  | _ => .error .unmodelled

/-- The names with a non-blank value among some properties, metatab/doc.py:552-554. -/
def textNames : List (Str × Val) → Except Err (List Str)
  | [] => .ok []
  | (k, v) :: rest => do
    let b ← hasText v
    let r ← textNames rest
    return if b then k :: r else r

/-- The names of the non-blank properties of some columns, metatab/doc.py:551-554. -/
def usedInColumns (s : St) : List Nat → Except Err (List Str)
  | [] => .ok []
  | c :: cs => do
    let a ← textNames (props s c)
    let b ← usedInColumns s cs
    return a ++ b

/-- The set `used_args`, metatab/doc.py:550-554, as a list in the order of insertion, with repetitions. -/
def usedInTables (s : St) : List Nat → Except Err (List Str)
  | [] => .ok []
  | t :: ts => do
    let cs ← termFind s t (py!"Table.Column")
    let a ← usedInColumns s cs
    let b ← usedInTables s ts
    return a ++ b

/-- Remove the blank ones among some children of a column, metatab/doc.py:567-569. -/
def dropBlank (c : Nat) : List Nat → M Unit
  | [] => pure ()
  | k :: ks => do
    let o ← obj k
    let b ← M.lift fun _ => hasText o.value
    if !b then removeChild c k
    dropBlank c ks

/-- Remove the blank properties of the columns of some tables, metatab/doc.py:565-569. -/
def dropBlankTables : List Nat → M Unit
  | [] => pure ()
  | t :: ts => do
    let cs ← M.lift fun s => termFind s t (py!"Table.Column")
    forL (fun c => do
      let o ← obj c
      dropBlank c o.children) cs
    dropBlankTables ts

/-- `clean_unused_schema_terms`, metatab/doc.py:541-569. A section object is always true. The order in which the two sets of names are gone
through is left to `env.setOrd`. -/
def cleanUnused : M Unit := do
  let x ← M.lift fun s => getSection s (py!"Schema")
  let o ← obj x
  let have_ := o.args.map lower
  let tables ← M.lift fun s => sectionFind s x (py!"Root.Table")
  let used ← M.lift fun s => usedInTables s tables
  let s ← M.get
  forL (fun a => removeArg x (title a)) (s.env.setOrd (have_.filter fun a => decide (a ∉ used)).eraseDups)
  forL (fun a => addArg x a) (s.env.setOrd (used.filter fun a => decide (a ∉ have_)).eraseDups)
  let tables ← M.lift fun s => sectionFind s x (py!"Root.Table")
  dropBlankTables tables

end Metatab
