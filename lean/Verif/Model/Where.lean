import Verif.Model.Place
/-! # Where a term was read: `file_name`, `row` and `col` (metatab/parser.py:313-320, 323, 331-337, 397-403; metatab/terms.py:77-84)

The attributes are given to the constructor and nothing in the code changes them later. The parser itself looks only at whether `col` is
greater than 1, which is part of the objects of the model; so they are kept apart here: `genL` reads rows exactly as `gen` does (`genL_run`)
and lists the objects it builds with the three attributes. -/
namespace Metatab
open Py

/-- The object built for a row, metatab/parser.py:328-337. `SectionTerm.__init__` passes its row on as the column (metatab/terms.py:695). -/
def rowTermL (f : Source) (n : Nat) (isDecl : Bool) (row : List Str) : LogM Built Nat := fun s =>
  match rowTerm isDecl row s with
  | .ok t s' => ([⟨t, ⟨f.file, n, if (s'.heap t).cls.isSection then n else 1⟩, f.ref⟩], .ok t s')
  | .err e s' => ([], .err e s')

/-- The term built for an argument cell, metatab/parser.py:394-403. -/
def argTermL (f : Source) (n : Nat) (isDecl : Bool) (t col : Nat) (v : Str) : LogM Built Nat := fun s =>
  match argTerm isDecl t col v s with
  | .ok c s' => ([⟨c, ⟨f.file, n, col + 2⟩, f.ref⟩], .ok c s')
  | .err e s' => ([], .err e s')

/-- The loop over the argument cells, metatab/parser.py:391-403, as in `argLoop`. -/
def argLoopL (f : Source) (n : Nat) (load isDecl : Bool) (t : Nat) : Nat → List Str → LogM Built Unit
  | _, [] => pure ()
  | col, v :: vs => do
    if strip v ≠ [] then do
      let c ← argTermL f n isDecl t col v
      silent (consume load c)
    argLoopL f n load isDecl t (col + 1) vs

/-- Yield a term and then its argument cells, metatab/parser.py:387-403, as in `yieldWithArgs`. The row number is that of the row being
read, also for a section that was opened before. -/
def yieldWithArgsL (f : Source) (n : Nat) (load isDecl : Bool) (t : Nat) : LogM Built Unit := do
  silent (consume load t)
  let o ← silent (obj t)
  if o.joinLc = py!"root.section" ∨ o.joinLc = py!"root.header" then pure ()
  else argLoopL f n load isDecl t 0 o.args

/-- The loop of `generate_terms` over the rows, metatab/parser.py:322-405, as in `genRows`. `n` is `line_n` of the next row. -/
def genRowsL (files : Files) (sub : Str → Bool → LogM Built Unit) (f : Source) (load isDecl : Bool) (dir : Str) :
    Nat → Nat → List (List Str) → LogM Built Nat
  | _, lastSec, [] => pure lastSec
  | n, lastSec, row :: rows =>
    if skipRow row then genRowsL files sub f load isDecl dir (n + 1) lastSec rows
    else do
      let t ← rowTermL f n isDecl row
      let o ← silent (obj t)
      if o.joinLc = py!"root.include" ∨ o.joinLc = py!"root.declare" then do
        let target ← silent (M.lift fun _ => resolveTarget files dir o)
        if target = f.ref then silent (M.raise .includeError)
        else do
          silent (consume load t)
          let o ← silent (obj t)
          sub target (lower o.rt = py!"declare")
          silent (consume load lastSec)
          genRowsL files sub f load isDecl dir (n + 1) lastSec rows
      else if o.joinLc = py!"root.section" then do
        let x ← silent (M.lift fun s => resolveSection s t)
        yieldWithArgsL f n load isDecl x
        genRowsL files sub f load isDecl dir (n + 1) x rows
      else do
        yieldWithArgsL f n load isDecl t
        genRowsL files sub f load isDecl dir (n + 1) lastSec rows

/-- `generate_terms`, metatab/parser.py:301-409, as in `gen`. -/
def genL (files : Files) (nm : Naming) (load : Bool) : Nat → Bool → Str → Source → List (List Str) → LogM Built Unit
  | 0, _, _, _, _ => silent (M.raise .recursionError)
  | fuel + 1, isDecl, dir, f, rows => do
    let s ← silent M.get
    let _ ← genRowsL files (fun target d => do
      match files.rows target with
      | none => silent (M.raise .includeError)
      | some rows' => genL files nm load fuel d [] (nm.source target) rows') f load isDecl dir 1 s.root rows

/-- `load_terms(TermParser(rows, doc=self))`, metatab/doc.py:79-82, 464-512, as in `parseRows`. -/
def parseRowsL (files : Files) (nm : Naming) (fuel : Nat) (path : Str) (rows : List (List Str)) : LogM Built Unit := do
  silent (M.modify fun s => { s with p := initP s.root })
  genL files nm true fuel false (dirname path) (nm.top path) rows
  silent finishLoad

end Metatab
