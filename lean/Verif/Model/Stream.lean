import Verif.Model.Place
/-! # Running the parser of a document again and printing its terms (metatab/cli.py:131-133, metatab/terms.py:656-666)

`metatab -t` iterates over `doc._term_parser`, the parser that has already filled the document. The second run starts with new local
variables (metatab/parser.py:412-419), but the columns (`_param_map`) and the declarations are attributes of the parser
(metatab/parser.py:127-158) and are still there. The terms are yielded to the loop of the command, which prints them, and not to
`load_terms`. -/
namespace Metatab
open Py

/-- Code that prints: the lines printed, and how it ends. -/
abbrev PrintM := LogM Str
/-- `print(t)`. -/
def printLine (t : Str) : PrintM Unit := fun s => ([t], .ok () s)

/-- `str(section.name)` in `Term.__str__`, metatab/terms.py:658. -/
def secLabel (s : St) (t : Nat) : Option Str :=
  match (s.heap t).sec with
  | none => some (py!"None")
  | some x => (s.heap x).value.toStr

/-- `Term.__str__`, metatab/terms.py:656-666, after the `file_ref()` at the front. Values that are objects are not modelled. -/
def termStr (s : St) (t : Nat) : Except Err Str :=
  match secLabel s t, (s.heap t).value.toStr with
  | some n, some v =>
    if (s.heap t).pt = ELIDED then .ok (n ++ py!":." ++ (s.heap t).rt ++ '=' :: v)
    else .ok (n ++ ':' :: (s.heap t).pt ++ '.' :: (s.heap t).rt ++ '=' :: v)
  | _, _ => .error .unmodelled

/-- `print(t)` for a term, metatab/cli.py:133. `pl` is where the term was read. -/
def printTerm (pl : Option Place) (t : Nat) : PrintM Unit := do
  let l ← silent (M.lift fun s => termStr s t)
  printLine (frontOf pl ++ l)

/-- What happens when `generate_terms` yields `t` in the second run: metatab/parser.py:431-520, and what is yielded is printed. -/
def consumeP (pl : Option Place) (t : Nat) : PrintM Unit := do
  let y ← silent (iterBody t)
  if y then printTerm pl t

/-- The loop over the argument cells of row `n`, metatab/parser.py:391-403. -/
def argLoopP (f : Source) (n : Nat) (isDecl : Bool) (t : Nat) : Nat → List Str → PrintM Unit
  | _, [] => pure ()
  | col, v :: vs => do
    if strip v ≠ [] then do
      let c ← silent (argTerm isDecl t col v)
      consumeP (some ⟨f.file, n, col + 2⟩) c
    argLoopP f n isDecl t (col + 1) vs

/-- Yield a term and then its argument cells, metatab/parser.py:387-403. -/
def yieldWithArgsP (f : Source) (n : Nat) (isDecl : Bool) (pl : Option Place) (t : Nat) : PrintM Unit := do
  consumeP pl t
  let o ← silent (obj t)
  if o.joinLc = py!"root.section" ∨ o.joinLc = py!"root.header" then pure ()
  else argLoopP f n isDecl t 0 o.args

/-- The loop of `generate_terms` over the rows, metatab/parser.py:322-405, as in `genRows`. `old` tells the places of the objects that were
there before the second run, `n` is `line_n` of the next row, and the last section comes with its place. The places of what is built are those
of `rowTermL` and `argTermL`. -/
def genRowsP (files : Files) (sub : Str → Bool → PrintM Unit) (old : Nat → Option Place) (f : Source) (isDecl : Bool) (dir : Str) :
    Nat → Nat → Option Place → List (List Str) → PrintM Nat
  | _, lastSec, _, [] => pure lastSec
  | n, lastSec, lastPl, row :: rows =>
    if skipRow row then genRowsP files sub old f isDecl dir (n + 1) lastSec lastPl rows
    else do
      let t ← silent (rowTerm isDecl row)
      let o ← silent (obj t)
      let pl : Place := ⟨f.file, n, if o.cls.isSection then n else 1⟩
      if o.joinLc = py!"root.include" ∨ o.joinLc = py!"root.declare" then do
        let target ← silent (M.lift fun _ => resolveTarget files dir o)
        if target = f.ref then silent (M.raise .includeError)
        else do
          consumeP (some pl) t
          let o ← silent (obj t)
          sub target (lower o.rt = py!"declare")
          consumeP lastPl lastSec
          genRowsP files sub old f isDecl dir (n + 1) lastSec lastPl rows
      else if o.joinLc = py!"root.section" then do
        let x ← silent (M.lift fun s => resolveSection s t)
        let px := if x = t then some pl else old x
        yieldWithArgsP f n isDecl px x
        genRowsP files sub old f isDecl dir (n + 1) x px rows
      else do
        yieldWithArgsP f n isDecl (some pl) t
        genRowsP files sub old f isDecl dir (n + 1) lastSec lastPl rows

/-- `generate_terms`, metatab/parser.py:301-409, as in `genL`. -/
def genP (files : Files) (nm : Naming) (old : Nat → Option Place) : Nat → Bool → Str → Source → List (List Str) → PrintM Unit
  | 0, _, _, _, _ => silent (M.raise .recursionError)
  | fuel + 1, isDecl, dir, f, rows => do
    let s ← silent M.get
    let _ ← genRowsP files (fun target d => do
      match files.rows target with
      | none => silent (M.raise .includeError)
      | some rows' => genP files nm old fuel d [] (nm.source target) rows') old f isDecl dir 1 s.root (some rootPlace) rows

/-- The state in which the parser of a document starts when it is run again: new local variables (metatab/parser.py:412-419), the
attributes as the first run left them. -/
def rerunP (s : St) : PSt :=
  { initP s.root with paramMap := s.p.paramMap, declTerms := s.p.declTerms, declSecs := s.p.declSecs }

/-- `for t in doc._term_parser: print(t)`, metatab/cli.py:131-133: the root section comes first (metatab/parser.py:421). `l` lists what the
first run built. -/
def printAgain (files : Files) (nm : Naming) (l : List Built) (fuel : Nat) (path : Str) (rows : List (List Str)) : PrintM Unit := do
  silent (M.modify fun s => { s with p := rerunP s })
  let s ← silent M.get
  printTerm (some rootPlace) s.root
  genP files nm (fun x => if x = s.root then some rootPlace else placeIn l x) fuel false (dirname path) (nm.top path) rows

end Metatab
