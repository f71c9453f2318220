import Verif.Model.Where
/-! # What an `IncludeError` carries (metatab/parser.py:219-233, 301-409, 521-525; metatab/exc.py:29-32)

`genE` reads rows as `genL` does (`genE_run`). It lists in addition the terms that are yielded, since the handlers of `generate_terms` look
at the loop variable `t`, and keeps the message and the attribute `term` of an `IncludeError`. -/
namespace Metatab
open Py

/-- The statement that raises an `IncludeError`. -/
inductive Cause
  /-- metatab/parser.py:294-295 -/
  | noPath (name : Str)
  /-- metatab/resolver.py:18 -/
  | noDecl (name : Str)
  /-- metatab/parser.py:350-351 -/
  | loop (target : Str)
  /-- metatab/parser.py:369-372 -/
  | unreadable (target : Str)
deriving DecidableEq, Repr

/-- The message with which it is raised. `os` tells the text of the `OSError` or download error for a target; a target is printed as its
text. -/
def Cause.text (os : Str → Str) : Cause → Str
  | .noPath n => py!"Can't include '" ++ n ++ py!"' because don't know current path "
  | .noDecl n => n
  | .loop t => py!"Include loop for '" ++ t ++ py!"' "
  | .unreadable t => py!"Failed to Include; " ++ os t

/-- An `IncludeError`. `term` is the attribute, `none` both for `None` and for an attribute that is not set; `msg` is `str(e)`. The other
fields are not part of the exception: `why` is where it comes from, `line` the number of the row that was being read, and `within` the
generators it has passed, the innermost first. -/
structure Report where
  term : Option Nat
  msg : Str
  why : Cause
  line : Nat
  within : List Source

/-- What `generate_terms` does: build an object, or yield one. -/
inductive Ev
  | built (b : Built)
  | yielded (t : Nat)
deriving DecidableEq, Repr

/-- How code ends: with a value, with an `IncludeError` or with another exception. -/
inductive Out (α : Type) | ok (a : α) (s : St) | failed (r : Report) (s : St) | err (e : Err) (s : St)

/-- Code of a generator: what it builds and yields, and how it ends. -/
def GenM (α : Type) := St → List Ev × Out α

instance : Monad GenM where
  pure a := fun s => ([], .ok a s)
  bind m f := fun s =>
    match m s with
    | (l, .ok a s') => (l ++ (f a s').1, (f a s').2)
    | (l, .failed r s') => (l, .failed r s')
    | (l, .err e s') => (l, .err e s')

def Out.ofRes {α : Type} : Res α → Out α
  | .ok a s => .ok a s
  | .err e s => .err e s

/-- Code that builds and yields nothing and raises no `IncludeError` (`consume_never`). -/
def still {α : Type} (m : M α) : GenM α := fun s => ([], .ofRes (m s))
/-- Code that builds objects. -/
def building {α : Type} (m : LogM Built α) : GenM α := fun s => ((m s).1.map .built, .ofRes (m s).2)
/-- `raise IncludeError(...)`, while row `n` is read. -/
def failWith {α : Type} (os : Str → Str) (n : Nat) (c : Cause) : GenM α := fun s => ([], .failed ⟨none, c.text os, c, n, []⟩ s)
/-- `yield t`. -/
def give (load : Bool) (t : Nat) : GenM Unit := fun s => ([.yielded t], .ofRes (consume load t s))

/-- The term yielded last. -/
def lastYield : List Ev → Option Nat
  | [] => none
  | .built _ :: l => lastYield l
  | .yielded t :: l => some ((lastYield l).getD t)

/-- The handlers around a nested generator, metatab/parser.py:365-372: `e.term = t`. The loop over the nested generator assigns to `t`
(metatab/parser.py:358), so `t` is the term of the include row only if nothing was yielded since. -/
def naming (t : Nat) (m : GenM Unit) : GenM Unit := fun s =>
  match m s with
  | (l, .failed r s') => (l, .failed { r with term := some ((lastYield l).getD t) } s')
  | x => x

/-- `"; in '{}' ".format(ref_path)`, metatab/parser.py:406. -/
def inText (f : Source) : Str := py!"; in '" ++ f.name ++ py!"' "

/-- The handler around the loop over the rows, metatab/parser.py:405-409. -/
def adding {α : Type} (f : Source) (m : GenM α) : GenM α := fun s =>
  match m s with
  | (l, .failed r s') => (l, .failed { r with msg := r.msg ++ inText f, within := r.within ++ [f] } s')
  | x => x

/-- The target of an include or declare row, metatab/parser.py:345-348, as in `resolveTarget`. -/
def resolveE (os : Str → Str) (files : Files) (dir : Str) (n : Nat) (o : Obj) : GenM Str :=
  match o.value with
  | .str v =>
    if o.joinLc = py!"root.include" then
      match findIncludeDoc dir (strip v) with
      | .ok r => pure r
      | .error _ => failWith os n (.noPath (strip v))
    else match files.decl dir (strip v) with
      | some r => pure r
      | none => failWith os n (.noDecl (strip v))
  | _ => still (M.raise .attributeError)

/-- The loop over the argument cells, metatab/parser.py:391-403, as in `argLoopL`. -/
def argLoopE (f : Source) (n : Nat) (load isDecl : Bool) (t : Nat) : Nat → List Str → GenM Unit
  | _, [] => pure ()
  | col, v :: vs => do
    if strip v ≠ [] then do
      let c ← building (argTermL f n isDecl t col v)
      give load c
    argLoopE f n load isDecl t (col + 1) vs

/-- Yield a term and then its argument cells, metatab/parser.py:387-403, as in `yieldWithArgsL`. -/
def yieldWithArgsE (f : Source) (n : Nat) (load isDecl : Bool) (t : Nat) : GenM Unit := do
  give load t
  let o ← still (obj t)
  if o.joinLc = py!"root.section" ∨ o.joinLc = py!"root.header" then pure ()
  else argLoopE f n load isDecl t 0 o.args

/-- The loop of `generate_terms` over the rows, metatab/parser.py:322-405, as in `genRowsL`. -/
def genRowsE (os : Str → Str) (files : Files) (sub : Nat → Str → Bool → GenM Unit) (f : Source) (load isDecl : Bool) (dir : Str) :
    Nat → Nat → List (List Str) → GenM Nat
  | _, lastSec, [] => pure lastSec
  | n, lastSec, row :: rows =>
    if skipRow row then genRowsE os files sub f load isDecl dir (n + 1) lastSec rows
    else do
      let t ← building (rowTermL f n isDecl row)
      let o ← still (obj t)
      if o.joinLc = py!"root.include" ∨ o.joinLc = py!"root.declare" then do
        let target ← resolveE os files dir n o
        if target = f.ref then failWith os n (.loop target)
        else do
          give load t
          let o ← still (obj t)
          naming t (sub n target (lower o.rt = py!"declare"))
          give load lastSec
          genRowsE os files sub f load isDecl dir (n + 1) lastSec rows
      else if o.joinLc = py!"root.section" then do
        let x ← still (M.lift fun s => resolveSection s t)
        yieldWithArgsE f n load isDecl x
        genRowsE os files sub f load isDecl dir (n + 1) x rows
      else do
        yieldWithArgsE f n load isDecl t
        genRowsE os files sub f load isDecl dir (n + 1) lastSec rows

/-- `generate_terms`, metatab/parser.py:301-409, as in `genL`. The file of an include is opened in the generator of the including file
(metatab/parser.py:356), within its handlers. -/
def genE (os : Str → Str) (files : Files) (nm : Naming) (load : Bool) :
    Nat → Bool → Str → Source → List (List Str) → GenM Unit
  | 0, _, _, _, _ => still (M.raise .recursionError)
  | fuel + 1, isDecl, dir, f, rows => do
    let s ← still M.get
    let _ ← adding f (genRowsE os files (fun n target d =>
      match files.rows target with
      | none => failWith os n (.unreadable target)
      | some rows' => genE os files nm load fuel d [] (nm.source target) rows') f load isDecl dir 1 s.root rows)

/-- `load_terms(TermParser(rows, doc=self))`, metatab/doc.py:79-82, 464-512, as in `parseRowsL`. -/
def parseRowsE (os : Str → Str) (files : Files) (nm : Naming) (fuel : Nat) (path : Str) (rows : List (List Str)) : GenM Unit := do
  still (M.modify fun s => { s with p := initP s.root })
  genE os files nm true fuel false (dirname path) (nm.top path) rows
  still finishLoad

/-- An entry of `TermParser.errors_as_dict`, metatab/parser.py:219-233. -/
structure ErrorEntry where
  file : Str
  row : Nat
  col : Nat
  term : Str
  error : Str
deriving DecidableEq, Repr

/-- `TermParser.errors_as_dict` after an `IncludeError`, metatab/parser.py:219-233, 523-525: the only error is the one that was raised. `place`
tells `file_name`, `row` and `col` of an object. The file name is looked up without asking whether there is a term. -/
def errorsAsDict (place : Nat → Place) (s : St) (r : Report) : Except Err (List ErrorEntry) :=
  match r.term with
  | none => .error .attributeError
  | some t => .ok [⟨(place t).file, (place t).row, (place t).col, dotJoin (s.heap t).pt (s.heap t).rt, r.msg⟩]

end Metatab
