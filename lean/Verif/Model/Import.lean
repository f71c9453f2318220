import Verif.Model.TermOps
/-! # Classes registered by dotted name

`register_term_class` takes a class or its dotted name; the name is imported whenever the class is looked up. What Python's `__import__`
and `getattr` do is a parameter. Importing a module for the first time runs its code; here it has no other effect than its result. -/
namespace Metatab
open Py

/-- What looking a class up may raise: the unpacking at metatab/util.py:214 (`ValueError`), `__import__` and `getattr`. `other n` stands for
whatever else the code of a module raises. -/
inductive ImpErr | valueError | importError | attributeError | keyError | other (n : Nat)
  deriving DecidableEq

/-- What may be registered, metatab/parser.py:177-186: a class, or the name of one. -/
inductive ClassRef (ω : Type) | cls (c : ω) | name (n : Str)
  deriving DecidableEq

/-- The modules of the process: `__import__`, which gives the top-level package, and `getattr`. -/
structure Modules (ω : Type) where
  imp : Str → Except ImpErr ω
  attr : ω → Str → Except ImpErr ω

/-- The loop of `import_name_or_class`, metatab/util.py:221-223. -/
def descend {ω : Type} (ms : Modules ω) : ω → List Str → Except ImpErr ω
  | x, [] => .ok x
  | x, c :: cs => do descend ms (← ms.attr x c) cs

/-- The parts of `name.rsplit('.', 1)`, metatab/util.py:214: what is before the last dot; `none` without dot, where the unpacking fails. -/
def beforeLastDot : Str → Option Str
  | [] => none
  | c :: cs =>
    match beforeLastDot cs with
    | some m => some (c :: m)
    | none => if c = '.' then some [] else none

/-- `import_name_or_class`, metatab/util.py:208-226. -/
def importNameOrClass {ω : Type} (ms : Modules ω) : ClassRef ω → Except ImpErr ω
  | .cls c => .ok c
  | .name n =>
    match beforeLastDot n with
    | none => .error .valueError
    | some m => do
      let top ← ms.imp m
      descend ms top ((splitOn '.' n).drop 1)

/-- One `try` of `get_term_class`, metatab/doc.py:212-215: `none` when a `KeyError` was raised, by the table or by the import. -/
def tryClass {ω : Type} (ms : Modules ω) (classes : Dict (ClassRef ω)) (name : Str) : Option (Except ImpErr ω) :=
  match classes.get? name with
  | none => none
  | some r =>
    match importNameOrClass ms r with
    | .error .keyError => none
    | x => some x

/-- `get_term_class`, metatab/doc.py:208-222 and metatab/parser.py:203-217, with the table of super-terms. -/
def importTermClass {ω : Type} (ms : Modules ω) (classes : Dict (ClassRef ω)) (supers : Dict Str) (term : ω) (name : Str) : Except ImpErr ω :=
  match tryClass ms classes (lower name) with
  | some x => x
  | none =>
    match supers.get? (lower name) with
    | none => .ok term
    | some sup => (tryClass ms classes sup).getD (.ok term)

end Metatab
