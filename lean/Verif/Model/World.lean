import Verif.Model.History
/-! # Several documents in one process

The table of registered classes is an attribute of the class `TermParser`, so all documents of a process share one. Everything else that
the calls of `Op` change belongs to one document. Calls that mix objects of different documents are not modelled. -/
namespace Metatab
open Py

/-- The documents of a process and the registry that they share, `TermParser.term_classes`, metatab/parser.py:37-40. The field `classes`
of a document in the list is of no account. -/
structure Proc where
  docs : List St
  classes : Dict Cls

/-- A process that has imported the package, metatab/parser.py:37-40. -/
def Proc.start : Proc := ⟨[], initClasses⟩

/-- A document as its calls see it: they look classes up in the registry, metatab/doc.py:211-220, metatab/parser.py:203-217. -/
def Proc.doc (w : Proc) (i : Nat) : Option St := w.docs[i]?.map fun s => { s with classes := w.classes }

/-- `MetatabDoc()`, metatab/doc.py:36-77. -/
def Proc.opened (w : Proc) (env : Env) : Proc := { w with docs := w.docs ++ [newDoc env w.classes] }

/-- A call on one of the documents. What it registers is registered for all, metatab/parser.py:176-200, metatab/doc.py:144-155. -/
def Proc.call (w : Proc) (i : Nat) (op : Op) : Proc :=
  match w.doc i with
  | some s => ⟨w.docs.set i (after op.run s), (after op.run s).classes⟩
  | none => w

/-- One call after the other. -/
def Proc.run (w : Proc) (calls : List (Nat × Op)) : Proc := calls.foldl (fun w c => w.call c.1 c.2) w

end Metatab
