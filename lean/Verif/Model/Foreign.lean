import Verif.Model.History
/-! # Terms handed from one document to another

`MetatabDoc.add_term` takes terms of other documents, see the comment at metatab/doc.py:249-250. Here the documents of a process share the
heap of objects. -/
namespace Metatab
open Py

/-- Documents with their objects on one heap. The fields `heap` and `next` of the documents in the list are of no account. `owner` is the
attribute `doc` of section objects, as a position in the list; `doc` of other objects follows from it wherever the calls below use it. -/
structure Shared where
  heap : Nat → Obj
  next : Nat
  docs : List St
  owner : Nat → Nat

/-- No documents yet. -/
def Shared.start : Shared := ⟨fun _ => Obj.blank, 0, [], fun _ => 0⟩

/-- A document together with the objects. -/
def Shared.view (w : Shared) (b : Nat) : Option St := w.docs[b]?.map fun s => { s with heap := w.heap, next := w.next }

/-- The state after a call on document `b` reached `s`. Sections made by the call belong to the document, metatab/terms.py:680. -/
def Shared.put (w : Shared) (b : Nat) (s : St) : Shared :=
  { heap := s.heap, next := s.next, docs := w.docs.set b s, owner := fun i => if w.next ≤ i then b else w.owner i }

/-- `MetatabDoc()`, metatab/doc.py:36-70: a new document with a root section of its own. -/
def Shared.opened (w : Shared) (env : Env) : Shared :=
  { heap := fun i => if i = w.next then rootObj else w.heap i, next := w.next + 1,
    docs := w.docs ++ [{ newDoc env with sections := [(py!"root", w.next)], root := w.next, p := initP w.next }],
    owner := fun i => if i = w.next then w.docs.length else w.owner i }

/-- A call on document `b` with objects of its own. -/
def Shared.call (w : Shared) (b : Nat) (op : Op) : Shared :=
  match w.view b with
  | some s => w.put b (after op.run s)
  | none => w

/-- The section that `add_section(x)` of the document answers with, metatab/doc.py:251-254. -/
def localSec (s : St) (x : Nat) : Nat :=
  match (s.heap x).value with
  | .str n => (s.sections.get? (lower n)).getD x
  | _ => x

/-- `add_term` of document `b` hands the section of a root-level term that it does not list to the document, before anything else is asked:
`s.doc = self`, metatab/doc.py:181-182, 192-193, 245. -/
def Shared.handOver (w : Shared) (b t : Nat) (listed : List Nat) : Shared :=
  match (w.heap t).sec with
  | some x => if t ∉ listed ∧ lower (w.heap t).pt = ROOT then { w with owner := fun i => if i = x then b else w.owner i } else w
  | none => w

/-- `docs[b].add_term(t)`, metatab/doc.py:178-206. The section that lists the term adds it to its own document (metatab/terms.py:750); the
model stops when that is not `b`. -/
def Shared.addTerm (w : Shared) (b t : Nat) : Except Err Unit × Shared :=
  match w.view b with
  | none => (.error .indexError, w)
  | some s =>
    let w1 := w.handOver b t s.terms
    if (match (w.heap t).sec with | some x => w1.owner (localSec s x) == b | none => true) then
      match docAddTerm t s with
      | .ok _ s' => (.ok (), w1.put b s')
      | .err e s' => (.error e, w1.put b s')
    else (.error .unmodelled, w)

/-- `x.new_term(name, value)` of a section, metatab/terms.py:764-772: the term goes to the document that the section belongs to. -/
def Shared.newTerm (w : Shared) (x : Nat) (name : Str) (value : Val) : Shared :=
  match w.view (w.owner x) with
  | some s => w.put (w.owner x) (after (Metatab.newTerm x name value []) s)
  | none => w

end Metatab
