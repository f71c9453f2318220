import Verif.Model.Parser
import Verif.Model.Version
import Verif.Model.Clean
/-! # Histories of operations on a document

A client holds references to objects that exist and calls methods on them. A call that raises leaves the state it had reached. -/
namespace Metatab
open Py

/-- The calls a client can make on a document, its sections and terms. Objects are referred to by number. -/
inductive Op
  /-- `load_terms` of a parser over rows, metatab/doc.py:464-512 -/
  | parse (files : Files) (fuel : Nat) (path : Str) (rows : List (List Str))
  /-- metatab/doc.py:157-176 -/
  | loadDeclarations (files : Files) (fuel : Nat) (decls : List Str)
  /-- metatab/doc.py:260-270 -/
  | newSection (name : Str) (params : List Str)
  /-- metatab/doc.py:272-277 -/
  | getOrNewSection (name : Str) (params : List Str)
  /-- metatab/doc.py:243-254 -/
  | addSection (x : Nat)
  /-- metatab/doc.py:317-327 -/
  | delSection (name : Str)
  /-- metatab/doc.py:288-305 -/
  | sortSections (order : List Str)
  /-- metatab/doc.py:178-206 -/
  | docAddTerm (t : Nat)
  /-- metatab/doc.py:224-241 -/
  | removeTerm (t : Nat)
  /-- `Term(...)` of the default or a registered class, metatab/terms.py:37-104 -/
  | create (cls : Cls) (term : Str) (value : Val) (args : List Str) (parent sec : Option Nat)
  /-- metatab/terms.py:764-772 -/
  | newTerm (x : Nat) (term : Str) (value : Val) (kw : List (Str × Val))
  /-- metatab/terms.py:788-802 -/
  | getOrNewTerm (x : Nat) (term : Str) (value : Val) (kw : List (Str × Val))
  /-- `add_term` and `move_term`, metatab/terms.py:744-762 -/
  | sectionAddTerm (x t : Nat)
  /-- metatab/terms.py:833-842 -/
  | sectionRemoveTerm (x t : Nat)
  /-- metatab/terms.py:844-849 -/
  | cleanSection (x : Nat)
  /-- metatab/terms.py:805-830 -/
  | setTerms (x : Nat) (ts : List Nat) (kw : List (Str × Val × List (Str × Val)))
  /-- metatab/terms.py:851-876 -/
  | sortByTerm (x : Nat) (order : Option (List Str))
  /-- metatab/terms.py:724-733 -/
  | addArg (x : Nat) (arg : Str) (pre : Bool)
  /-- metatab/terms.py:735-742 -/
  | removeArg (x : Nat) (arg : Str)
  /-- metatab/terms.py:886-892 -/
  | sectionDelItem (x : Nat) (item : Str)
  /-- metatab/terms.py:173-191 -/
  | newChild (t : Nat) (term : Str) (value : Val) (kw : List (Str × Val))
  /-- metatab/terms.py:254-281 -/
  | getOrNewChild (t : Nat) (term : Str) (value : Val) (kw : List (Str × Val))
  /-- metatab/terms.py:193-197 -/
  | removeChild (t c : Nat)
  /-- metatab/terms.py:166-171 -/
  | addChild (t c : Nat)
  /-- `t[item] = value`, metatab/terms.py:300-317, 882-884 -/
  | setItem (t : Nat) (item : Str) (value : Val)
  /-- `t.value = v` -/
  | setValue (t : Nat) (v : Val)
  /-- `t.section = v`, metatab/terms.py:110-119, 357-379 -/
  | setSection (t : Nat) (v : Option Nat)
  /-- metatab/parser.py:176-186 -/
  | registerClass (name : Str) (c : Cls)
  /-- metatab/parser.py:188-200 -/
  | unregisterClass (name : Str)
  /-- metatab/doc.py:571-583 -/
  | ensureIdentifier
  /-- metatab/doc.py:598-644 -/
  | updateVersion
  /-- metatab/doc.py:646-697 -/
  | updateName (force create report : Bool) (mod : ModVer)
  /-- metatab/doc.py:119-131 -/
  | asVersion (v : ModVer)
  /-- metatab/doc.py:520-539 -/
  | cleanse
  /-- metatab/doc.py:541-569 -/
  | cleanUnused
  /-- `t.item = value`, metatab/terms.py:357-383, where `given` are the attributes that the object was given before -/
  | setAttr (given : Dict Val) (t : Nat) (item : Str) (value : Val)

/-- An object that exists. -/
def St.isObj (s : St) (t : Nat) : Prop := t < s.next
/-- A section object that exists. -/
def St.isSec (s : St) (x : Nat) : Prop := x < s.next ∧ (s.heap x).cls.isSection = true

/-- The references of a call exist and have the right kind. -/
def Op.valid (s : St) : Op → Prop
  | .parse .. | .loadDeclarations .. | .newSection .. | .getOrNewSection .. | .delSection _ | .sortSections _ | .registerClass ..
  | .unregisterClass _ | .ensureIdentifier | .updateVersion | .updateName .. | .asVersion _ | .cleanse | .cleanUnused => True
  | .addSection x | .cleanSection x | .sortByTerm x _ | .addArg x _ _ | .removeArg x _ | .sectionDelItem x _ | .newTerm x _ _ _
  | .getOrNewTerm x _ _ _ => s.isSec x
  | .docAddTerm t | .removeTerm t | .newChild t _ _ _ | .getOrNewChild t _ _ _ | .setItem t _ _ | .setValue t _
  | .setAttr _ t _ _ => s.isObj t
  | .sectionAddTerm x t | .sectionRemoveTerm x t => s.isSec x ∧ s.isObj t
  | .setTerms x ts _ => s.isSec x ∧ ∀ t ∈ ts, s.isObj t
  | .removeChild t c | .addChild t c => s.isObj t ∧ s.isObj c
  | .create cls _ _ _ parent sec => cls.isSection = false ∧ (∀ q, parent = some q → s.isObj q) ∧ (∀ x, sec = some x → s.isSec x)
  | .setSection t v => s.isObj t ∧ ∀ x, v = some x → s.isSec x

/-- Execute a call and drop its result. -/
def Op.run : Op → M Unit
  | .parse fs f p rows => parseRows fs f p rows
  | .loadDeclarations fs f ds => Metatab.loadDeclarations fs f ds
  | .newSection n ps => do let _ ← Metatab.newSection n ps
  | .getOrNewSection n ps => do let _ ← Metatab.getOrNewSection n ps
  | .addSection x => do let _ ← Metatab.addSection x
  | .delSection n => Metatab.delSection n
  | .sortSections o => Metatab.sortSections o
  | .docAddTerm t => Metatab.docAddTerm t
  | .removeTerm t => Metatab.removeTerm t
  | .create c n v as q x => do let _ ← newTermObj c n v as q x
  | .newTerm x n v kw => do let _ ← Metatab.newTerm x n v kw
  | .getOrNewTerm x n v kw => do let _ ← Metatab.getOrNewTerm x n v kw
  | .sectionAddTerm x t => Metatab.sectionAddTerm x t
  | .sectionRemoveTerm x t => Metatab.sectionRemoveTerm x t
  | .cleanSection x => Metatab.cleanSection x
  | .setTerms x ts kw => Metatab.setTerms x ts kw
  | .sortByTerm x o => Metatab.sortByTerm x o
  | .addArg x a p => Metatab.addArg x a p
  | .removeArg x a => Metatab.removeArg x a
  | .sectionDelItem x i => Metatab.sectionDelItem x i
  | .newChild t n v kw => do let _ ← Metatab.newChild t n v kw
  | .getOrNewChild t n v kw => do let _ ← Metatab.getOrNewChild t n v kw
  | .removeChild t c => Metatab.removeChild t c
  | .addChild t c => Metatab.addChild t c
  | .setItem t i v => setItemAny t i v
  | .setValue t v => upd t fun o => { o with value := v }
  | .setSection t v => Metatab.setSection t v
  | .registerClass n c => Metatab.registerClass n c
  | .unregisterClass n => Metatab.unregisterClass n
  | .ensureIdentifier => Metatab.ensureIdentifier
  | .updateVersion => do let _ ← Metatab.updateVersion
  | .updateName f c r m => do let _ ← Metatab.updateName f c r m
  | .asVersion v => do let _ ← Metatab.asVersion v
  | .cleanse => Metatab.cleanse
  | .cleanUnused => Metatab.cleanUnused
  | .setAttr x t i v => do let _ ← Metatab.setAttr x t i v

/-- The state after a computation, whether it returned or raised. -/
def after {α : Type} (m : M α) (s : St) : St :=
  match m s with
  | .ok _ s' => s'
  | .err _ s' => s'

/-- The states a client can bring a new document into with the calls admitted by `allow`. Calls may raise. -/
inductive Reach (allow : Op → Prop) : St → Prop
  | new (env : Env) (classes : Dict Cls) : Reach allow (newDoc env classes)
  | step {s : St} (op : Op) (h : Reach allow s) (ha : allow op) (hv : op.valid s) : Reach allow (after op.run s)

end Metatab
