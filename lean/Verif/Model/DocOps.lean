import Verif.Model.TermOps
/-! # Sections and documents (metatab/doc.py, `SectionTerm` in metatab/terms.py) -/
namespace Metatab
open Py

/-- `MetatabDoc.get_section(name)`, metatab/doc.py:279-286. -/
def getSection (s : St) (name : Str) : Except Err Nat :=
  match s.sections.get? (lower name) with
  | some x => .ok x
  | none => .error .keyError

/-- `name in doc`, metatab/doc.py:329-331. -/
def docContains (s : St) (name : Str) : Bool := s.sections.has (lower name)

/-- `MetatabDoc.new_section`, metatab/doc.py:260-270. -/
def newSection (name : Str) (params : List Str := []) : M Nat := do
  let x ← newSectionObj (py!"Root.Section") (.str name) params
  M.modify fun s => { s with sections := s.sections.set (lower name) x }
  let s ← M.get
  match s.declSecs.get? (lower name) with
  | some d => upd x fun o => { o with args := d.args }
  | none => pure ()
  return x

/-- `MetatabDoc.get_or_new_section`, metatab/doc.py:272-277: the test uses the name as given, the table is keyed by lower-case names. -/
def getOrNewSection (name : Str) (params : List Str := []) : M Nat := do
  let s ← M.get
  if !s.sections.has name then do
    let x ← newSectionObj (py!"Root.Section") (.str name) params
    M.modify fun s => { s with sections := s.sections.set (lower name) x }
  M.lift fun s => match s.sections.get? (lower name) with
    | some x => .ok x
    | none => .error .keyError

/-- The loop of `MetatabDoc.__delitem__`: `self.terms.remove(t)` raises `ValueError` for an absent term, metatab/doc.py:321-322. -/
def removeAll : List Nat → M Unit
  | [] => pure ()
  | t :: ts => do
    let s ← M.get
    if t ∈ s.terms then do
      M.modify fun s => { s with terms := s.terms.erase t }
      removeAll ts
    else M.raise .valueError

/-- `MetatabDoc.__delitem__`, metatab/doc.py:317-327. -/
def delSection (name : Str) : M Unit := do
  let s ← M.get
  match s.sections.get? name with
  | some x => removeAll (s.heap x).terms
  | none => pure ()
  M.modify fun s => { s with sections := s.sections.del (lower name) }

/-- The new table of `MetatabDoc.sort_sections`, metatab/doc.py:297-301. -/
def sortedSections (d : Dict Nat) (order : List Str) : Dict Nat :=
  let lc := order.map lower
  let first : Dict Nat := Dict.update [] (lc.filterMap fun k => (d.get? k).map fun v => (k, v))
  Dict.update first (d.filter fun kv => kv.1 ∉ lc)

/-- `MetatabDoc.sort_sections`, metatab/doc.py:288-305. -/
def sortSections (order : List Str) : M Unit := do
  let s ← M.get
  let d := sortedSections s.sections order
  M.assert (s.sections.length = d.length)
  M.modify fun s => { s with sections := d }

/-- Python's `<=` on strings. -/
def strLe : Str → Str → Bool
  | [], _ => true
  | _ :: _, [] => false
  | a :: as, b :: bs => a.toNat < b.toNat || (a.toNat == b.toNat && strLe as bs)

/-- Insert before the first element whose key is not smaller. -/
def insertBy {α : Type} (f : α → Str) (a : α) : List α → List α
  | [] => [a]
  | b :: l => if strLe (f a) (f b) then a :: b :: l else b :: insertBy f a l

/-- `sorted(l, key=f)`: a stable sort. Any stable sort gives the same list, so the algorithm does not matter. -/
def sortBy {α : Type} (f : α → Str) (l : List α) : List α := l.foldr (insertBy f) []

/-- `sorted(terms, key=lambda e: e.join_lc)`, metatab/terms.py:861, 874. -/
def sortByName (h : Nat → Obj) (ts : List Nat) : List Nat := sortBy (fun t => (h t).joinLc) ts

/-- The inner loop over the remaining terms for one name of the order, metatab/terms.py:868-872: the matching ones are moved. -/
def takeMatching (h : Nat → Obj) (name : Str) : List Nat → Except Err (List Nat × List Nat)
  | [] => .ok ([], [])
  | t :: ts => do
    let b ← termIs (h t).pt (h t).rt name
    let (m, r) ← takeMatching h name ts
    return if b then (t :: m, r) else (m, t :: r)

/-- The outer loop over the names of the order, metatab/terms.py:867-874. -/
def orderedTerms (h : Nat → Obj) : List Str → List Nat → Except Err (List Nat)
  | [], rest => .ok (sortByName h rest)
  | n :: ns, rest => do
    let (m, r) ← takeMatching h n rest
    let more ← orderedTerms h ns r
    return m ++ more

/-- `SectionTerm.sort_by_term`, metatab/terms.py:851-876. -/
def sortByTerm (x : Nat) (order : Option (List Str)) : M Unit := do
  let s ← M.get
  let l ← match order with
    | none => pure (sortByName s.heap (s.heap x).terms)
    | some ns => M.lift fun s => orderedTerms s.heap ns (s.heap x).terms
  upd x fun o => { o with terms := l }

/-- The list comprehension `[arg_.strip() for arg_ in self.args if arg_.strip()]`, metatab/terms.py:727, 738. -/
def cleanArgs (args : List Str) : List Str := (args.map strip).filter (· ≠ [])

/-- New column list of `SectionTerm.add_arg`, metatab/terms.py:724-733. -/
def addArgList (args : List Str) (arg : Str) (pre : Bool) : List Str :=
  let l := cleanArgs args
  if lower arg ∉ l.map lower then (if pre then title arg :: l else l ++ [title arg]) else l

/-- New column list of `SectionTerm.remove_arg`, metatab/terms.py:735-742: for each matching element of a copy, the first equal element
is removed. -/
def removeArgList (args : List Str) (arg : Str) : List Str :=
  let l := cleanArgs args
  (l.filter fun e => lower e = lower arg).foldl (fun acc e => acc.erase e) l

/-- `SectionTerm.add_arg`, metatab/terms.py:724-733. -/
def addArg (x : Nat) (arg : Str) (pre : Bool := false) : M Unit := upd x fun o => { o with args := addArgList o.args arg pre }
/-- `SectionTerm.remove_arg`, metatab/terms.py:735-742. -/
def removeArg (x : Nat) (arg : Str) : M Unit := upd x fun o => { o with args := removeArgList o.args arg }

/-- `SectionTerm.remove_term`, metatab/terms.py:833-842. -/
def sectionRemoveTerm (x t : Nat) : M Unit := do
  upd x fun o => { o with terms := o.terms.erase t }
  removeTerm t

/-- `SectionTerm.clean`, metatab/terms.py:844-849. -/
def cleanSection (x : Nat) : M Unit := do
  let o ← obj x
  forL removeTerm o.terms

/-- What `self.delete_term(item)` raises, metatab/terms.py:890: there is no such method, so `Term.__getattr__` (metatab/terms.py:326-354) looks for a
term of this name in the section; the value of one cannot be called. -/
def deleteTermError (s : St) (x : Nat) : Err :=
  match sectionFindFirst s x (py!"delete_term") with
  | .ok (some _) => .typeError
  | .ok none | .error .keyError => .attributeError
  | .error e => e

/-- `SectionTerm.__delitem__`, metatab/terms.py:886-892. -/
def sectionDelItem (x : Nat) (item : Str) : M Unit := do
  let s ← M.get
  if (s.heap x).terms.any fun t => lower (s.heap t).raw == lower item then M.raise (deleteTermError s x)

/-- `TermParser.register_term_class`, metatab/parser.py:176-186. -/
def registerClass (name : Str) (c : Cls) : M Unit := M.modify fun s => { s with classes := s.classes.set (lower name) c }
/-- `TermParser.unregister_term_class`, metatab/parser.py:188-200. -/
def unregisterClass (name : Str) : M Unit := M.modify fun s => { s with classes := s.classes.del (lower name) }

/-- `SectionTerm.set_terms`, metatab/terms.py:805-830: first the term objects, then the named values with their properties. -/
def setTerms (x : Nat) (ts : List Nat) (kw : List (Str × Val × List (Str × Val))) : M Unit := do
  forL (sectionAddTerm x) ts
  forL (fun e => do let _ ← newTerm x e.1 e.2.1 e.2.2) kw

/-- The registry before any registration, metatab/parser.py:37-40. -/
def initClasses : Dict Cls := [(py!"root.section", .section), (py!"root.root", .root)]

/-- The declarations every parser starts with, metatab/parser.py:147-157. -/
def initDeclTerms : Dict DTerm :=
  [ (py!"root.section", ⟨[(py!"termvaluename", py!"name")], none⟩),
    (py!"root.synonym", ⟨[(py!"termvaluename", py!"term"), (py!"childpropertytype", py!"sequence")], none⟩),
    (py!"root.declareterm", ⟨[(py!"termvaluename", py!"term"), (py!"childpropertytype", py!"sequence")], none⟩),
    (py!"root.declaresection", ⟨[(py!"termvaluename", py!"section"), (py!"childpropertytype", py!"sequence")], none⟩),
    (py!"root.declarevalueset", ⟨[(py!"termvaluename", py!"name"), (py!"childpropertytype", py!"sequence")], none⟩),
    (py!"declarevalueset.value", ⟨[(py!"termvaluename", py!"value"), (py!"childpropertytype", py!"sequence")], none⟩) ]

/-- The sections every parser starts with, metatab/parser.py:159-164. -/
def initDeclSecs : Dict DSec :=
  [(py!"root", ⟨[], []⟩), (py!"declaredterms", ⟨[], []⟩), (py!"declaredsections", ⟨[], []⟩)]

/-- The root section object, `RootSectionTerm.__init__`, metatab/terms.py:981-982. -/
def rootObj : Obj :=
  { Obj.blank with cls := .root, raw := py!"Root.Root", pt := py!"root", rt := py!"root", value := .str (py!"Root") }

/-- The parser state after `TermParser.__init__` and the first lines of `__iter__` (metatab/parser.py:67-82, 413-420). -/
def initP (root : Nat) : PSt :=
  { paramMap := [], declTerms := initDeclTerms, declSecs := initDeclSecs, lastParent := ROOT,
    lastMap := [(ELIDED, root), (py!"root", root)], defTvn := py!"@value", lastSec := root }

/-- A new document without declarations or input: `MetatabDoc.__init__`, metatab/doc.py:34-60. `classes` is the class registry,
which is shared by all documents of the process. -/
def newDoc (env : Env) (classes : Dict Cls := initClasses) : St :=
  { env := env, heap := fun i => if i = 0 then rootObj else Obj.blank, next := 1, terms := [], sections := [(py!"root", 0)], root := 0,
    declTerms := [], declSecs := [], superTerms := [], derived := [], classes := classes, p := initP 0 }

end Metatab
