import Verif.Model.Find
/-! # Creating, changing and removing terms (metatab/terms.py, metatab/doc.py)

The methods call each other across the two classes. They are defined here bottom-up; where a method takes `None` as a special
argument that leads to other methods, the two cases are separate definitions. -/
namespace Metatab
open Py

/-- `for x in l: f(x)`. -/
def forL {α : Type} (f : α → M Unit) : List α → M Unit
  | [] => pure ()
  | x :: xs => do f x; forL f xs

/-- Look up a property of a declaration: `decl_terms.get(name, {}).get(prop, default)`. -/
def declProp (d : Dict DTerm) (name prop default : Str) : Str :=
  match d.get? name with
  | some t => (t.props.get? prop).getD default
  | none => default

/-- `MetatabDoc.get_term_class`, metatab/doc.py:208-222. Registered dotted names are taken as the class they import to. -/
def docTermClass (s : St) (name : Str) : Cls :=
  match s.classes.get? (lower name) with
  | some c => c
  | none =>
    match s.superTerms.get? (lower name) with
    | some sup => (s.classes.get? sup).getD .term
    | none => .term

/-- `Term.__init__`, metatab/terms.py:37-104, and the `term` setter, metatab/terms.py:402-409. -/
def newTermObj (cls : Cls) (term : Str) (value : Val) (args : List Str) (parent sec : Option Nat) (col : Nat := 0)
    (isDecl : Bool := false) : M Nat := do
  let (p0, r) ← M.lift fun _ => splitTermLower term
  match parent with
  | none =>
    alloc { Obj.blank with cls := cls, raw := term, pt := p0, rt := r, value := value.mk, args := args.map strip, sec := sec,
                           col := col, isDecl := isDecl }
  | some q => do
    let po ← obj q
    let p := if p0 = ROOT then po.rt else p0
    M.assert (lower po.rt = lower p)
    alloc { Obj.blank with cls := cls, raw := term, pt := p, rt := r, value := value.mk, args := args.map strip, parent := some q,
                           sec := sec, col := col, isDecl := isDecl }

/-- `doc.section_args(value)`, metatab/doc.py:256-258. -/
def sectionArgs (s : St) (value : Val) : Except Err (List Str) :=
  match value with
  | .str n => .ok (match s.declSecs.get? (lower n) with | some d => d.args | none => [])
  | _ => .error .attributeError

/-- `SectionTerm.__init__`, metatab/terms.py:672-700. -/
def newSectionObj (term : Str) (value : Val) (args : List Str) (isDecl : Bool := false) : M Nat := do
  let args ← if args ≠ [] then pure args else M.lift fun s => sectionArgs s value
  let i ← newTermObj .section term value args none none 1 isDecl
  let o ← obj i
  M.assert (o.joinLc = py!"root.section" ∨ o.joinLc = py!"root.root")
  return i

/-- Calling a term class. `SectionTerm` refuses a parent and a section (metatab/terms.py:691-692); `RootSectionTerm` does not take
these arguments (metatab/terms.py:981). -/
def construct (cls : Cls) (term : Str) (value : Val) (parent sec : Option Nat) : M Nat :=
  match cls with
  | .term => newTermObj .term term value [] parent sec
  | .user n => newTermObj (.user n) term value [] parent sec
  | .section =>
    if parent.isSome ∨ sec.isSome then do
      -- the arguments are looked up first, metatab/terms.py:683
      let _ ← M.lift fun s => sectionArgs s value
      M.raise .assertionError
    else newSectionObj term value []
  | .root => M.raise .typeError

/-- `Term.new_child` without keyword arguments, metatab/terms.py:173-191. -/
def newChild0 (t : Nat) (term : Str) (value : Val) : M Nat := do
  let s ← M.get
  let v ← match value with
    | .none => pure Val.none
    | v => match v.toStr with
      | some x => pure (Val.str x)
      | none => M.raise .unmodelled
  let c ← construct (docTermClass s (lower term)) term v (some t) (s.heap t).sec
  let o ← obj c
  setTvn c (declProp s.declTerms o.join (py!"termvaluename") o.tvn)
  M.assert (lower o.rt ≠ py!"section")
  upd t fun o => { o with children := o.children ++ [c] }
  return c

/-- `Term.new_children`, metatab/terms.py:199-204. -/
def newChildren (t : Nat) (kw : List (Str × Val)) : M Unit :=
  forL (fun kv => do let _ ← newChild0 t kv.1 kv.2) kw

/-- `Term.new_child`, metatab/terms.py:173-191. -/
def newChild (t : Nat) (term : Str) (value : Val) (kw : List (Str × Val)) : M Nat := do
  let s ← M.get
  let v ← match value with
    | .none => pure Val.none
    | v => match v.toStr with
      | some x => pure (Val.str x)
      | none => M.raise .unmodelled
  let c ← construct (docTermClass s (lower term)) term v (some t) (s.heap t).sec
  newChildren c kw
  let o ← obj c
  setTvn c (declProp s.declTerms o.join (py!"termvaluename") o.tvn)
  M.assert (lower o.rt ≠ py!"section")
  upd t fun o => { o with children := o.children ++ [c] }
  return c

/-- `Term.get_or_new_child` without keyword arguments, metatab/terms.py:254-281. Not modelled on sections, whose `find_first` searches
the document. -/
def getOrNewChild0 (t : Nat) (term : Str) (value : Val := .fls) : M Nat := do
  let s ← M.get
  if (s.heap t).cls.isSection then M.raise .unmodelled
  else
    let (_, rt) ← M.lift fun _ => splitTerm term
    let name := (s.heap t).rt ++ '.' :: rt
    let c ← match childNamed s t rt .fls with
      | none => do
        let c ← construct (docTermClass s (lower name)) name value (some t) (s.heap t).sec
        let o ← obj c
        M.assert (o.joinLc ≠ py!"datafile.section")
        upd t fun o => { o with children := o.children ++ [c] }
        pure c
      | some c => do
        if value ≠ .fls then upd c fun o => { o with value := value }
        pure c
    let s ← M.get
    M.assert (childNamed s t rt .fls = some c)
    return c

/-- `Term.get_or_new_child`, metatab/terms.py:254-281. -/
def getOrNewChild (t : Nat) (term : Str) (value : Val) (kw : List (Str × Val)) : M Nat := do
  let s ← M.get
  if (s.heap t).cls.isSection then M.raise .unmodelled
  else
    let (_, rt) ← M.lift fun _ => splitTerm term
    let name := (s.heap t).rt ++ '.' :: rt
    let c ← match childNamed s t rt .fls with
      | none => do
        let c ← construct (docTermClass s (lower name)) name value (some t) (s.heap t).sec
        newChildren c kw
        let o ← obj c
        M.assert (o.joinLc ≠ py!"datafile.section")
        upd t fun o => { o with children := o.children ++ [c] }
        pure c
      | some c => do
        if value ≠ .fls then upd c fun o => { o with value := value }
        forL (fun kv => do let _ ← getOrNewChild0 c kv.1 kv.2) kw
        pure c
    let s ← M.get
    M.assert (childNamed s t rt .fls = some c)
    return c

/-- `Term.__setitem__` for a value other than `None`, metatab/terms.py:300-317. -/
def setItemSome (t : Nat) (item : Str) (value : Val) : M Unit := do
  let o ← obj t
  if lower item = lower o.tvn ∨ lower item = py!"value" then upd t fun o => { o with value := value }
  else do
    let _ ← getOrNewChild0 t item value
    let c ← M.lift fun s => termGetItem s t item
    let o ← obj c
    M.assert (Val.pyEq o.value value ∨ (o.value = .none ∧ value = .str []))

/-- `t.section = v` for a term that is not a section: `Term.__setattr__`, metatab/terms.py:357-379, and the `section` setter,
metatab/terms.py:110-119. The attribute is a property, so it is not in `__dict__`; a section column called `Section` diverts the
assignment to `__setitem__`. -/
def setSectionTerm (t : Nat) (v : Nat) : M Unit := do
  let s ← M.get
  if lower (s.heap t).tvn = py!"section" then upd t fun o => { o with value := .obj v }
  else if py!"section" ∈ (propertyNames s t).map lower then setItemSome t (py!"section") (.obj v)
  else upd t fun o => { o with sec := some v }

/-- `MetatabDoc.add_section`, metatab/doc.py:243-254. -/
def addSection (x : Nat) : M Nat := do
  let o ← obj x
  M.assert o.cls.isSection
  match o.value with
  | .str n => do
    let s ← M.get
    match s.sections.get? (lower n) with
    | some y => return y
    | none => do
      M.modify fun s => { s with sections := s.sections.set (lower n) x }
      return x
  | _ => M.raise .attributeError

/-- `Term.set_ownership`, metatab/terms.py:206-214. The bound stands for the recursion limit. -/
def setOwnershipF : Nat → Nat → M Unit
  | 0, _ => M.raise .recursionError
  | f + 1, t => do
    let o ← obj t
    M.assert o.sec.isSome
    forL (fun c => do
      upd c fun oc => { oc with parent := some t, sec := o.sec }
      setOwnershipF f c) o.children

/-- `Term.set_ownership`. -/
def setOwnership (t : Nat) : M Unit := do
  let s ← M.get
  setOwnershipF (s.next + 1) t

/-- The last part of `MetatabDoc.add_term`, metatab/doc.py:196-206. -/
def addTermFinish (t : Nat) : M Unit := do
  let s ← M.get
  let o := s.heap t
  if o.cpt = [] ∨ o.cpt = py!"any" then
    upd t fun o => { o with cpt := declProp s.declTerms o.join (py!"childpropertytype") (py!"any") }
  match o.sec with
  | none => M.raise .attributeError
  | some x =>
    let dflt := (s.heap x).defTvn
    if o.tvn = [] ∨ o.tvn = dflt then setTvn t (declProp s.declTerms o.join (py!"termvaluename") dflt)

/-- `MetatabDoc.add_term(t, add_section=False)`, metatab/doc.py:178-206. -/
def docAddTermCore (t : Nat) : M Unit := do
  let s ← M.get
  let o := s.heap t
  if t ∈ s.terms then return
  else do
    M.assert (o.sec.isSome ∨ o.joinLc = py!"root.root")
    if o.cls.isSection then do let _ ← addSection t
    else M.modify fun s => { s with terms := s.terms ++ [t] }
    addTermFinish t

/-- `SectionTerm.add_term` (and `move_term`), metatab/terms.py:744-762. -/
def sectionAddTerm (x t : Nat) : M Unit := do
  let s ← M.get
  if t ∉ (s.heap x).terms then
    if lower (s.heap t).pt = ROOT then do
      upd x fun o => { o with terms := o.terms ++ [t] }
      docAddTermCore t
      setOwnership t
    else M.raise .generateError
  let o ← obj t
  M.assert (o.sec.isSome ∨ o.joinLc = py!"root.root")

/-- `MetatabDoc.add_term(t)`, metatab/doc.py:178-206. -/
def docAddTerm (t : Nat) : M Unit := do
  let s ← M.get
  let o := s.heap t
  if t ∈ s.terms then return
  else do
    M.assert (o.sec.isSome ∨ o.joinLc = py!"root.root")
    if o.cls.isSection then do let _ ← addSection t
    else M.modify fun s => { s with terms := s.terms ++ [t] }
    match o.sec with
    | some x =>
      if lower o.pt = ROOT then do
        let y ← addSection x
        setSectionTerm t y
        let o ← obj t
        match o.sec with
        | some z => sectionAddTerm z t
        | none => M.raise .attributeError
    | none => pure ()
    addTermFinish t

/-- `MetatabDoc.remove_term` and `Term.remove_child` call each other until the parent no longer lists the term (metatab/doc.py:224-241,
metatab/terms.py:193-197); the bound is the number of rounds. -/
def removeTermF : Nat → Nat → M Unit
  | 0, _ => M.raise .recursionError
  | f + 1, t => do
    M.modify fun s => { s with terms := s.terms.erase t }
    let o ← obj t
    match o.sec with
    | some x =>
      if lower o.pt = ROOT then do
        let y ← addSection x
        setSectionTerm t y
        let o ← obj t
        match o.sec with
        | some z => upd z fun oz => { oz with terms := oz.terms.erase t }
        | none => M.raise .attributeError
    | none => pure ()
    let o ← obj t
    match o.parent with
    | some q => do
      let po ← obj q
      if t ∈ po.children then do
        upd q fun oq => { oq with children := oq.children.erase t }
        removeTermF f t
      -- otherwise `children.remove` raises ValueError, which is caught
    | none => pure ()

/-- How often the parent lists the term, plus one. -/
def removeRounds (s : St) (t : Nat) : Nat :=
  match (s.heap t).parent with
  | some q => (s.heap q).children.count t + 2
  | none => 1

/-- `MetatabDoc.remove_term`, metatab/doc.py:224-241. Not modelled on section objects. -/
def removeTerm (t : Nat) : M Unit := do
  let s ← M.get
  if (s.heap t).cls.isSection then M.raise .unmodelled
  else removeTermF (removeRounds s t) t

/-- `Term.remove_child`, metatab/terms.py:193-197. -/
def removeChild (t c : Nat) : M Unit := do
  let o ← obj t
  if c ∈ o.children then do
    upd t fun o => { o with children := o.children.erase c }
    removeTerm c
  else M.raise .valueError

/-- `Term.__setitem__`, metatab/terms.py:300-317. -/
def setItem (t : Nat) (item : Str) (value : Val) : M Unit := do
  let o ← obj t
  if value = .none ∧ ¬ (lower item = lower o.tvn ∨ lower item = py!"value") then do
    match ← M.lift fun s => termFindFirst s t item with
    | some c => removeChild t c
    | none => pure ()
  else setItemSome t item value

/-- `SectionTerm.new_term`, metatab/terms.py:764-772. -/
def newTerm (x : Nat) (term : Str) (value : Val) (kw : List (Str × Val) := []) : M Nat := do
  let s ← M.get
  let t ← construct (docTermClass s (lower term)) term value none (some x)
  newChildren t kw
  docAddTerm t
  return t

/-- `SectionTerm.get_or_new_term`, metatab/terms.py:788-802. -/
def getOrNewTerm (x : Nat) (term : Str) (value : Val := .fls) (kw : List (Str × Val) := []) : M Nat := do
  match ← M.lift fun s => sectionFindFirst s x term value with
  | none => newTerm x term value kw
  | some t => do
    if value ≠ .none then upd t fun o => { o with value := value }
    forL (fun kv => do let _ ← getOrNewChild0 t kv.1 kv.2) kw
    return t

/-- `__setitem__` of a term or section, metatab/terms.py:300-317, 882-884. -/
def setItemAny (t : Nat) (item : Str) (value : Val) : M Unit := do
  let o ← obj t
  if o.cls.isSection then do let _ ← getOrNewTerm t item value
  else setItem t item value

/-- `t.section = v` for any term or section, metatab/terms.py:110-119, 357-379. -/
def setSection (t : Nat) (v : Option Nat) : M Unit := do
  let s ← M.get
  let val := match v with | some i => Val.obj i | none => Val.none
  if lower (s.heap t).tvn = py!"section" then upd t fun o => { o with value := val }
  else if py!"section" ∈ (propertyNames s t).map lower then setItemAny t (py!"section") val
  else upd t fun o => { o with sec := v }

/-- `Term.add_child`, metatab/terms.py:166-171. -/
def addChild (t c : Nat) : M Unit := do
  upd t fun o => { o with children := o.children ++ [c] }
  upd c fun o => { o with parent := some t }
  let o ← obj c
  M.assert (o.joinLc ≠ py!"datafile.section")

end Metatab
