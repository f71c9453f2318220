import Verif.Model.DocOps
/-! # Declarations (metatab/parser.py:93-174, 527-624) -/
namespace Metatab
open Py

/-- Change the parser state. -/
def updP (f : PSt → PSt) : M Unit := M.modify fun s => { s with p := f s.p }

/-- One round of the loop of `TermParser.synonyms`, metatab/parser.py:110-116. -/
def synonymStep (acc : Dict Str) (kv : Str × DTerm) : Dict Str :=
  match kv.2.props.get? (py!"synonym") with
  | none => acc
  | some v =>
    if v = [] then acc
    else
      let k := strip kv.1
      let acc := acc.set (lower k) v
      if '.' ∉ k then acc.set (ROOT ++ '.' :: lower k) v else acc

/-- `TermParser.synonyms`, metatab/parser.py:105-118. -/
def synonyms (d : Dict DTerm) : Dict Str := d.foldl synonymStep []

/-- `TermParser.super_terms`, metatab/parser.py:121-132. The cache is emptied whenever a declaration is read
(metatab/parser.py:538), and the document's table does not change while a parser runs. -/
def parserSuperTerms (s : St) : Dict Str :=
  if s.superTerms ≠ [] then s.superTerms
  else Dict.update [] (s.p.declTerms.filterMap fun kv =>
    (kv.2.props.get? (py!"inheritsfrom")).map fun v => (lower kv.1, lower v))

/-- `TermParser.get_term_class`, metatab/parser.py:203-217. -/
def parserTermClass (s : St) (name : Str) : Cls :=
  match s.classes.get? (lower name) with
  | some c => c
  | none =>
    match (parserSuperTerms s).get? (lower name) with
    | some sup => (s.classes.get? sup).getD .term
    | none => .term

/-- `Term.arg_props`, metatab/terms.py:515-527. -/
def argProps (s : St) (t : Nat) : Except Err (Dict Val) :=
  let o := s.heap t
  if !o.cls.isSection ∧ o.sec = none then .error .attributeError
  else match o.sec with
    | none => .error .attributeError
    | some x =>
      let d : Dict Val := Dict.update [] (((s.heap x).secPropertyNames.map lower).zip (o.args.map Val.str))
      .ok (d.set (lower o.tvn) o.value)

/-- `add_declared_section`, metatab/parser.py:540-545. -/
def addDeclaredSection (t : Nat) : M Unit := do
  let o ← obj t
  match o.value with
  | .str n => updP fun p => { p with declSecs := p.declSecs.set (lower n) ⟨cleanArgs o.args, []⟩ }
  | _ => M.raise .attributeError

/-- The local function `add_term_to_section`, metatab/parser.py:593-606. In the loop over the inherited children (`loop`) the variable `t`
has become a dict, so that the message of the exception cannot be built: `t.file_name` raises, metatab/parser.py:600, 611. -/
def addTermToSection (loop : Bool) (td : DTerm) : M Unit := do
  let s ← M.get
  let name := lower ((td.props.get? (py!"section")).getD [])
  match s.p.declSecs.get? name with
  | none => M.raise (if loop then .attributeError else .declarationError)
  | some d =>
    match td.props.get? (py!"section"), td.props.get? (py!"term") with
    | some _, some tn =>
      if tn ∉ d.terms then updP fun p => { p with declSecs := p.declSecs.set name { d with terms := d.terms ++ [tn] } }
      else pure ()
    | _, _ => M.raise .keyError

/-- The entry `inherited_children` builds for one name of the section, metatab/parser.py:571-580; `none` if the name is not a child of
the super-term. -/
def inheritedEntry (d : Dict DTerm) (tR ihR stName : Str) : Except Err (Option DTerm) :=
  if startsWith (lower ihR ++ py!".") (lower stName) then do
    let (_, stR) ← splitTerm stName
    match d.get? (lower stName) with
    | none => .error .keyError
    | some e =>
      return some { e with props := (e.props.set (py!"inheritsfrom") []).set (py!"term") (tR ++ '.' :: stR) }
  else return none

/-- The loop over the inherited children, metatab/parser.py:570-580, 611-613. It runs over a list that its body may extend, so it is
indexed and reads the list again on each round. The number of rounds is bounded by the first argument; that the bound used by
`addInherited` suffices is theorem `C38_terminates`. -/
def inheritLoop (sec tR ihR : Str) : Nat → Nat → M Unit
  | 0, _ => M.raise .recursionError
  | f + 1, i => do
    let s ← M.get
    match s.p.declSecs.get? sec with
    | none => M.raise .keyError
    | some d =>
      match d.terms[i]? with
      | none => pure ()
      | some stName => do
        match ← M.lift fun s => inheritedEntry s.p.declTerms tR ihR stName with
        | none => pure ()
        | some e => do
          let n ← M.lift fun _ => normalizeTerm ((e.props.get? (py!"term")).getD [])
          updP fun p => { p with declTerms := p.declTerms.set n e }
          addTermToSection true e
        inheritLoop sec tR ihR f (i + 1)

/-- `for t in self.inherited_children(td): ...`, metatab/parser.py:547-580, 611-613. -/
def addInherited (td : DTerm) : M Unit := do
  match td.props.get? (py!"inheritsfrom"), td.props.get? (py!"term") with
  | some ih, some tn =>
    if ih = [] then pure ()
    else match td.props.get? (py!"section") with
      | none => M.raise .declarationError
      | some sec => do
        let (_, tR) ← M.lift fun _ => splitTerm tn
        let (_, ihR) ← M.lift fun _ => splitTerm ih
        let s ← M.get
        match s.p.declSecs.get? (lower sec) with
        | none => M.raise .keyError
        | some d => inheritLoop (lower sec) tR ihR (2 * d.terms.length + 1) 0
  | _, _ => pure ()

/-- A property of a declaration is a string; `strip` of anything else raises, metatab/parser.py:587. -/
def strCell : Str × Val → Except Err (Str × Str)
  | (k, .str v) => .ok (k, v)
  | _ => .error .attributeError

/-- The new entry of `add_declared_term`, metatab/parser.py:587-589. -/
def declaredEntry (ap : Dict Val) (value : Str) : Except Err DTerm := do
  let kvs ← ap.mapM strCell
  let props : Dict Str := (kvs.filter fun kv => strip kv.2 ≠ [] ∧ kv.1 ≠ py!"values")
  return ⟨Dict.set props (py!"term") value, some []⟩

/-- `add_declared_term`, metatab/parser.py:582-613. -/
def addDeclaredTerm (t : Nat) : M Unit := do
  let o ← obj t
  match o.value with
  | .none => M.raise .typeError
  | .str v => do
    let n ← M.lift fun _ => normalizeTerm v
    let ap ← M.lift fun s => argProps s t
    let td ← M.lift fun _ => declaredEntry ap v
    updP fun p => { p with declTerms := p.declTerms.set n td }
    match td.props.get? (py!"section") with
    | some _ => addTermToSection false td
    | none => pure ()
    addInherited td
  | _ => M.raise .unmodelled

/-- One entry under `add_value_set_value`, metatab/parser.py:622-624. -/
def addValue (vs : Str) (value disp : Val) (e : DTerm) : DTerm :=
  match e.props.get? (py!"valuesetname"), e.values with
  | some v, some vals =>
    if vs = lower v ∧ ¬ vals.any (fun kv => Val.pyEq kv.1 value) then { e with values := some (vals ++ [(value, disp)]) } else e
  | _, _ => e

/-- `add_value_set_value`, metatab/parser.py:615-624. A declared entry with a value set name always has a `values` dict
(metatab/parser.py:588). -/
def addValueSetValue (t : Nat) : M Unit := do
  let s ← M.get
  match (s.heap t).parent with
  | none => M.raise .attributeError
  | some q => do
    let vs := (s.heap q).joinLc
    let value := (s.heap t).value
    let ap ← M.lift fun s => argProps s t
    let disp := (ap.get? (py!"displayvalue")).getD .none
    updP fun p => { p with declTerms := p.declTerms.map fun kv => (kv.1, addValue vs value disp kv.2) }

/-- `manage_declare_terms`, metatab/parser.py:527-538. -/
def manageDeclare (t : Nat) : M Unit := do
  let o ← obj t
  if o.joinLc = py!"root.declaresection" then addDeclaredSection t
  else if o.joinLc = py!"root.declareterm" then addDeclaredTerm t
  else if lower o.pt = py!"value" then addValueSetValue t
  else pure ()

end Metatab
