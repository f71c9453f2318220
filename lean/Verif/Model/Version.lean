import Verif.Model.DocOps
import Verif.Model.Slug
/-! # Identifiers, versions and names of documents (metatab/doc.py:119-131, 571-773) -/
namespace Metatab
open Py

/-- `'{}'.format(v)` and `str(v)` of a value; not modelled for objects. -/
def fmtVal (v : Val) : Except Err Str :=
  match v.toStr with
  | some x => .ok x
  | none => .error .unmodelled

/-- `ensure_identifier`, metatab/doc.py:571-583. -/
def ensureIdentifier : M Unit := do
  let t ← match ← M.lift fun s => findFirst s (py!"Root.Identifier") .fls (some [py!"Root"]) with
    | some t => pure t
    | none => do
      let x ← M.lift fun s => getSection s (py!"Root")
      newTerm x (py!"Root.Identifier") .none
  let o ← obj t
  if !o.value.truthy then do
    let s ← M.get
    upd t fun o => { o with value := .str (s.env.uuid s.next) }
  let o ← obj t
  M.assert o.value.truthy

/-- `self['Root'].find_first('Root.Version')`, metatab/doc.py:587, 600. -/
def versionTerm (s : St) : Except Err (Option Nat) := do
  let x ← getSection s (py!"Root")
  sectionFindFirst s x (py!"Root.Version")

/-- `_has_semver`, metatab/doc.py:585-596. -/
def hasSemver (s : St) : Except Err Bool := do
  match ← versionTerm s with
  | none => return false
  | some v => do
    let a ← termFindFirst s v (py!"Version.Major")
    let b ← termFindFirst s v (py!"Version.Minor")
    let c ← termFindFirst s v (py!"Version.Patch")
    return a.isSome || b.isSome || c.isSome

/-- One round of the loop of `update_version`, metatab/doc.py:615-623: `p` is the part found before the loop. -/
def versionPart (v : Nat) (name : Str) (p : Option Nat) : M Unit := do
  let t ← match p with
    | some t => pure t
    | none => newChild0 v name (.int 1)
  let o ← obj t
  if o.value = .none then upd t fun o => { o with value := .int 0 }

/-- The end of `update_version`, metatab/doc.py:625-644. -/
def versionString (v : Nat) : M Val := do
  let a ← M.lift fun s => termFindFirst s v (py!"Version.Major")
  let b ← M.lift fun s => termFindFirst s v (py!"Version.Minor")
  let c ← M.lift fun s => termFindFirst s v (py!"Version.Patch")
  match a, b, c with
  | some a, some b, some c => do
    let x ← M.lift fun s => fmtVal (s.heap a).value
    let y ← M.lift fun s => fmtVal (s.heap b).value
    let z ← M.lift fun s => fmtVal (s.heap c).value
    upd v fun o => { o with value := .str (x ++ '.' :: y ++ '.' :: z) }
    match ← M.lift fun s => termFindFirst s v (py!"Version.Build") with
    | none => pure ()
    | some d => do
      let u ← M.lift fun s => fmtVal (s.heap d).value
      upd v fun o => { o with value := .str (x ++ '.' :: y ++ '.' :: z ++ '.' :: u) }
    let o ← obj v
    return o.value
  | _, _, _ => M.raise .assertionError

/-- `update_version`, metatab/doc.py:598-644. -/
def updateVersion : M Val := do
  match ← M.lift versionTerm with
  | none => return .none
  | some v => do
    let a ← M.lift fun s => termFindFirst s v (py!"Version.Major")
    let b ← M.lift fun s => termFindFirst s v (py!"Version.Minor")
    let c ← M.lift fun s => termFindFirst s v (py!"Version.Patch")
    if a.isNone && b.isNone && c.isNone then do
      let o ← obj v
      return o.value
    else do
      versionPart v (py!"Version.Major") a
      versionPart v (py!"Version.Minor") b
      versionPart v (py!"Version.Patch") c
      versionString v

/-- The argument `mod_version`, metatab/doc.py:699-703: `False`, `None` or a string. -/
inductive ModVer
  | keep
  | drop
  | to (v : Str)
deriving DecidableEq, Repr

/-- `int(mv)` with the message for a string that is no integer, metatab/doc.py:741-745. Python's limit on the number of digits is not
modelled. -/
def versionInt : Val → Except Err Int
  | .none => .error .typeError
  | .str s => match pyInt s with | some i => .ok i | none => .error .metatabError
  | .int i => .ok i
  | .fls => .ok 0
  | .obj _ => .error .typeError

/-- `int(mod_version[1:] if mod_version[1:] else 1)`, metatab/doc.py:756-758. -/
def versionStep (ds : Str) : Except Err Int :=
  if ds = [] then .ok 1 else match pyInt ds with | some i => .ok i | none => .error .valueError

/-- The version asked for, metatab/doc.py:729-762. `int(mv) == float(mv)` (line 749) does not change what `int(mv)` is. -/
def moddedVersion (mv : Val) : ModVer → Except Err Val
  | .keep => .ok mv
  | .drop => .ok .none
  | .to [] => .error .indexError
  | .to ('+' :: ds) => do
    let k ← versionInt mv
    let n ← versionStep ds
    return .str (intStr (k + n))
  | .to ('-' :: ds) => do
    let k ← versionInt mv
    let n ← versionStep ds
    return .str (intStr (k - n))
  | .to m => .ok (.str m)

/-- The naming terms that come before the version, in the order of the name, metatab/doc.py:769-770. -/
def nameTerms : List Str :=
  [py!"Root.Origin", py!"Root.Dataset", py!"Root.Time", py!"Root.Space", py!"Root.Grain", py!"Root.Variant"]

/-- The parts of the name, metatab/doc.py:769-771. -/
def nameParts (nfkd : Str → Str) : List Val → Except Err (List Str)
  | [] => .ok []
  | e :: es => do
    if e.truthy then
      let x ← fmtVal e
      let rest ← nameParts nfkd es
      return if strip x ≠ [] then slugify nfkd (replace (py!"-") (py!"_") x) :: rest else rest
    else nameParts nfkd es

/-- `_generate_identity_name`, metatab/doc.py:699-773. -/
def identityName (mod : ModVer) : M Str := do
  let vals ← M.lift fun s => nameTerms.mapM fun n => findFirstValue s n .fls (some [py!"Root"])
  let _ ← updateVersion
  let semver ← M.lift hasSemver
  let x ← M.lift fun s => getSection s (py!"Root")
  let field := if semver then py!"Version.Patch" else py!"Version"
  let mv ← M.lift fun s => termGetValue s x field
  let mv ← M.lift fun _ => moddedVersion mv mod
  let version ← if mv = .none then pure Val.none
    else do
      match ← M.lift fun s => sectionFindFirst s x field with
      | none => M.raise .attributeError
      | some t => upd t fun o => { o with value := mv }
      updateVersion
  let s ← M.get
  let parts ← M.lift fun _ => nameParts s.env.nfkd (vals ++ [version])
  return join (py!"-") parts

/-- `as_version`, metatab/doc.py:119-131. -/
def asVersion (v : ModVer) : M Str := identityName v

/-- The name term, made if wanted, metatab/doc.py:653-658. -/
def nameTerm (create : Bool) : M (Option Nat) := do
  match ← M.lift fun s => findFirst s (py!"Root.Name") with
  | some t => return some t
  | none =>
    if create then do
      let x ← M.lift fun s => getSection s (py!"Root")
      let t ← newTerm x (py!"Root.Name") (.str [])
      return some t
    else return none

/-- The rest of `update_name`, metatab/doc.py:663-697. -/
def setName (force report : Bool) (mod : ModVer) (t : Nat) : M (List Str) := do
  let o ← obj t
  let ident ← M.lift fun s => docGetValue s (py!"Root.Identifier")
  let dataset ← M.lift fun s => docGetValue s (py!"Root.Dataset")
  if dataset.truthy then do
    let name ← identityName mod
    if ¬ Val.pyEq (.str name) o.value ∨ force then do
      upd t fun o => { o with value := .str name }
      return [py!"Changed Name"]
    else return if report then [py!"Name did not change"] else []
  else if !o.value.truthy then
    if !ident.truthy then return [py!"Failed to find DatasetName term or Identity term. Giving up"]
    else do
      upd t fun o => { o with value := ident }
      return [py!"Setting the name to the identifier"]
  else if Val.pyEq o.value ident then return if report then [py!"Name did not change"] else []
  else return [py!"No Root.Dataset, so can't update the name"]

/-- `update_name`, metatab/doc.py:646-697. -/
def updateName (force create report : Bool) (mod : ModVer) : M (List Str) := do
  ensureIdentifier
  match ← nameTerm create with
  | none => return [py!"No Root.Name, can't update name"]
  | some t => setName force report mod t

end Metatab
