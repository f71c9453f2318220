import Verif.Model.TermOps
import Verif.Model.Tree
/-! # Conversion to nested dicts (metatab/terms.py:539-603, 968-990, metatab/doc.py:775-791) -/
namespace Metatab
open Py

/-- What the conversion yields: a plain value, a list, or an ordered dict. -/
inductive DVal
  | val (v : Val)
  | list (l : List DVal)
  | dict (d : List (Str × DVal))

namespace DVal
/-- Python truth value. -/
def truthy : DVal → Bool
  | .val v => v.truthy
  | .list l => !l.isEmpty
  | .dict d => !d.isEmpty

/-- `a + b`. -/
def add : DVal → DVal → Except Err DVal
  | .val (.str a), .val (.str b) => .ok (.val (.str (a ++ b)))
  | .val (.int a), .val (.int b) => .ok (.val (.int (a + b)))
  | .val .fls, .val (.int b) => .ok (.val (.int b))
  | .val (.int a), .val .fls => .ok (.val (.int a))
  | .val .fls, .val .fls => .ok (.val (.int 0))
  | .list a, .list b => .ok (.list (a ++ b))
  | _, _ => .error .typeError

/-- The string `s`. -/
def ofStr (s : Str) : DVal := .val (.str s)

/-- `a or ''`. -/
def orEmpty (v : DVal) : DVal := if v.truthy then v else ofStr []
end DVal

/-- One round of the loop over the children, metatab/terms.py:563-596. `rt` and `cpt` are the child's `record_term` and
`child_property_type`, `conv` is the conversion of the child, which raises where the code first evaluates it. -/
def dictChild (d : Dict DVal) (rt cpt : Str) (conv : Except Err DVal) : Except Err (Dict DVal) :=
  let lc := lower rt
  if cpt = py!"scalar" then do
    let v ← conv
    return d.set lc v
  else if cpt = py!"sequence" then do
    let v ← conv
    match d.get? lc with
    | some (.list l) => return d.set lc (.list (l ++ [v]))
    | _ => return d.set lc (.list [v])
  else if cpt = py!"sconcat" then do
    let s ← (match d.get? lc with
      | some x => x.add (.ofStr (py!" "))
      | none => .ok (.ofStr []) : Except Err DVal)
    let v ← conv
    let r ← s.add v.orEmpty
    return d.set lc r
  else if cpt = py!"bconcat" then do
    let v ← conv
    let r ← ((d.get? lc).getD (.ofStr [])).add v.orEmpty
    return d.set lc r
  else
    match d.get? lc with
    | none => do
      let v ← conv
      return d.set lc v
    | some (.list l) => do
      let v ← conv
      return d.set lc (.list (l ++ [v]))
    | some _ =>
      -- the old entry is looked up under the name as written, metatab/terms.py:596
      match d.get? rt with
      | none => .error .keyError
      | some x => do
        let v ← conv
        return d.set lc (.list [x, v])

/-- The value of the term itself, metatab/terms.py:598-602. -/
def dictValue (rvn : Bool) (o : Obj) (d : Dict DVal) : Dict DVal :=
  if o.value.truthy then d.set (if rvn then lower o.tvn else py!"@value") (.val o.value) else d

mutual
/-- `Term._convert_to_dict`, metatab/terms.py:545-607. A term is never false. -/
def Tree.toDict (rvn : Bool) : Tree → Except Err DVal
  | .node _ o ks =>
    match ks with
    | [] => .ok (.val o.value)
    | k :: ks => do
      let d ← kidsDict rvn [] (k :: ks)
      return .dict (dictValue rvn o d)
/-- The loop of `Term._convert_to_dict`. -/
def kidsDict (rvn : Bool) (d : Dict DVal) : List Tree → Except Err (Dict DVal)
  | [] => .ok d
  | k :: ks => do
    let d ← dictChild d k.obj.rt k.obj.cpt (k.toDict rvn)
    kidsDict rvn d ks
end

/-- `Term.as_dict`, metatab/terms.py:539-543. -/
def termAsDict (rvn : Bool) (t : Nat) : M DVal := M.lift fun s => do
  let tr ← tree s t
  tr.toDict rvn

/-- `SectionTerm.as_dict`, metatab/terms.py:968-977. The children are put back only when the conversion does not raise. After an
exception the two lists are one Python list; the model keeps two lists with the same content. -/
def sectionAsDict (rvn : Bool) (x : Nat) : M DVal := do
  let o ← obj x
  upd x fun o => { o with children := o.terms }
  let d ← termAsDict rvn x
  upd x fun o' => { o' with children := o.children }
  return d

/-- `RootSectionTerm.as_dict`, metatab/terms.py:984-990. The conversion of a section without terms is its value, a string or
`None`; `'@value' in None` would raise, but the value of a root section is `'Root'`. -/
def rootAsDict (rvn : Bool) (x : Nat) : M DVal := do
  let d ← sectionAsDict rvn x
  match d with
  | .dict l => return .dict (if rvn then Dict.del l (py!"@value") else l)
  | d => return d

/-- `RootSectionTerm(doc=self)`, metatab/terms.py:981-982, 672-700. -/
def newRootObj : M Nat := do
  let args ← M.lift fun s => sectionArgs s (.str (py!"Root"))
  let i ← newTermObj .root (py!"Root.Root") (.str (py!"Root")) args none none 0
  let o ← obj i
  M.assert (o.joinLc = py!"root.section" ∨ o.joinLc = py!"root.root")
  return i

/-- `MetatabDoc.as_dict`, metatab/doc.py:775-791. -/
def docAsDict (rvn : Bool) : M DVal := do
  let r ← newRootObj
  let s ← M.get
  forL (fun t => upd r fun o => { o with terms := o.terms ++ [t] }) (s.sections.flatMap fun kv => (s.heap kv.2).terms)
  rootAsDict rvn r

end Metatab
