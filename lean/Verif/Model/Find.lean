import Verif.Model.Tree
/-! # Searching: `MetatabDoc.find` and relatives (metatab/doc.py:338-458), `Term.find_first` (metatab/terms.py:216-248) -/
namespace Metatab
open Py

/-- A list comprehension with a condition that may raise. -/
def filterE {α : Type} (p : α → Except Err Bool) : List α → Except Err (List α)
  | [] => .ok []
  | a :: as => do
    let b ← p a
    let r ← filterE p as
    return if b then a :: r else r

/-- `Term.find_first` after the name has been split, metatab/terms.py:235-240. -/
def childNamed (s : St) (t : Nat) (name : Str) (value : Val) : Option Nat :=
  (s.heap t).children.find? fun c =>
    lower (s.heap c).rt == lower name && (value == .fls || Val.pyEq (s.heap c).value value)

/-- The name split of `Term.find` and `Term.find_first`, metatab/terms.py:219-221, 231-233. -/
def localName (s : St) (t : Nat) (name : Str) : Except Err Str :=
  if '.' ∈ name then
    match splitOn '.' name with
    | [p, r] => if lower p = lower (s.heap t).rt then .ok r else .error .assertionError
    | _ => .error .valueError
  else .ok name

/-- `Term.find_first(term, value)`, metatab/terms.py:228-240. -/
def termFindFirst (s : St) (t : Nat) (name : Str) (value : Val := .fls) : Except Err (Option Nat) := do
  let n ← localName s t name
  return childNamed s t n value

/-- `Term.find(term, value)`, metatab/terms.py:216-226. -/
def termFind (s : St) (t : Nat) (name : Str) (value : Val := .fls) : Except Err (List Nat) := do
  let n ← localName s t name
  return (s.heap t).children.filter fun c =>
    lower (s.heap c).rt == lower n && (value == .fls || Val.pyEq (s.heap c).value value)

/-- `term.section.name.lower()`, metatab/doc.py:373. -/
def sectionNameLower (s : St) (sec : Nat) : Except Err Str :=
  match (s.heap sec).value with
  | .str n => .ok (lower n)
  | _ => .error .attributeError

/-- `in_section(t, section)`, metatab/doc.py:362-373; `none` is no filter, a name is a one-element list. -/
def inSection (s : St) (t : Nat) : Option (List Str) → Except Err Bool
  | none => .ok true
  | some secs =>
    match (s.heap t).sec with
    | none => .ok false
    | some x => do
      if secs = [] then return false
      let n ← sectionNameLower s x
      return secs.any fun e => lower e == n

/-- The test on one term, metatab/doc.py:412-420: `none` to skip it, otherwise whether it is found. -/
def findTest (s : St) (term : Str) (value : Val) (section_ : Option (List Str)) (t : Nat) : Except Err Bool := do
  let o := s.heap t
  if o.joinLc = py!"root.root" then return false
  if o.sec = none ∧ o.joinLc ≠ py!"root.section" then .error .assertionError
  else if !(← termIs o.pt o.rt term) then return false
  else if !(← inSection s t section_) then return false
  else return value == .fls || Val.pyEq value o.value

/-- `MetatabDoc.find` for one name, without expansion of derived terms, metatab/doc.py:396-422. -/
def findOne (s : St) (term : Str) (value : Val) (section_ : Option (List Str)) : Except Err (List Nat) := do
  let term := lower term
  let term := if '.' ∉ term then py!"root." ++ term else term
  let gen ← if startsWith (py!"root.") term then .ok s.terms else allTerms s
  filterE (findTest s term value section_) gen

/-- `MetatabDoc.find` for a list of names, metatab/doc.py:392-394 (the expansion of derived terms has no effect on a list). -/
def findList (s : St) (terms : List Str) (value : Val) (section_ : Option (List Str)) : Except Err (List Nat) := do
  let ls ← terms.mapM fun e => findOne s e value section_
  return ls.flatten

/-- `MetatabDoc.find` for a name, metatab/doc.py:375-422, without keyword filter. -/
def find (s : St) (term : Str) (value : Val := .fls) (section_ : Option (List Str) := none) : Except Err (List Nat) :=
  match s.derived.get? (lower term) with
  | some ds => findList s (s.env.setOrd ds ++ [term]) value section_
  | none => findOne s term value section_

/-- `MetatabDoc.find_first`, metatab/doc.py:424-431. -/
def findFirst (s : St) (term : Str) (value : Val := .fls) (section_ : Option (List Str) := none) : Except Err (Option Nat) := do
  let l ← find s term value section_
  return l.head?

/-- `MetatabDoc.find_first_value`, metatab/doc.py:433-440. -/
def findFirstValue (s : St) (term : Str) (value : Val := .fls) (section_ : Option (List Str) := none) : Except Err Val := do
  match ← findFirst s term value section_ with
  | none => return .none
  | some t => return (s.heap t).value

/-- `MetatabDoc.get`, metatab/doc.py:442-449 (terms are true, so `not v` means `None`). -/
def docGet (s : St) (term : Str) (default : Option Nat := none) : Except Err (Option Nat) := do
  match ← findFirst s term with
  | none => return default
  | some t => return some t

/-- `MetatabDoc.get_value`, metatab/doc.py:451-458. -/
def docGetValue (s : St) (term : Str) (default : Val := .none) (section_ : Option (List Str) := none) : Except Err Val := do
  match ← findFirst s term .fls section_ with
  | none => return default
  | some t => return (s.heap t).value

/-- `SectionTerm.get_term`, `find_first`, metatab/terms.py:774-780: the search restricted to sections of this name. -/
def sectionFindFirst (s : St) (sec : Nat) (term : Str) (value : Val := .fls) : Except Err (Option Nat) :=
  match (s.heap sec).value with
  | .str n => findFirst s term value (some [n])
  | .none => findFirst s term value none
  | _ => .error .unmodelled

/-- `Term.__getitem__`, metatab/terms.py:283-298. -/
def termGetItem (s : St) (t : Nat) (item : Str) : Except Err Nat := do
  if lower item = lower (s.heap t).tvn then return t
  else match ← termFindFirst s t item with
    | some c => return c
    | none => .error .keyError

/-- `__getitem__` of a term or section (metatab/terms.py:283-298, 878-880). -/
def getItem (s : St) (t : Nat) (item : Str) : Except Err (Option Nat) :=
  if (s.heap t).cls.isSection then sectionFindFirst s t item
  else do return some (← termGetItem s t item)

/-- `Term.get`, metatab/terms.py:382-388. -/
def termGet (s : St) (t : Nat) (item : Str) (default : Option Nat := none) : Except Err (Option Nat) :=
  match getItem s t item with
  | .ok r => .ok r
  | .error .keyError => .ok default
  | .error e => .error e

/-- `Term.get_value`, metatab/terms.py:390-395. -/
def termGetValue (s : St) (t : Nat) (item : Str) (default : Val := .none) : Except Err Val :=
  match getItem s t item with
  | .ok (some c) => .ok (s.heap c).value
  | .ok none => .ok default  -- `None.value` is an `AttributeError`
  | .error .keyError => .ok default
  | .error .attributeError => .ok default
  | .error e => .error e

/-- `Term.find_first_value`, metatab/terms.py:242-248. -/
def termFindFirstValue (s : St) (t : Nat) (name : Str) : Except Err Val := do
  match ← termFindFirst s t name with
  | some c => return (s.heap c).value
  | none => return .none

/-- `all(t.get_value(k) == v for k, v in kwargs.items())`, metatab/doc.py:357. -/
def hasProps (s : St) (t : Nat) : List (Str × Val) → Except Err Bool
  | [] => .ok true
  | (k, v) :: rest => do
    let x ← termGetValue s t k
    if Val.pyEq x v then hasProps s t rest else return false

/-- `MetatabDoc.find(..., **kwargs)`, metatab/doc.py:350-360. -/
def findKw (s : St) (term : Str) (value : Val) (section_ : Option (List Str)) (kw : List (Str × Val)) : Except Err (List Nat) := do
  if kw = [] then find s term value section_
  else
    let ts ← find s term value section_
    filterE (fun t => hasProps s t kw) ts

end Metatab
