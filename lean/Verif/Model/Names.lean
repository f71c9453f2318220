import Verif.Py.Str
import Verif.Model.Err
/-! # Term names: `Term.split_term`, `normalize_term`, `term_is` (metatab/terms.py) -/
namespace Metatab
open Py

/-- metatab/parser.py:13 -/
def ROOT : Str := py!"root"
/-- metatab/parser.py:15 -/
def ELIDED : Str := py!"<elided_term>"

/-- `Term.split_term`, metatab/terms.py:121-139. Unpacking `term.split('.')` into two variables raises `ValueError` when there are
more than two parts. -/
def splitTerm (t : Str) : Except Err (Str × Str) :=
  if '.' ∈ t then
    match splitOn '.' t with
    | [p, r] =>
      let p := strip p
      let r := strip r
      .ok (if p = [] then ELIDED else p, r)
    | _ => .error .valueError
  else .ok (ROOT, strip t)

/-- `Term.split_term_lower`, metatab/terms.py:141-150. -/
def splitTermLower (t : Str) : Except Err (Str × Str) := do
  let (p, r) ← splitTerm t
  return (lower p, lower r)

/-- `"{}.{}".format(p, r)`, metatab/terms.py:414, 419, 424. -/
def dotJoin (p r : Str) : Str := p ++ '.' :: r

/-- `Term.normalize_term`, metatab/terms.py:411-414. -/
def normalizeTerm (t : Str) : Except Err Str := do
  let (p, r) ← splitTermLower t
  return dotJoin p r

/-- `Term.term_is` for a string argument, metatab/terms.py:456-472; `p` and `r` are the term's `parent_term` and `record_term`. -/
def termIs (p r : Str) (v : Str) : Except Err Bool := do
  let v := if '.' ∉ v then dotJoin ROOT v else v
  let (vp, vr) ← splitTermLower v
  if dotJoin (lower p) (lower r) = lower v then return true
  else if vr = ['*'] ∧ vp = lower p then return true
  else if vp = ['*'] ∧ vr = lower r then return true
  else if vp = ['*'] ∧ vr = ['*'] then return true
  else return false

/-- `Term.term_is` for a list or tuple, metatab/terms.py:474-476 (`any` stops at the first match). -/
def termIsAny (p r : Str) : List Str → Except Err Bool
  | [] => .ok false
  | v :: vs => do
    if ← termIs p r v then return true
    else termIsAny p r vs

end Metatab
