import Verif.Model.Tree
import Verif.Model.TermOps
import Verif.Model.Version
import Verif.Model.Csv
/-! # Writing a document as rows, CSV text and lines (metatab/terms.py:436-445, 611-637, 897-968; metatab/doc.py:793-865)

The generators of the code are modelled as the lists they yield. When a generator raises, the model gives the exception; what was
yielded before is not modelled. -/
namespace Metatab
open Py

/-- `Term.qualified_term`, metatab/terms.py:436-445. -/
def qualified (s : St) (o : Obj) : Except Err Str :=
  match o.parent with
  | some q => .ok (dotJoin (lower (s.heap q).rt) (lower o.rt))
  | none => if lower o.pt = py!"root" then .ok (dotJoin (py!"root") (lower o.rt)) else .error .assertionError

/-- The name under which the value of a term is written: `decl_terms.get(term, {}).get('termvaluename', '@value')`,
metatab/terms.py:616, 901. -/
def writtenTvn (s : St) (name : Str) : Str := declProp s.declTerms name (py!"termvaluename") (py!"@value")

/-- The loop over the terminal children, metatab/terms.py:624-629. -/
def rowProps : List Tree → Dict Val → Dict Val
  | [], d => d
  | k :: ks, d =>
    rowProps ks (if k.kids.isEmpty ∧ lower k.obj.rt ≠ [] then d.set (lower k.obj.rt) k.obj.value else d)

mutual
/-- `Term.rows`, metatab/terms.py:611-637. A term without section is an `AttributeError`. -/
def Tree.rows (s : St) : Tree → Except Err (List (Str × Dict Val))
  | .node _ o ks => do
    if o.sec = none then .error .attributeError
    else
      let q ← qualified s o
      let tvm := writtenTvn s q
      if tvm = [] then .error .assertionError
      else
        let rest ← treeRowsL s ks
        return (q, rowProps ks [(tvm, o.value)]) :: rest
/-- The loop over the children that have children, metatab/terms.py:634-637. -/
def treeRowsL (s : St) : List Tree → Except Err (List (Str × Dict Val))
  | [] => .ok []
  | k :: ks => do
    let a ← (if k.kids.isEmpty then .ok [] else k.rows s : Except Err (List (Str × Dict Val)))
    let b ← treeRowsL s ks
    return a ++ b
end

/-- `{k.lower(): v for k, v in d.items()}`, metatab/terms.py:905. -/
def lowerKeys (d : Dict Val) : Dict Val := d.foldl (fun a kv => a.set (lower kv.1) kv.2) []

/-- The loop of `SectionTerm._args`, metatab/terms.py:907-914. -/
def takeArgs : List Str → Dict Val → List Val × Dict Val
  | [], d => ([], d)
  | n :: ns, d =>
    let r := takeArgs ns (d.del (lower n))
    ((d.get? (lower n)).getD (.str []) :: r.1, r.2)

/-- `SectionTerm._args`, metatab/terms.py:897-916. -/
def rowArgs (s : St) (sec : Nat) (term : Str) (d : Dict Val) : List Val × Dict Val :=
  takeArgs (writtenTvn s term :: (s.heap sec).secPropertyNames) (lowerKeys d)

/-- What is written behind the name of a row: a list of cells, or one cell. -/
inductive RowVal | args (l : List Val) | one (v : Val)
deriving DecidableEq, Repr

/-- The rows of one entry, metatab/terms.py:925-934. -/
def entryRows (s : St) (sec : Nat) (e : Str × Dict Val) : List (Str × RowVal) :=
  let r := rowArgs s sec e.1 e.2
  (e.1, .args r.1) :: r.2.map fun kv => ((splitOn '.' e.1).getLastD [] ++ '.' :: kv.1, .one kv.2)

/-- `SectionTerm.rows`, metatab/terms.py:918-936. -/
def sectionRows (s : St) (sec : Nat) : Except Err (List (Str × RowVal)) := do
  let ls ← (s.heap sec).terms.mapM fun t => do
    let tr ← tree s t
    tr.rows s
  return ls.flatten.flatMap (entryRows s sec)

/-- `term.replace('root.', '').title()`, metatab/doc.py:808, metatab/terms.py:951. -/
def rowName (term : Str) : Str := title (replace (py!"root.") [] term)

/-- One row of `MetatabDoc.rows`, metatab/doc.py:805-813. -/
def docRow (r : Str × RowVal) : List Val :=
  .str (rowName r.1) :: match r.2 with
    | .args l => l
    | .one v => [v]

/-- `MetatabDoc.rows`, metatab/doc.py:793-813. -/
def docRows (s : St) : Except Err (List (List Val)) := do
  let ls ← s.sections.mapM fun kv => do
    let rs ← sectionRows s kv.2
    let o := s.heap kv.2
    let head := if o.value ≠ .str (py!"Root") then
        [[Val.str []], .str (py!"Section") :: o.value :: o.secPropertyNames.map Val.str] else []
    return head ++ rs.map docRow
  return ls.flatten

/-- How `csv.writer` writes a value that is no text: `None` as nothing, others as `str` does. -/
def csvCell (v : Val) : Except Err Str :=
  match v with
  | .none => .ok []
  | v => fmtVal v

/-- The rows as `csv.writer` writes them. -/
def cellRows (rows : List (List Val)) : Except Err (List (List Str)) := rows.mapM fun r => r.mapM csvCell

/-- `MetatabDoc.as_csv`, metatab/doc.py:836-847. -/
def docCsv (s : St) : Except Err Str := do
  let rows ← docRows s
  let cells ← cellRows rows
  return asCsv cells

/-- A value in a line: `v if v is not None else ''`, metatab/doc.py:861, metatab/terms.py:964. -/
def lineValue (v : Val) : Except Err Str := csvCell v

/-- The argument lines below a term line, metatab/terms.py:954-959. A value that is true but no text has no `strip`. -/
def argLines : List (Str × Val) → Except Err (List (Str × Val))
  | [] => .ok []
  | (p, v) :: rest => do
    if v.truthy then
      match v with
      | .str x =>
        let r ← argLines rest
        return if strip x ≠ [] then (py!"    ." ++ title p, v) :: r else r
      | _ => .error .attributeError
    else argLines rest

/-- The lines of one row, metatab/terms.py:945-959. -/
def rowLines (cols : List Str) (r : Str × RowVal) : Except Err (List (Str × Val)) := do
  match r.2 with
  | .one v => return [(rowName r.1, v)]
  | .args [] => .error .indexError
  | .args (v :: vs) => do
    let ls ← argLines (cols.zip vs)
    return (rowName r.1, v) :: ls

/-- `SectionTerm.lines`, metatab/terms.py:938-959. The section row needs a name that is a text. -/
def sectionLines (s : St) (sec : Nat) : Except Err (List (Str × Val)) := do
  let o := s.heap sec
  let head ← (if o.value ≠ .str (py!"Root") then
      match o.value with
      | .str n => .ok [(py!"Section", Val.str (join (py!"|") (n :: o.secPropertyNames)))]
      | _ => .error .typeError
    else .ok [] : Except Err (List (Str × Val)))
  let rs ← sectionRows s sec
  let ls ← rs.mapM (rowLines o.secPropertyNames)
  return head ++ ls.flatten

/-- `MetatabDoc.lines`, metatab/doc.py:815-820. -/
def docLines (s : St) : Except Err (List (Str × Val)) := do
  let ls ← s.sections.mapM fun kv => sectionLines s kv.2
  return ls.flatten

/-- `MetatabDoc.as_lines`, metatab/doc.py:849-865. -/
def docText (s : St) : Except Err Str := do
  let ls ← docLines s
  let out ← ls.mapM fun l => do
    let v ← lineValue l.2
    let line := l.1 ++ py!": " ++ v
    return if l.1 = py!"Section" then [[], line] else [line]
  return join (py!"\n") out.flatten

end Metatab
