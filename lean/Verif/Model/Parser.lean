import Verif.Model.Decl
import Verif.Model.Url
/-! # The parser (metatab/parser.py:301-525) and loading (metatab/doc.py:157-176, 464-512)

The code runs three coroutines: `generate_terms` yields to `__iter__`, which yields to the loop of `load_terms`. Each `yield` is
modelled as a call of the consumer, which is the order in which Python executes them. An exception raised by a consumer ends the
whole run, as in Python. -/
namespace Metatab
open Py

/-- `os.path.dirname` for POSIX paths. -/
def dirname (p : Str) : Str :=
  let head := (p.reverse.dropWhile (· ≠ '/')).reverse
  if head.all (· == '/') then head else (head.reverse.dropWhile (· == '/')).reverse

/-- `find_include_doc`, metatab/parser.py:282-299. -/
def findIncludeDoc (d name : Str) : Except Err Str :=
  let ref := stripChar '/' name
  if startsWith (py!"http") ref then .ok ref
  else if d = [] then .error .includeError
  else .ok (pathJoin d ref)

/-- `munge_param_map`, metatab/parser.py:448-449, with the later `str(...)` of metatab/parser.py:439 already applied. -/
def mungeParamMap (args : List Str) : List Str :=
  args.zipIdx.map fun pi => if pi.1 = [] then natStr pi.2 else lower pi.1

/-- List indexing by a Python integer; `none` is `IndexError`. -/
def pyIndex (l : List Str) (i : Int) : Option Str :=
  if 0 ≤ i then l[i.toNat]? else if -i ≤ l.length then l[(l.length + i).toNat]? else none

/-- Integer record terms are replaced by the column name, metatab/parser.py:438-444. -/
def remapRecord (paramMap : List Str) (rt : Str) : Str :=
  match pyInt rt with
  | none => rt
  | some i => (pyIndex paramMap i).getD rt

/-- Synonym substitution, metatab/parser.py:434-435, on the pair of names. -/
def substSynonym (d : Dict DTerm) (pt rt : Str) : Except Err (Str × Str) :=
  match (synonyms d).get? (dotJoin (lower pt) (lower rt)) with
  | some v => splitTermLower v
  | none => .ok (pt, rt)

/-- The attributes a value-bearing term takes from its declaration, metatab/parser.py:475-487. -/
def applyDecl (t : Nat) : M Unit := do
  let s ← M.get
  let o := s.heap t
  upd t fun o => { o with cpt := declProp s.p.declTerms o.join (py!"childpropertytype") (py!"any") }
  setTvn t (declProp s.p.declTerms o.join (py!"termvaluename") s.p.defTvn)
  upd t fun o => { o with valid := some (s.p.declTerms.has o.joinLc)
                          options := splitOn ',' (declProp s.p.declTerms o.join (py!"options") []) }

/-- `last_term_map[name].add_child(t)`, metatab/parser.py:496, 499, 507. -/
def attach (name : Str) (e : Err) (t : Nat) : M Unit := do
  let s ← M.get
  match s.p.lastMap.get? name with
  | some q => addChild q t
  | none => M.raise e

/-- Finding the parent of a value-bearing term, metatab/parser.py:492-510. -/
def placeTerm (t : Nat) : M Unit := do
  let s ← M.get
  let o := s.heap t
  if o.pt = ELIDED then do
    upd t fun o => { o with pt := s.p.lastParent }
    attach s.p.lastParent .keyError t
  else if 1 < o.col then attach s.p.lastParent .keyError t
  else do
    updP fun p => { p with lastParent := o.rt, lastMap := (p.lastMap.set ELIDED t).set o.rt t }
    attach o.pt .parserError t

/-- One round of the loop of `TermParser.__iter__`, metatab/parser.py:431-520. The result tells whether the term is yielded. -/
def iterBody (t : Nat) : M Bool := do
  let s ← M.get
  let (p, r) ← M.lift fun s => substSynonym s.p.declTerms (s.heap t).pt (s.heap t).rt
  upd t fun o => { o with pt := p, rt := remapRecord s.p.paramMap r }
  setSection t (some s.p.lastSec)
  let o ← obj t
  if o.joinLc = py!"root.header" then do
    updP fun p => { p with paramMap := mungeParamMap o.args }
    match o.value with
    | .str v => do
      updP fun p => { p with defTvn := lower v }
      upd s.p.lastSec fun x => { x with headerArgs := o.args, defTvn := lower v }
      return false
    | _ => M.raise .attributeError
  else do
    if o.joinLc = py!"root.section" then do
      if !o.cls.isSection then M.raise .unmodelled
      updP fun p => { p with paramMap := mungeParamMap o.args, lastParent := (s.heap s.root).rt, lastSec := t,
                             defTvn := py!"@value" }
      setSection t none
    else if o.joinLc = py!"root.root" then do
      if !o.cls.isSection then M.raise .unmodelled
      updP fun p => { p with lastSec := t }
      setSection t none
    else do
      if o.cls.isSection then M.raise .unmodelled
      applyDecl t
      placeTerm t
      let o ← obj t
      if lower o.pt = ROOT then sectionAddTerm s.p.lastSec t
    if o.isDecl then do
      manageDeclare t
      return false
    else return true

/-- One round of the loop of `load_terms`, metatab/doc.py:470-490. -/
def loadBody (t : Nat) : M Unit := do
  let o ← obj t
  if o.joinLc = py!"root.root" then pure ()
  else if o.joinLc = py!"root.section" then do let _ ← addSection t
  else if lower o.pt = ROOT then docAddTerm t
  else M.assert o.parent.isSome

/-- What happens when `generate_terms` yields `t`. `load` tells whether the terms go on to `load_terms` or are dropped, as in
`load_declarations` (metatab/doc.py:169). -/
def consume (load : Bool) (t : Nat) : M Unit := do
  let y ← iterBody t
  if y && load then loadBody t

/-- The rows `generate_terms` skips, metatab/parser.py:325. -/
def skipRow : List Str → Bool
  | [] => true
  | c :: _ => strip c = [] || startsWith (py!"#") (strip c)

/-- The object built for a row, metatab/parser.py:328-337. `RootSectionTerm` does not take these arguments (metatab/terms.py:981). -/
def rowTerm (isDecl : Bool) (row : List Str) : M Nat := do
  let name ← M.lift fun _ => normalizeTerm (row.headD [])
  let s ← M.get
  let value := Val.str ((row[1]?).getD [])
  let args := row.drop 2
  match parserTermClass s name with
  | .section => newSectionObj name value args isDecl
  | .root => M.raise .typeError
  | c => newTermObj c name value args none none 1 isDecl

/-- The term built for an argument cell, metatab/parser.py:394-403. `SectionTerm` needs a document and refuses a parent
(metatab/terms.py:675, 691). -/
def argTerm (isDecl : Bool) (t col : Nat) (value : Str) : M Nat := do
  let s ← M.get
  let name := lower (s.heap t).rt ++ '.' :: natStr col
  match parserTermClass s name with
  | .section => M.raise .assertionError
  | .root => M.raise .typeError
  | c => newTermObj c name (.str value) [] (some t) none (col + 2) isDecl

/-- The loop over the argument cells, metatab/parser.py:391-403. -/
def argLoop (load isDecl : Bool) (t : Nat) : Nat → List Str → M Unit
  | _, [] => pure ()
  | col, v :: vs => do
    if strip v ≠ [] then do
      let c ← argTerm isDecl t col v
      consume load c
    argLoop load isDecl t (col + 1) vs

/-- Yield a term and then its argument cells, metatab/parser.py:387-403. -/
def yieldWithArgs (load isDecl : Bool) (t : Nat) : M Unit := do
  consume load t
  let o ← obj t
  if o.joinLc = py!"root.section" ∨ o.joinLc = py!"root.header" then pure ()
  else argLoop load isDecl t 0 o.args

/-- What the parser takes from the file system and the network while it runs. -/
structure Files where
  /-- the rows found behind a path or URL by `get_generator(url.get_resource().get_target())`, metatab/parser.py:355; `none` for an
  `OSError` or download error -/
  rows : Str → Option (List (List Str))
  /-- `find_declare_doc(d, name)` (metatab/parser.py:235-280), `none` for an `IncludeError` -/
  decl : Str → Str → Option Str

/-- The target of an include or declare row, metatab/parser.py:345-348. -/
def resolveTarget (files : Files) (dir : Str) (o : Obj) : Except Err Str :=
  match o.value with
  | .str v =>
    if o.joinLc = py!"root.include" then findIncludeDoc dir (strip v)
    else match files.decl dir (strip v) with
      | some r => .ok r
      | none => .error .includeError
  | _ => .error .attributeError

/-- The section an incoming section row stands for, metatab/parser.py:376-385: the existing one, or the new object. An object of another
class has no `name`, so that `__getattr__` gives `None` (metatab/terms.py:346-347) and `None.lower()` raises. -/
def resolveSection (s : St) (t : Nat) : Except Err Nat :=
  match (s.heap t).cls.isSection, (s.heap t).value with
  | true, .str n => .ok ((s.sections.get? (lower n)).getD t)
  | _, _ => .error .attributeError

/-- The loop of `generate_terms` over the rows, metatab/parser.py:322-405. `sub` runs the generator of an included file, `dir` is
`dirname(ref_path)`, `ref` is `row_gen.ref`, the number is `last_section`; its final value is
returned. -/
def genRows (files : Files) (sub : Str → Bool → M Unit) (load isDecl : Bool) (dir ref : Str) : Nat → List (List Str) → M Nat
  | lastSec, [] => pure lastSec
  | lastSec, row :: rows =>
    if skipRow row then genRows files sub load isDecl dir ref lastSec rows
    else do
      let t ← rowTerm isDecl row
      let o ← obj t
      if o.joinLc = py!"root.include" ∨ o.joinLc = py!"root.declare" then do
        let target ← M.lift fun _ => resolveTarget files dir o
        if target = ref then M.raise .includeError
        else do
          consume load t
          let o ← obj t
          sub target (lower o.rt = py!"declare")
          consume load lastSec
          genRows files sub load isDecl dir ref lastSec rows
      else if o.joinLc = py!"root.section" then do
        let x ← M.lift fun s => resolveSection s t
        yieldWithArgs load isDecl x
        genRows files sub load isDecl dir ref x rows
      else do
        yieldWithArgs load isDecl t
        genRows files sub load isDecl dir ref lastSec rows

/-- `generate_terms`, metatab/parser.py:301-409, nested generators included. The first number stands for Python's recursion limit. A
nested generator is given a source object, so its `ref_path` is a class name (metatab/parser.py:314-316), which has no directory. A
file that cannot be read raises `IncludeError` (metatab/parser.py:369-372). -/
def gen (files : Files) (load : Bool) : Nat → Bool → Str → Str → List (List Str) → M Unit
  | 0, _, _, _, _ => M.raise .recursionError
  | f + 1, isDecl, dir, ref, rows => do
    let s ← M.get
    let _ ← genRows files (fun target d => do
      match files.rows target with
      | none => M.raise .includeError
      | some rows' => gen files load f d [] target rows') load isDecl dir ref s.root rows

/-- Group neighbours with equal super-term, `itertools.groupby` at metatab/doc.py:501-502. -/
def groupBySuper : List (Str × Str) → List (Str × List Str)
  | [] => []
  | (k, v) :: rest =>
    match groupBySuper rest with
    | (v', ks) :: gs => if v = v' then (v', k :: ks) :: gs else (v, [k]) :: (v', ks) :: gs
    | [] => [(v, [k])]

/-- The table of derived terms, metatab/doc.py:500-502; the names of a set are listed in insertion order. -/
def derivedOf (sup : Dict Str) : Dict (List Str) :=
  Dict.update [] (groupBySuper (sortBy (·.2) sup))

/-- The end of `load_terms`, metatab/doc.py:492-502. -/
def finishLoad : M Unit := M.modify fun s =>
  let sup := s.superTerms.update (parserSuperTerms s)
  { s with declTerms := s.declTerms.update s.p.declTerms, declSecs := s.declSecs.update s.p.declSecs, superTerms := sup,
           derived := derivedOf sup }

/-- `load_terms(TermParser(rows, doc=self))`, metatab/doc.py:79-82, 464-512: `path` is the path of the source, `[]` for row sources
without one. -/
def parseRows (files : Files) (fuel : Nat) (path : Str) (rows : List (List Str)) : M Unit := do
  M.modify fun s => { s with p := initP s.root }
  gen files true fuel false (dirname path) path rows
  finishLoad

/-- `load_declarations`, metatab/doc.py:157-176. -/
def loadDeclarations (files : Files) (fuel : Nat) (decls : List Str) : M Unit := do
  if decls = [] then pure ()
  else do
    let s ← M.get
    let ts ← M.lift fun s => find s (py!"Root.Declare")
    let rows := (decls.filter fun d => ¬ ts.any fun t => (s.heap t).value == .str d).map fun d => [py!"Declare", d]
    M.modify fun s => { s with p := initP s.root }
    gen files false fuel false [] [] rows
    M.modify fun s => { s with declTerms := s.declTerms.update s.p.declTerms, declSecs := s.declSecs.update s.p.declSecs }

end Metatab
