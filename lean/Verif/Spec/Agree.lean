import Verif.Model.History
import Verif.Spec.Plain
import Mathlib.Logic.Relation
/-! # Agreement of the term lists, and the calls that keep it -/
namespace Spec
open Py Metatab

/-- The section is one of the document's. -/
def HasSec (s : St) (x : Nat) : Prop := ∃ k, s.sections.get? k = some x

/-- The document and its sections list the same terms: a term is in the document's list exactly when its own section is one of the
document's and lists it. -/
def ListsAgree (s : St) : Prop :=
  ∀ t, t ∈ s.terms ↔ ∃ x, (s.heap t).sec = some x ∧ HasSec s x ∧ t ∈ (s.heap x).terms

/-- A name that stands for a root-level term. -/
def RootLevel (name : Str) : Prop := '.' ∉ name ∨ ∃ r, lower name = py!"root." ++ r

/-- No column is called `Section`. -/
def NoSectionColumn (l : List Str) : Prop := ∀ a ∈ l, lower (strip a) ≠ py!"section"

/-- A name for a section that is not there yet. -/
def FreeName (s : St) (name : Str) : Prop := strip name = name ∧ name ≠ [] ∧ s.sections.get? (lower name) = none

/-- `u` is a child of `t`, or a child of a child, and so on. -/
def Under (s : St) : Nat → Nat → Prop := Relation.TransGen fun a b => b ∈ (s.heap a).children

/-- A term that may be listed: no section, with a section of the document, root-level, and no listed term of another section below it. -/
structure Listable (s : St) (t : Nat) : Prop where
  notSec : (s.heap t).cls.isSection = false
  rootLevel : lower (s.heap t).pt = ROOT
  home : ∃ x, (s.heap t).sec = some x ∧ HasSec s x ∧ ∀ u, Under s t u → u ∈ s.terms → (s.heap u).sec = some x

/-- A term that may be removed: if it is root-level, its section is one of the document's. -/
def Removable (s : St) (t : Nat) : Prop := ∀ x, (s.heap t).sec = some x → lower (s.heap t).pt = ROOT → HasSec s x

/-- A row, other than a comment, that names columns or whose name is a column number has no column called `Section`. -/
def NoSectionRow (row : List Str) : Prop := kind row ≠ .noise → ∀ p r, cellNames (row.headD []) = some (p, r) →
  r = py!"section" ∨ r = py!"header" ∨ pyInt r ≠ none → NoSectionColumn (row.drop 2)

theorem NoSectionRow.of {row : List Str} (h : NoSectionColumn (row.drop 2)) : NoSectionRow row := fun _ _ _ _ _ => h

/-- Files without declarations and without a column called `Section`. -/
structure PlainFiles (files : Files) (rows : List (List Str)) : Prop where
  decl : ∀ d n, files.decl d n = none
  main : ∀ row ∈ rows, NoSectionRow row
  others : ∀ p rs, files.rows p = some rs → ∀ row ∈ rs, NoSectionRow row

/-- The calls that keep the lists in agreement. -/
def Orderly (s : St) : Op → Prop
  | .parse files _ _ rows => PlainFiles files rows ∧ HasSec s s.root ∧ ∀ n, s.classes.get? n = some .section → n = py!"root.section"
  | .newSection name ps => FreeName s name ∧ NoSectionColumn ps
  | .getOrNewSection name ps => (s.sections.get? name ≠ none ∨ FreeName s name) ∧ NoSectionColumn ps
  | .addSection x => HasSec s x ∨ (s.heap x).terms = []
  | .delSection name => lower name = name
  | .docAddTerm t => t ∈ s.terms ∨ Listable s t
  | .sectionAddTerm x t => Listable s t ∧ (s.heap t).sec = some x
  | .removeTerm t => Removable s t
  | .sectionRemoveTerm _ t => Removable s t
  | .cleanSection x => HasSec s x
  | .newTerm x name _ _ | .getOrNewTerm x name _ _ => HasSec s x ∧ RootLevel name
  | .setTerms x ts kw => HasSec s x ∧ ts = [] ∧ ∀ e ∈ kw, RootLevel e.1
  | .addArg _ a _ => NoSectionColumn [a]
  | .removeChild _ c => Removable s c
  | .setItem t name v => if (s.heap t).cls.isSection then HasSec s t ∧ RootLevel name
      else v = .none → ∀ c ∈ (s.heap t).children, Removable s c
  | .setValue t _ => (s.heap t).cls.isSection = false
  | .sortSections _ | .create .. | .sortByTerm .. | .removeArg .. | .sectionDelItem .. | .newChild .. | .getOrNewChild .. | .registerClass ..
  | .unregisterClass _ | .ensureIdentifier | .updateVersion | .updateName .. | .asVersion _ | .cleanse => True
  | .loadDeclarations _ _ ds => ds = []
  | .addChild .. | .setSection .. | .cleanUnused | .setAttr .. => False

/-- The states that a client reaches by such calls on a new document. Calls may raise. -/
inductive OrderlyHistory : St → Prop
  | new (env : Env) (classes : Dict Cls) : OrderlyHistory (newDoc env classes)
  | step {s : St} (op : Op) (h : OrderlyHistory s) (hv : op.valid s) (ho : Orderly s op) : OrderlyHistory (after op.run s)

end Spec
