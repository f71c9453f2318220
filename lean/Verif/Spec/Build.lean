import Verif.Spec.Outline
import Verif.Spec.Names
import Verif.Model.DocOps
/-! Client programs that build what an outline says, call by call. The names of the outline may be spelt with capitals. -/
namespace Spec
open Py Metatab

mutual
/-- The item with names in lower case. -/
def Item.low : Item → Item
  | .mk n v ks => .mk (lower n) v (lowL ks)
def lowL : List Item → List Item
  | [] => []
  | k :: ks => k.low :: lowL ks
end

/-- The section with names of terms in lower case. -/
def Part.low (d : Part) : Part := { d with items := lowL d.items }

mutual
/-- Names of one part, other than `section`, and values that are stored as they are. -/
def Item.given : Item → Prop
  | .mk n v ks => PlainPart n ∧ lower n ≠ py!"section" ∧ cleanValue v = true ∧ givenL ks
def givenL : List Item → Prop
  | [] => True
  | k :: ks => k.given ∧ givenL ks
end

mutual
/-- `c = t.new_child(name, value)`, and the same for the children of the item below `c`. -/
def addKid (t : Nat) : Item → M Unit
  | .mk n v ks => do
    let c ← newChild t n (asVal v) []
    addKids c ks
def addKids (t : Nat) : List Item → M Unit
  | [] => pure ()
  | k :: ks => do
    addKid t k
    addKids t ks
end

/-- `t = section.new_term(name, value)`, and `new_child` for everything below. -/
def addItem (x : Nat) : Item → M Unit
  | .mk n v ks => do
    let t ← newTerm x n (asVal v) []
    addKids t ks

/-- All terms of a section. -/
def addItems (x : Nat) : List Item → M Unit
  | [] => pure ()
  | i :: is => do
    addItem x i
    addItems x is

/-- `section = doc.new_section(name, columns)` and its terms, for all sections. -/
def addParts : List Part → M Unit
  | [] => pure ()
  | d :: ds => do
    let x ← newSection d.name d.cols
    addItems x d.items
    addParts ds

/-- The whole document: the first part is the root section, which is there already. -/
def buildDoc : List Part → M Unit
  | [] => pure ()
  | r :: ds => do
    let s ← M.get
    addItems s.root r.items
    addParts ds

/-- Sections that can be made. -/
structure Part.given (d : Part) : Prop where
  name : d.name ≠ []
  stripped : strip d.name = d.name
  cols : ∀ c ∈ d.cols, strip c = c
  free : py!"section" ∉ d.cols.map lower
  items : givenL d.items

/-- The terms of the document's sections are terms. -/
def TermsOnly (s : St) : Prop := ∀ kv ∈ s.sections, ∀ t ∈ (s.heap kv.2).terms, (s.heap t).cls.isSection = false

/-- The terms of the sections are in the document's list of terms. -/
def AllListed (s : St) : Prop := ∀ kv ∈ s.sections, ∀ t ∈ (s.heap kv.2).terms, t ∈ s.terms

/-- No declared value name and no value name of a listed term is `section`, except for terms called `DeclareSection`. -/
structure SecTvn (s : St) : Prop where
  decl : ∀ n, n ≠ py!"root.declaresection" → lower (declProp s.declTerms n (py!"termvaluename") (py!"@value")) ≠ py!"section"
  terms : ∀ kv ∈ s.sections, ∀ t ∈ (s.heap kv.2).terms, (s.heap t).rt ≠ py!"declaresection" → lower (s.heap t).tvn ≠ py!"section"

end Spec
