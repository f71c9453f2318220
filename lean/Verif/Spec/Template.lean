import Verif.Spec.Quiet
import Verif.Spec.Find
/-! What a new file contains. -/
namespace Spec
open Py Metatab

/-- The terms of a new file besides `Declare`: all are empty, but the version is 1. -/
def newItems : List Item :=
  [.mk (py!"title") none [], .mk (py!"description") none [], .mk (py!"identifier") none [], .mk (py!"name") none [], .mk (py!"dataset") none [],
   .mk (py!"origin") none [], .mk (py!"space") none [], .mk (py!"time") none [], .mk (py!"grain") none [], .mk (py!"variant") none [],
   .mk (py!"version") (some (py!"1")) []]

/-- The sections of a new file, without terms. Three of them have a column without a name. -/
def newParts : List Part :=
  [⟨py!"References", [py!"Name", py!"Description", []], []⟩, ⟨py!"Resources", [py!"Name", py!"Description", []], []⟩,
   ⟨py!"Documentation", [py!"Title", py!"Description", []], []⟩, ⟨py!"Contacts", [py!"Email", py!"Organization", py!"Url"], []⟩,
   ⟨py!"Schema", [py!"DataType", py!"AltName", py!"Description"], []⟩]

/-- The outline of a new file. -/
def newOutline : List Part := ⟨py!"Root", [], declItems [py!"metatab-latest"] ++ newItems⟩ :: newParts

/-- The text of a new file. -/
def newText : Str :=
  py!"Declare,metatab-latest\r\n" ++ py!"Title,\r\n" ++ py!"Description,\r\n" ++ py!"Identifier,\r\n" ++ py!"Name,\r\n" ++ py!"Dataset,\r\n" ++
  py!"Origin,\r\n" ++ py!"Space,\r\n" ++ py!"Time,\r\n" ++ py!"Grain,\r\n" ++ py!"Variant,\r\n" ++ py!"Version,1\r\n" ++ py!"\"\"\r\n" ++
  py!"Section,References,Name,Description,\r\n" ++ py!"\"\"\r\n" ++ py!"Section,Resources,Name,Description,\r\n" ++ py!"\"\"\r\n" ++
  py!"Section,Documentation,Title,Description,\r\n" ++ py!"\"\"\r\n" ++ py!"Section,Contacts,Email,Organization,Url\r\n" ++ py!"\"\"\r\n" ++
  py!"Section,Schema,DataType,AltName,Description\r\n"

/-- What reading the declaration document leaves behind: nothing but declarations, none of which gives an empty name to a value or makes
another term stand for an identifier, a name or a dataset. The terms of the declaration document itself are listed too, without being in a
section of the document; they are not identifiers, names or datasets. -/
structure Declares (s : St) : Prop where
  quiet : Quiet s [py!"metatab-latest"]
  own : ∀ t ∈ (s.heap s.root).terms, t ∈ s.terms
  others : ∀ t ∈ s.terms, t ∉ (s.heap s.root).terms → Searchable s.heap t ∧ lower (s.heap t).rt ∉ [py!"identifier", py!"name", py!"dataset"]
  valueNames : ∀ d ∈ s.declTerms, ∀ v ∈ d.2.props.get? (py!"termvaluename"), v ≠ []
  supers : ∀ n ∈ [py!"root.identifier", py!"root.name", py!"root.dataset"], s.derived.get? n = none

end Spec
