import Verif.Spec.Lines
import Verif.Model.Parser
/-! Rows that carry no information. -/
namespace Spec
open Py

/-- A row that is empty, or whose first cell is blank or a comment. -/
def NoiseRow (row : List Str) : Prop :=
  row = [] ∨ ∃ c rest, row = c :: rest ∧ ((∀ a ∈ c, isSpace a = true) ∨ CommentLine c)

/-- Two lists of rows that differ only in noise rows, inserted or removed at any places. -/
inductive SameRows : List (List Str) → List (List Str) → Prop
  | nil : SameRows [] []
  | both (row) {a b} : SameRows a b → SameRows (row :: a) (row :: b)
  | left {row a b} : NoiseRow row → SameRows a b → SameRows (row :: a) b
  | right {row a b} : NoiseRow row → SameRows a b → SameRows a (row :: b)

/-- Two file systems with the same files up to noise rows. -/
def SameFiles (f g : Metatab.Files) : Prop :=
  f.decl = g.decl ∧ ∀ p, (f.rows p = none ∧ g.rows p = none) ∨ ∃ a b, f.rows p = some a ∧ g.rows p = some b ∧ SameRows a b

end Spec
