import Verif.Py.Str
/-! Specification of term-name matching, independent of the model. -/
namespace Spec
open Py

/-- One part of a pattern: `*` matches anything, other text matches itself ignoring case. -/
def PartMatches (pat name : Str) : Prop := pat = ['*'] ∨ lower pat = lower name

instance (a b : Str) : Decidable (PartMatches a b) := by unfold PartMatches; infer_instance

/-- A pattern part as users write it: no dot, not empty, no blanks around it. -/
structure PlainPart (s : Str) : Prop where
  nodot : '.' ∉ s
  nonempty : s ≠ []
  stripped : strip s = s

/-- Two spellings of the same name part: equal once blanks around them and letter case are ignored. -/
def SamePart (a b : Str) : Prop := lower (strip a) = lower (strip b)

end Spec
