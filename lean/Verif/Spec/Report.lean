import Verif.Spec.Include
import Verif.Model.Report
/-! # Why an include fails

Told from the row alone: `dir` is the directory of the file in which the row stands, `ref` the file itself. -/
namespace Spec
open Py

/-- The row cannot be followed for this reason. -/
def Hinders (files : Str → Option (List (List Str))) (decl : Str → Str → Option Str) (dir ref : Str) (row : List Str) : Metatab.Cause → Prop
  | .noPath n => includeRow row = some n ∧ includeTarget dir n = none
  | .noDecl n => declareRow row = some n ∧ decl dir n = none
  | .loop t => leads decl dir row = some t ∧ t = ref
  | .unreadable t => leads decl dir row = some t ∧ t ≠ ref ∧ files t = none

/-- The sentence that names the files, the innermost first. -/
def passed : List Str → Str
  | [] => []
  | n :: ns => py!"; in '" ++ n ++ py!"' " ++ passed ns

end Spec
