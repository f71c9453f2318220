import Verif.Spec.Edit
/-! # Used and unused columns of the Schema section -/
namespace Spec
open Py Metatab

/-- The value shows something: a text that is not blank. -/
def Filled : Val → Prop
  | .str t => strip t ≠ []
  | _ => False

/-- The value is missing or a text. -/
def TextCell : Val → Prop
  | .none | .str _ => True
  | _ => False

/-- The columns of a table: its children called `column`. -/
def columnsOf (s : St) (t : Nat) : List Nat := (s.heap t).children.filter fun c => lower (s.heap c).rt = py!"column"

/-- The term has a property of that name with something in it: the last of its children of that name is filled. -/
def Gives (s : St) (c : Nat) (k : Str) : Prop :=
  ∃ pre d post, (s.heap c).children = pre ++ d :: post ∧ lower (s.heap d).rt = k ∧ Filled (s.heap d).value ∧
    ∀ e ∈ post, lower (s.heap e).rt ≠ k

/-- Some column of one of the tables has something under that name. -/
def UsedName (s : St) (tables : List Nat) (k : Str) : Prop := ∃ t ∈ tables, ∃ c ∈ columnsOf s t, Gives s c k

/-- The term is an empty property of a column of one of the tables. -/
def EmptyProp (s : St) (tables : List Nat) (d : Nat) : Prop :=
  ∃ t ∈ tables, ∃ c ∈ columnsOf s t, d ∈ (s.heap c).children ∧ ¬ Filled (s.heap d).value

end Spec
