import Verif.Model.AsDict
/-! What the entries of a converted term should be, written down without looking at the loop that fills them. -/
namespace Spec
open Py Metatab

/-- Each name once, in the order of first occurrence. -/
def distinctNames : List Str → List Str
  | [] => []
  | x :: l => x :: (distinctNames l).filter (· ≠ x)

/-- Strings stay, everything else counts as empty. -/
def text : DVal → Str
  | .val (.str s) => s
  | _ => []

/-- A value that can be joined to a string. -/
def Textual (v : DVal) : Prop := (∃ s, v = .val (.str s)) ∨ v.truthy = false

/-- The words with a blank between each two. -/
def spaced : List Str → Str
  | [] => []
  | [w] => w
  | w :: ws => w ++ ' ' :: spaced ws

/-- The entry for a name under which children of an undeclared type have the given values. -/
def entryAny : List DVal → Option DVal
  | [] => none
  | [v] => some v
  | vs => some (.list vs)

/-- The entry for a name whose children are declared `sequence`. -/
def entrySeq : List DVal → Option DVal
  | [] => none
  | vs => some (.list vs)

/-- The entry for a name whose children are declared `sconcat`. -/
def entrySpaced : List DVal → Option DVal
  | [] => none
  | vs => some (.val (.str (spaced (vs.map text))))

/-- The entry for a name whose children are declared `bconcat`. -/
def entryJoined : List DVal → Option DVal
  | [] => none
  | vs => some (.val (.str (vs.map text).flatten))

/-- The declared child property types that are treated specially. -/
def specialTypes : List Str := [py!"scalar", py!"sequence", py!"sconcat", py!"bconcat"]

/-- The children of the given terms that have the name `n`. -/
def namedIn (s : St) (ts : List Nat) (n : Str) : List Nat := ts.filter fun c => lower (s.heap c).rt = n

/-- The name the value of a term gets. -/
def valueName (rvn : Bool) (o : Obj) : Str := if rvn then lower o.tvn else py!"@value"

end Spec
