import Verif.Model.Dirs
/-! What directories there are. -/
namespace Spec
open Metatab

/-- A file system as operating systems keep it: an entry is below a directory, no path is listed twice, the root has no entry. -/
structure TreeOk (t : FTree) : Prop where
  below : ∀ n p, t.look (n :: p) ≠ none → t.look p = some .dir
  once : (t.map (·.1)).Nodup
  noRoot : [] ∉ t.map (·.1)

/-- The path or a directory above it is a file. -/
def Blocked (t : FTree) (p : FPath) : Prop := ∃ q b, q <:+ p ∧ t.look q = some (.file b)

/-- The directories of a path that are made: the path itself and all above it. -/
def Needed (ps : List FPath) (q : FPath) : Prop := ∃ p ∈ ps, q <:+ p

instance (ps : List FPath) (q : FPath) : Decidable (Needed ps q) := by unfold Needed; infer_instance

end Spec
