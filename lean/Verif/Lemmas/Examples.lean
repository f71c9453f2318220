import Verif.Model.History
import Verif.Lemmas.Monad
/-! Concrete documents used by the examples beside the theorems. -/
namespace Metatab
open Py

/-- Surroundings without files; decomposition is the identity; sets are listed in insertion order. -/
def exEnv : Env := { nfkd := id, setOrd := id, uuid := fun _ => py!"uuid-1" }

/-- No files. -/
def noFiles : Files := ⟨fun _ => none, fun _ _ => none⟩

/-- The empty document. -/
def exDoc : St := newDoc exEnv

/-- The result of a computation, without the state. -/
def Res.val {α : Type} : Res α → Except Err α
  | .ok a _ => .ok a
  | .err e _ => .error e

theorem ok_after {α : Type} {m : M α} {s : St} {a : α} (h : (m s).val = .ok a) : m s = .ok a (after m s) := by
  unfold after
  cases hm : m s <;> rw [hm] at h <;> cases h
  rfl

/-- Parse rows without a file system into a new document. -/
def exParse (rows : List (List Str)) : St := after (parseRows noFiles 3 (py!"doc.csv") rows) exDoc

theorem exParse_reach {allow : Op → Prop} (rows : List (List Str)) (h : allow (.parse noFiles 3 (py!"doc.csv") rows)) :
    Reach allow (exParse rows) := by
  unfold exParse exDoc
  exact Reach.step (.parse noFiles 3 (py!"doc.csv") rows) (.new exEnv _) h trivial

/-- Name and value of a list of terms. -/
def show_ (s : St) (ts : List Nat) : List (Str × Val) := ts.map fun t => ((s.heap t).joinLc, (s.heap t).value)

end Metatab
