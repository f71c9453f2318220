import Verif.Props.Agree
import Verif.Props.RoundTripDecl
/-! # C15: Declare files and the lists of terms -/
namespace Metatab
open Py _root_.Spec

/-- **C15 fails for documents with a declare file.** The terms of a declare file are not yielded to the document, but the section of the
declare file that lists them adds them to the document's list (metatab/parser.py:512-513, metatab/terms.py:750). The section itself is not one
of the document's. So a search over the whole document finds the two `DeclareTerm` rows of the declare file, and no section of the document
lists them. -/
theorem C15_declare_witness : Reach Op.noAddChild quietDoc ∧ ¬ ListsAgree quietDoc ∧ find quietDoc (py!"Root.DeclareTerm") = .ok [3, 5] ∧
    ∀ k x, quietDoc.sections.get? k = some x → 3 ∉ (quietDoc.heap x).terms ∧ 5 ∉ (quietDoc.heap x).terms := by
  have secs : quietDoc.sections = [(py!"root", 0), (py!"schema", 9)] := by decide +kernel
  have key : ∀ k x, quietDoc.sections.get? k = some x → 3 ∉ (quietDoc.heap x).terms ∧ 5 ∉ (quietDoc.heap x).terms := by
    intro k x h
    have hx : x = 0 ∨ x = 9 := by
      rw [secs] at h
      simp only [Dict.get?] at h
      split at h
      · exact .inl (Option.some.inj h).symm
      · split at h
        · exact .inr (Option.some.inj h).symm
        · cases h
    rcases hx with rfl | rfl <;> decide +kernel
  refine ⟨quietDoc_reach, fun h => ?_, by decide +kernel, key⟩
  obtain ⟨x, _, ⟨k, hk⟩, hm⟩ := (h 3).1 (by decide +kernel)
  exact (key k x hk).1 hm

end Metatab
