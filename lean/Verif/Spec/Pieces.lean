import Verif.Spec.SameDoc
/-! Documents that differ in the order of their sections only. -/
namespace Spec
open Py Metatab

/-- The names, in lower case, in the section rows of a file. -/
def sectionNames (rows : List (List Str)) : List Str :=
  rows.filterMap fun row => match kind row with | .section n _ => some (lower n) | _ => none

/-- The map `f` takes the terms of document `s` to those of document `s'` and keeps everything that can be observed, except the order of
the sections, and with it the order of the terms in the lists of the whole document. -/
structure SectionIso (s s' : St) (f : Nat → Nat) : Prop where
  root : f s.root = s'.root
  inj : ∀ t u, InDoc s t → InDoc s u → f t = f u → t = u
  notRoot : ∀ t, InDoc s t → f t ≠ s'.root
  names : ∀ t, InDoc s t → (s'.heap (f t)).pt = (s.heap t).pt ∧ (s'.heap (f t)).rt = (s.heap t).rt ∧
    (s'.heap (f t)).value = (s.heap t).value ∧ (s'.heap (f t)).tvn = (s.heap t).tvn ∧ (s'.heap (f t)).cpt = (s.heap t).cpt
  parent : ∀ t, InDoc s t → (s'.heap (f t)).parent = (s.heap t).parent.map f
  children : ∀ t, InDoc s t → (s'.heap (f t)).children = (s.heap t).children.map f
  rootChildren : (s'.heap s'.root).children.Perm ((s.heap s.root).children.map f)
  terms : s'.terms.Perm (s.terms.map f)
  sections : s'.sections.keys.Perm s.sections.keys
  columns : ∀ k x x', s.sections.get? k = some x → s'.sections.get? k = some x' →
    (s'.heap x').value = (s.heap x).value ∧ (s'.heap x').args = (s.heap x).args
  sectionTerms : ∀ k x x', s.sections.get? k = some x → s'.sections.get? k = some x' → (s'.heap x').terms = (s.heap x).terms.map f
  sec : ∀ t, InDoc s t → ∃ k, (s.heap t).sec = s.sections.get? k ∧ (s'.heap (f t)).sec = s'.sections.get? k

/-- Two documents have the same sections, with the same terms in them. -/
def SameSections (s s' : St) : Prop := ∃ f, SectionIso s s' f

end Spec
