import Verif.Spec.Reader
/-! When two documents are the same up to the identity of their objects. -/
namespace Spec
open Py Metatab

/-- The term can be reached in the document: it is listed by the document or by a section, or it is below the root section or below
such a term. -/
inductive InDoc (s : St) : Nat → Prop
  | top {t : Nat} : t ∈ s.terms → InDoc s t
  | listed {t x : Nat} {k : Str} : s.sections.get? k = some x → t ∈ (s.heap x).terms → InDoc s t
  | root {t : Nat} : t ∈ (s.heap s.root).children → InDoc s t
  | child {t q : Nat} : InDoc s q → t ∈ (s.heap q).children → InDoc s t

/-- The map `f` takes the terms of document `s` to those of document `s'` and keeps everything that can be observed. -/
structure Iso (s s' : St) (f : Nat → Nat) : Prop where
  root : f s.root = s'.root
  inj : ∀ t u, InDoc s t → InDoc s u → f t = f u → t = u
  notRoot : ∀ t, InDoc s t → f t ≠ s'.root
  names : ∀ t, InDoc s t → (s'.heap (f t)).pt = (s.heap t).pt ∧ (s'.heap (f t)).rt = (s.heap t).rt ∧
    (s'.heap (f t)).value = (s.heap t).value ∧ (s'.heap (f t)).tvn = (s.heap t).tvn ∧ (s'.heap (f t)).cpt = (s.heap t).cpt
  parent : ∀ t, InDoc s t → (s'.heap (f t)).parent = (s.heap t).parent.map f
  children : ∀ t, InDoc s t → (s'.heap (f t)).children = (s.heap t).children.map f
  rootChildren : (s'.heap s'.root).children = (s.heap s.root).children.map f
  terms : s'.terms = s.terms.map f
  sections : s'.sections.keys = s.sections.keys
  columns : ∀ k x x', s.sections.get? k = some x → s'.sections.get? k = some x' →
    (s'.heap x').value = (s.heap x).value ∧ (s'.heap x').args = (s.heap x).args
  sectionTerms : ∀ k x x', s.sections.get? k = some x → s'.sections.get? k = some x' → (s'.heap x').terms = (s.heap x).terms.map f
  sec : ∀ t, InDoc s t → ∃ k, (s.heap t).sec = s.sections.get? k ∧ (s'.heap (f t)).sec = s'.sections.get? k

/-- Two documents are the same up to the identity of their objects. -/
def SameDoc (s s' : St) : Prop := ∃ f, Iso s s' f

end Spec
