import Verif.Model.Heap
/-! Changes that only add to a document. -/
namespace Spec
open Py Metatab

/-- The section `o` has become `o'`: it may have got more terms and another header row, and the name of its row and its own link may
differ. Its name, its columns and the terms it had are as they were. (The name is the value. A section whose value is called `section` is
the exception.) -/
structure KeptSection (o o' : Obj) : Prop where
  same : { o' with pt := o.pt, rt := o.rt, value := o.value, sec := o.sec, headerArgs := o.headerArgs, defTvn := o.defTvn,
                   children := o.children, terms := o.terms } = o
  value : lower o.tvn ≠ py!"section" → o'.value = o.value
  children : o.children <+: o'.children
  terms : o.terms <+: o'.terms

/-- From `s` to `s'`, terms and sections are only added. -/
structure OnlyAdds (s s' : St) : Prop where
  root : s'.root = s.root
  next : s.next ≤ s'.next
  /-- the document's list of root-level terms grows at its end -/
  terms : s.terms <+: s'.terms
  /-- the document's table of sections grows at its end; no section is replaced -/
  sections : s.sections <+: s'.sections
  /-- no term changes that is not a section -/
  term : ∀ j, j < s.next → (s.heap j).cls.isSection = false → s'.heap j = s.heap j
  sect : ∀ j, j < s.next → (s.heap j).cls.isSection = true → KeptSection (s.heap j) (s'.heap j)

end Spec
