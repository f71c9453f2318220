import Verif.Lemmas.OpTables
import Verif.Lemmas.Examples
/-! # C70: no call but those that read files touches the declarations -/
namespace Metatab
open Py

/-- A call that reads rows or declaration files. -/
def _root_.Spec.reads : Op → Prop
  | .parse .. | .loadDeclarations .. => True
  | _ => False
/-- A call that changes the registered classes. -/
def _root_.Spec.registers : Op → Prop
  | .registerClass .. | .unregisterClass _ => True
  | _ => False

/-- The document after calls, one after the other, whether they return or raise. -/
def _root_.Spec.afterAll (s : St) (ops : List Op) : St := ops.foldl (fun s op => after op.run s) s

theorem after_tabs (op : Op) (s : St) (h : ¬ Spec.reads op) :
    (after op.run s).declTerms = s.declTerms ∧ (after op.run s).declSecs = s.declSecs ∧
      (after op.run s).superTerms = s.superTerms ∧ (after op.run s).derived = s.derived := by
  have hop := tab_op op
  have gen : Pres SameTab op.run → (after op.run s).declTerms = s.declTerms ∧ (after op.run s).declSecs = s.declSecs ∧
      (after op.run s).superTerms = s.superTerms ∧ (after op.run s).derived = s.derived := by
    intro hp
    have d := (hp s).doc
    rw [after_eq]
    exact ⟨d.terms, d.secs, d.sup, d.der⟩
  cases op <;> first
    | exact gen hop
    | exact absurd trivial h
    | exact ⟨rfl, rfl, rfl, rfl⟩

/-- **C70** Whatever calls a client makes on a document, its sections and its terms, in whatever order, whether they return or raise: as long
as none of them reads rows or declaration files, the declared terms and sections and the tables of super-terms and derived terms stay as
they are. -/
theorem C70_calls (ops : List Op) (s : St) (h : ∀ op ∈ ops, ¬ Spec.reads op) :
    (Spec.afterAll s ops).declTerms = s.declTerms ∧ (Spec.afterAll s ops).declSecs = s.declSecs ∧
      (Spec.afterAll s ops).superTerms = s.superTerms ∧ (Spec.afterAll s ops).derived = s.derived := by
  induction ops generalizing s with
  | nil => exact ⟨rfl, rfl, rfl, rfl⟩
  | cons op ops ih =>
    obtain ⟨a, b, c, d⟩ := after_tabs op s (h op (List.mem_cons_self ..))
    obtain ⟨a', b', c', d'⟩ := ih (after op.run s) fun x hx => h x (List.mem_cons_of_mem _ hx)
    exact ⟨a'.trans a, b'.trans b, c'.trans c, d'.trans d⟩

/-- **C41** As long as no call registers or unregisters a class, the registry stays as it is, also when rows and declarations are read. -/
theorem C41_calls (ops : List Op) (s : St) (h : ∀ op ∈ ops, ¬ Spec.registers op) : (Spec.afterAll s ops).classes = s.classes := by
  induction ops generalizing s with
  | nil => rfl
  | cons op ops ih =>
    refine (ih (after op.run s) fun x hx => h x (List.mem_cons_of_mem _ hx)).trans ?_
    have h1 := h op (List.mem_cons_self ..)
    have hop := tab_op op
    rw [after_eq]
    cases op <;> first
      | exact (hop s).doc.cls
      | exact absurd trivial h1
      | exact cls_parse _ _ _ _ s
      | exact cls_loadDeclarations _ _ _ s

/-- Calls that change the document, one of them refused, none of which reads a file. -/
example : let ops := [Op.newSection (py!"Contacts") [py!"Email"], .newTerm 1 (py!"Wrangler") (.str (py!"Bob")) [(py!"Email", .str (py!"b@x"))],
      .updateVersion, .delSection (py!"Nope"), .cleanUnused]
    (∀ op ∈ ops, ¬ Spec.reads op ∧ ¬ Spec.registers op) ∧ (Spec.afterAll exDoc ops).next ≠ exDoc.next ∧
      ((Spec.afterAll exDoc ops).sections.has (py!"contacts") = true) := by
  refine ⟨?_, by decide +kernel, by decide +kernel⟩
  intro op h
  simp only [List.mem_cons, List.not_mem_nil, or_false] at h
  rcases h with rfl | rfl | rfl | rfl | rfl <;> exact ⟨id, id⟩

end Metatab
