import Verif.Props.Declared
import Verif.Props.Columns
/-! # C66: the columns of declared sections -/
namespace Metatab
open Py _root_.Spec

/-- The columns declared for the section `name`. -/
def _root_.Spec.DeclaredCols (d : Dict DSec) (name : Str) (cs : List Str) : Prop :=
  (∃ e, d.get? (lower name) = some e ∧ e.args = cs) ∨ d.get? (lower name) = none ∧ cs = []

theorem addDeclaredSection_run {s : St} {t : Nat} {n : Str} (hv : (s.heap t).value = .str n) :
    addDeclaredSection t s = .ok () { s with p := { s.p with declSecs := s.p.declSecs.set (lower n) ⟨Spec.cols (s.heap t).args, []⟩ } } := by
  simp [addDeclaredSection, hv, updP, cleanArgs_eq]

/-- **C66** A `DeclareSection` row records the section under its name, whatever the case: its columns are the cells of the row without
their outer blanks, blank cells left out, in order, and it has no terms yet. What was declared for it before is replaced. No other
declaration, no term and no section is touched. A declaration without a name is refused. -/
theorem C66_declared {s : St} {t : Nat} (hn : (s.heap t).joinLc = py!"root.declaresection") :
    (∀ n, (s.heap t).value = .str n → ∃ s', manageDeclare t s = .ok () s' ∧ s'.p.declSecs.get? (lower n) = some ⟨Spec.cols (s.heap t).args, []⟩ ∧
      (∀ k, k ≠ lower n → s'.p.declSecs.get? k = s.p.declSecs.get? k) ∧ s'.p.declTerms = s.p.declTerms ∧ s'.heap = s.heap ∧
      s'.terms = s.terms ∧ s'.sections = s.sections ∧ s'.declSecs = s.declSecs) ∧
    ((∀ n, (s.heap t).value ≠ .str n) → manageDeclare t s = .err .attributeError s) := by
  have hm : manageDeclare t s = addDeclaredSection t s := by simp [manageDeclare, hn]
  refine ⟨fun n hv => ⟨_, hm.trans (addDeclaredSection_run hv), ?_, fun k hk => ?_, rfl, rfl, rfl, rfl, rfl⟩, fun hv => ?_⟩
  · exact Dict.get?_set_self ..
  · exact (Dict.get?_set ..).trans (if_neg (Ne.symm hk))
  · rw [hm]
    unfold addDeclaredSection
    simp only [bind_run, obj_run]
    cases hw : (s.heap t).value with
    | str n => exact absurd hw (hv n)
    | _ => rfl

/-- The object of a new section. -/
def declSectionObj (term p r : Str) (value : Val) (args : List Str) (d : Bool) : Obj :=
  { Obj.blank with cls := .section, raw := term, pt := p, rt := r, value := value.mk, args := args.map strip, col := 1, isDecl := d }

theorem newSectionObj_inv {s s' : St} {term : Str} {v : Str} {args : List Str} {d : Bool} {t : Nat}
    (h : newSectionObj term (.str v) args d s = .ok t s') :
    t = s.next ∧ ∃ p r cs, s' = { s with next := s.next + 1 }.setObj s.next (declSectionObj term p r (.str v) cs d) ∧
      (args ≠ [] → cs = args) ∧ (args = [] → DeclaredCols s.declSecs v cs) := by
  unfold newSectionObj at h
  have key : ∀ cs, (do
      let i ← newTermObj .section term (.str v) cs none none 1 d
      let o ← obj i
      M.assert (o.joinLc = py!"root.section" ∨ o.joinLc = py!"root.root")
      return i) s = .ok t s' → t = s.next ∧ ∃ p r, s' = { s with next := s.next + 1 }.setObj s.next (declSectionObj term p r (.str v) cs d) := by
    intro cs h
    unfold newTermObj at h
    cases hp : splitTermLower term with
    | error e => simp only [bind_run, lift_run, hp] at h; cases h
    | ok pr =>
      obtain ⟨p, r⟩ := pr
      simp only [bind_run, lift_run, hp, alloc_run, obj_run, heap_setObj_self, assert_run] at h
      split at h
      · next heq =>
        split at heq
        · cases heq
          simp only [pure_run] at h
          cases h
          exact ⟨rfl, p, r, rfl⟩
        · cases heq
      · cases h
  by_cases ha : args ≠ []
  · rw [if_pos ha] at h
    obtain ⟨e, p, r, hs⟩ := key args h
    exact ⟨e, p, r, args, hs, fun _ => rfl, fun h => absurd h ha⟩
  · rw [if_neg ha, bind_run, lift_run] at h
    simp only [sectionArgs] at h
    obtain ⟨e, p, r, hs⟩ := key _ h
    refine ⟨e, p, r, _, hs, fun h => absurd h ha, fun _ => ?_⟩
    cases hd : s.declSecs.get? (lower v) with
    | none => exact .inr ⟨hd, by simp⟩
    | some e => exact .inl ⟨e, hd, by simp⟩

theorem newSectionObj_total (s : St) (v : Str) (args : List Str) : ∃ s', newSectionObj (py!"Root.Section") (.str v) args false s = .ok s.next s' := by
  have h2 : splitTermLower (py!"Root.Section") = .ok (ROOT, py!"section") := by decide
  have key : ∀ cs, ∃ s', (do
      let i ← newTermObj .section (py!"Root.Section") (.str v) cs none none 1 false
      let o ← obj i
      M.assert (o.joinLc = py!"root.section" ∨ o.joinLc = py!"root.root")
      return i) s = .ok s.next s' := by
    intro cs
    unfold newTermObj
    simp only [bind_run, lift_run, h2, alloc_run, obj_run, heap_setObj_self, assert_run]
    have hj : ∀ o : Obj, o.pt = ROOT → o.rt = py!"section" → o.joinLc = py!"root.section" := by
      intro o h1 h2; simp only [Obj.joinLc, Obj.join, h1, h2]; decide
    rw [if_pos (by simp only [decide_eq_true_eq]; exact .inl (hj _ rfl rfl))]
    exact ⟨_, rfl⟩
  unfold newSectionObj
  by_cases ha : args ≠ []
  · rw [if_pos ha]; exact key args
  · rw [if_neg ha, bind_run, lift_run]
    simp only [sectionArgs]
    exact key _

/-- **C66** `doc.new_section` makes a section with the declared columns, whatever columns are asked for; the columns asked for are used
for a section that is not declared. The section is entered under its name and nothing else changes. -/
theorem C66_new {s : St} (name : Str) (params : List Str) :
    ∃ s', newSection name params s = .ok s.next s' ∧
      (∀ e, s.declSecs.get? (lower name) = some e → (s'.heap s.next).args = e.args) ∧
      (s.declSecs.get? (lower name) = none → (s'.heap s.next).args = params.map strip) ∧
      (s'.heap s.next).cls = .section ∧ (s'.heap s.next).terms = [] ∧ s'.sections = s.sections.set (lower name) s.next ∧
      (∀ i, i ≠ s.next → s'.heap i = s.heap i) ∧ s'.terms = s.terms ∧ s'.p = s.p := by
  obtain ⟨s1, h1⟩ := newSectionObj_total s name params
  obtain ⟨-, p, r, cs, rfl, ha, hb⟩ := newSectionObj_inv h1
  unfold newSection
  rw [bind_run, h1]
  simp only [bind_run, modify_run, get_run]
  cases hd : s.declSecs.get? (lower name) with
  | none =>
    have hd' : Dict.get? (St.setObj { s with next := s.next + 1 } s.next (declSectionObj (py!"Root.Section") p r (.str name) cs false)).declSecs (lower name) = none := hd
    simp only [hd', pure_run]
    refine ⟨_, rfl, fun e h => (by cases h), fun _ => ?_, by simp [declSectionObj], by simp [declSectionObj, Obj.blank], rfl, fun i hi => by simp [hi], rfl, rfl⟩
    have : cs = params := by
      by_cases hp : params = []
      · rcases hb hp with ⟨e, he, -⟩ | ⟨-, h⟩
        · rw [hd] at he; cases he
        · rw [h, hp]
      · exact ha hp
    rw [this]; simp [declSectionObj]
  | some e =>
    have hd' : Dict.get? (St.setObj { s with next := s.next + 1 } s.next (declSectionObj (py!"Root.Section") p r (.str name) cs false)).declSecs (lower name) = some e := hd
    simp only [hd', upd_run, pure_run]
    refine ⟨_, rfl, fun e' h => ?_, fun h => (by cases h), by simp [declSectionObj], by simp [declSectionObj, Obj.blank], rfl, fun i hi => by simp [hi], rfl, rfl⟩
    cases h; simp

/-- **C66** The columns of a `Section` row are its cells if it has any, and otherwise those the document has declared for the section. -/
theorem C66_row_partial {s s' : St} {d : Bool} {t : Nat} {row : List Str} {n : Str} (hc : normalizeTerm (row.headD []) = .ok n)
    (hs : parserTermClass s n = .section) (h : rowTerm d row s = .ok t s') :
    (row.drop 2 ≠ [] → (s'.heap t).args = (row.drop 2).map strip) ∧
    (row.drop 2 = [] → ∃ cs, Spec.DeclaredCols s.declSecs ((row[1]?).getD []) cs ∧ (s'.heap t).args = cs.map strip) := by
  unfold rowTerm at h
  simp only [bind_run, lift_run, hc, get_run, hs] at h
  obtain ⟨rfl, p, r, cs, rfl, ha, hb⟩ := newSectionObj_inv h
  exact ⟨fun hr => by rw [ha hr]; simp [declSectionObj], fun hr => ⟨cs, hb hr, by simp [declSectionObj]⟩⟩

/-- A declare file for the section `Data`, with untidy column cells, and one that includes a file with an empty section. -/
def secFiles : Files :=
  { rows := fun n =>
      if n = py!"d.csv" then some [[py!"Section", py!"DeclaredTerms"], [py!"DeclareSection", py!"Data", py!" Title ", [], py!"Unit"]]
      else if n = py!"e.csv" then some [[py!"Include", py!"http://f"]]
      else if n = py!"http://f" then some [[py!"Title", py!"x"], [py!"Section", py!"Extra"]]
      else none
    decl := fun _ n => some n }
/-- A document with that section declared. -/
def secDoc : St := after (loadDeclarations secFiles 3 [py!"d.csv"]) exDoc
/-- While the declaration is read: the row has been turned into a term and placed, but not yet recorded. -/
def secMid : St := after (rowTerm true [py!"DeclareSection", py!"Data", py!" Title ", [], py!"Unit"]) exDoc

/-- The hypotheses of `C66_declared` can be met. -/
example : ∃ s', manageDeclare 1 secMid = .ok () s' ∧ s'.p.declSecs.get? (py!"data") = some ⟨[py!"Title", py!"Unit"], []⟩ := by
  obtain ⟨s', h1, h2, -⟩ := (C66_declared (s := secMid) (t := 1) (by decide +kernel)).1 (py!"Data") (by decide +kernel)
  have e : Spec.cols (secMid.heap 1).args = [py!"Title", py!"Unit"] := by decide +kernel
  rw [e] at h2
  exact ⟨s', h1, h2⟩

/-- The hypotheses of `C66_new` can be met: the declared columns are used even where others are asked for. -/
example : ((after (newSection (py!"DATA") [py!"Other"]) secDoc).heap secDoc.next).args = [py!"Title", py!"Unit"] := by
  obtain ⟨s', h, h1, -⟩ := C66_new (s := secDoc) (py!"DATA") [py!"Other"]
  have := h1 ⟨[py!"Title", py!"Unit"], []⟩ (by decide +kernel)
  unfold after; rw [h]; exact this
/-- A section that is not declared gets those asked for. -/
example : ((after (newSection (py!"Misc") [py!" Other"]) secDoc).heap secDoc.next).args = [py!"Other"] := by
  obtain ⟨s', h, -, h1, -⟩ := C66_new (s := secDoc) (py!"Misc") [py!" Other"]
  have := h1 (by decide +kernel)
  unfold after; rw [h]; exact this

/-- The hypotheses of `C66_row_partial` can be met. -/
example : ((after (rowTerm false [py!"Section", py!"Data"]) secDoc).heap secDoc.next).args = [py!"Title", py!"Unit"] := by
  have h : rowTerm false [py!"Section", py!"Data"] secDoc = .ok secDoc.next (after (rowTerm false [py!"Section", py!"Data"]) secDoc) :=
    ok_after (by decide +kernel)
  obtain ⟨cs, h1, h2⟩ := (C66_row_partial (n := py!"root.section") (by decide) (by decide +kernel) h).2 rfl
  rw [h2]
  rcases h1 with ⟨e, h1, rfl⟩ | ⟨h1, -⟩
  · have : secDoc.declSecs.get? (lower ([py!"Section", py!"Data"][1]?.getD [])) = some ⟨[py!"Title", py!"Unit"], []⟩ := by decide +kernel
    rw [this] at h1; cases h1; decide
  · exact absurd h1 (by decide +kernel)

/-- **C66** does not hold for a section declared by the document that holds it: a `Section` row takes the columns declared in earlier
loads only (metatab/doc.py:256-258, 499-500). -/
theorem C66_same_load_witness :
    let s := after (parseRows secFiles 3 (py!"m.csv") [[py!"Declare", py!"d.csv"], [py!"Section", py!"Data"]]) exDoc
    (parseRows secFiles 3 (py!"m.csv") [[py!"Declare", py!"d.csv"], [py!"Section", py!"Data"]] exDoc).val = .ok () ∧
    (s.sections.get? (py!"data")).map (fun x => (s.heap x).args) = some [] ∧ s.declSecs.get? (py!"data") = some ⟨[py!"Title", py!"Unit"], []⟩ := by
  decide +kernel

/-- **C66** does not hold for a `Section` row padded with blank cells, as in a rectangular table: the blank cells count as columns. -/
theorem C66_padded_witness :
    let s := after (parseRows secFiles 3 (py!"m.csv") [[py!"Section", py!"Data", []]]) secDoc
    (s.sections.get? (py!"data")).map (fun x => (s.heap x).args) = some [[]] := by
  decide +kernel

/-- **C36** Declarations given to the constructor: what the declare file includes is not loaded either, so that a section without terms
does not come to the document, but its root-level terms do. -/
theorem C36_load_witness :
    let s := after (loadDeclarations secFiles 3 [py!"e.csv"]) exDoc
    (loadDeclarations secFiles 3 [py!"e.csv"] exDoc).val = .ok () ∧ s.sections.keys = [py!"root"] ∧
    s.terms.map (fun t => (s.heap t).join) = [py!"root.declare", py!"root.include", py!"root.title"] := by
  decide +kernel

end Metatab
