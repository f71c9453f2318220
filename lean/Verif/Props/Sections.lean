import Verif.Lemmas.Examples
import Verif.Lemmas.Dict
import Verif.Props.Names
/-! # C24–C26: the section table -/
namespace Metatab
open Py

/-- The object `SectionTerm(None, name)` creates. -/
def sectionObj (s : St) (name : Str) (args : List Str) : Obj :=
  { Obj.blank with cls := .section, raw := py!"Root.Section", pt := py!"root", rt := py!"section", value := (Val.str name).mk, col := 1,
                   args := (if args ≠ [] then args else match s.declSecs.get? (lower name) with | some d => d.args | none => []).map strip }

theorem newSectionObj_run (s : St) (name : Str) (args : List Str) :
    newSectionObj (py!"Root.Section") (.str name) args false s
      = .ok s.next ({ s with next := s.next + 1 }.setObj s.next (sectionObj s name args)) := by
  have e : splitTermLower (py!"Root.Section") = .ok (py!"root", py!"section") := by decide
  unfold newSectionObj sectionObj
  by_cases ha : args = []
  · subst ha
    simp [newTermObj, e, sectionArgs, Obj.joinLc, Obj.blank]
    rfl
  · simp [newTermObj, e, Obj.joinLc, Obj.blank, ha]
    rfl

/-- What `get_or_new_section` does when its test fails. -/
theorem getOrNewSection_new (s : St) {name : Str} (hx : s.sections.get? name = none) (params : List Str) :
    getOrNewSection name params s = .ok s.next
      { s with next := s.next + 1, heap := fun j => if j = s.next then sectionObj s name params else s.heap j,
               sections := s.sections.set (lower name) s.next } := by
  simp [getOrNewSection, Dict.has, hx, newSectionObj_run, St.setObj]

/-- **C24** (partial: full claim for every name; the code compares the name as given with lower-case keys, so the claim only holds for
names without upper-case letters, see `C24_replaces`.) For a lower-case name, an existing section is returned and nothing changes; when
there is none, exactly one new section is created, under this name, after all others. -/
theorem C24_lower_case_partial (s : St) {name : Str} (hl : lower name = name) (params : List Str) :
    (∀ x, s.sections.get? name = some x → getOrNewSection name params s = .ok x s) ∧
    (s.sections.get? name = none → ∃ s', getOrNewSection name params s = .ok s.next s' ∧
      s'.sections = s.sections ++ [(name, s.next)] ∧ (s'.heap s.next).cls = .section ∧ (s'.heap s.next).value = (Val.str name).mk ∧
      s'.terms = s.terms ∧ ∀ i, i ≠ s.next → s'.heap i = s.heap i) := by
  constructor
  · intro x hx
    simp [getOrNewSection, Dict.has, hx, hl]
  · intro hx
    have hk : name ∉ s.sections.keys := Dict.get?_eq_none.1 hx
    refine ⟨_, getOrNewSection_new s hx params, ?_, ?_, ?_, rfl, ?_⟩
    · simp only [hl]; exact Dict.set_append hk _
    · simp [sectionObj]
    · simp [sectionObj]
    · intro i hi; simp [hi]

/-- C24 fails for any name with an upper-case letter: since all keys are lower-case, the code makes a new section object and puts it in
the place of the existing one. -/
theorem C24_replaces (s : St) {name : Str} (hl : lower name ≠ name) (hk : ∀ k ∈ s.sections.keys, lower k = k) (params : List Str) :
    ∃ s', getOrNewSection name params s = .ok s.next s' ∧ s'.sections.get? (lower name) = some s.next := by
  have hx : s.sections.get? name = none := by
    rw [Dict.get?_eq_none]; intro h; exact hl (hk _ h)
  exact ⟨_, getOrNewSection_new s hx params, by simp⟩

/-- A document with a section that holds a term. -/
def exSections : St := after (do
  let x ← newSection (py!"Resources")
  let _ ← newTerm x (py!"Root.Datafile") (.str (py!"a.csv"))) exDoc

/-- C24 fails: asking for the existing section `Resources` loses its term. -/
theorem C24_witness :
    (exSections.sections.get? (py!"resources")).map (fun x => (exSections.heap x).terms) = some [2] ∧
    (let s' := after (getOrNewSection (py!"Resources")) exSections
     (s'.sections.get? (py!"resources")).map fun x => (s'.heap x).terms) = some [] := by decide

example : lower (py!"resources") = py!"resources" ∧ exSections.sections.get? (py!"resources") = some 1 ∧
    exSections.sections.get? (py!"schema") = none := by decide

theorem removeAll_run (s : St) (l : List Nat) (hn : l.Nodup) (hm : ∀ t ∈ l, t ∈ s.terms) :
    removeAll l s = .ok () { s with terms := l.foldl (fun acc t => acc.erase t) s.terms } := by
  induction l generalizing s with
  | nil => rfl
  | cons t l ih =>
    rw [List.nodup_cons] at hn
    simp only [removeAll, bind_run, get_run, ite_run, modify_run, hm t List.mem_cons_self, if_true]
    rw [ih _ hn.2]
    · rfl
    · intro u hu
      have hne : u ≠ t := fun e => hn.1 (e ▸ hu)
      exact (List.mem_erase_of_ne hne).2 (hm u (List.mem_cons_of_mem _ hu))

theorem foldl_erase_eq_filter {l m : List Nat} (hl : l.Nodup) :
    m.foldl (fun acc t => acc.erase t) l = l.filter (· ∉ m) := by
  induction m generalizing l with
  | nil => simp
  | cons t m ih =>
    rw [List.foldl_cons, ih (hl.erase t), hl.erase_eq_filter, List.filter_filter]
    apply List.filter_congr; intro a _
    by_cases h : a = t <;> simp [h]

/-- **C25** (partial: full claim for every name; with an upper-case letter in the name the terms stay, see `C25_terms_stay`.) Deleting a
section by its lower-case name removes the section and exactly its terms; everything else keeps its place. Hypotheses that hold for every
document whose sections list terms of the document without repetition. -/
theorem C25_lower_case_partial (s : St) {name : Str} (hl : lower name = name) {x : Nat} (hx : s.sections.get? name = some x)
    (hn : s.terms.Nodup) (hs : (s.heap x).terms.Nodup) (hm : ∀ t ∈ (s.heap x).terms, t ∈ s.terms) (hk : s.sections.keys.Nodup) :
    delSection name s = .ok () { s with
      terms := s.terms.filter (· ∉ (s.heap x).terms)
      sections := s.sections.filter fun kv => kv.1 ≠ name } := by
  simp only [delSection, bind_run, get_run, hx, removeAll_run s _ hs hm, modify_run, hl, foldl_erase_eq_filter hn,
    Dict.del_eq_filter hk]

/-- C25 fails for any name with an upper-case letter: the section goes and the terms stay. -/
theorem C25_terms_stay (s : St) {name : Str} (hl : lower name ≠ name) (hk : ∀ k ∈ s.sections.keys, lower k = k) :
    delSection name s = .ok () { s with sections := s.sections.del (lower name) } := by
  have hx : s.sections.get? name = none := by
    rw [Dict.get?_eq_none]; intro h; exact hl (hk _ h)
  simp [delSection, hx]

/-- C25 fails: after `del doc['Resources']` the document still lists the section's term; with `del doc['resources']` it does not. -/
theorem C25_witness :
    (let s' := after (delSection (py!"Resources")) exSections; (s'.sections.keys, s'.terms)) = ([py!"root"], [2]) ∧
    (let s' := after (delSection (py!"resources")) exSections; (s'.sections.keys, s'.terms)) = ([py!"root"], []) := by decide

example : exSections.sections.get? (py!"resources") = some 1 ∧ exSections.terms = [2] ∧ (exSections.heap 1).terms = [2] := by decide

/-- **C25** Deleting a section that does not exist does nothing. -/
theorem C25_absent (s : St) {name : Str} (h1 : s.sections.get? name = none) (h2 : s.sections.get? (lower name) = none) :
    delSection name s = .ok () s := by
  have e : s.sections.del (lower name) = s.sections := by
    have hk := Dict.get?_eq_none.1 h2
    generalize s.sections = d at hk
    induction d with
    | nil => rfl
    | cons kv d ih =>
      obtain ⟨k, v⟩ := kv
      simp only [Dict.keys, List.map_cons, List.mem_cons, not_or] at hk
      have : ¬ k = lower name := fun e => hk.1 e.symm
      simp [Dict.del, this, ih hk.2]
  simp [delSection, h1, e]

/-- **C26** Adding a section whose name, ignoring case, is in the table leaves the document as it is and yields the section there. -/
theorem C26_coalesce (s : St) {x y : Nat} {n n' : Str} (hc : (s.heap x).cls.isSection = true) (hv : (s.heap x).value = .str n)
    (he : lower n = lower n') (hy : s.sections.get? (lower n') = some y) : addSection x s = .ok y s := by
  simp [addSection, hc, hv, he, hy]

/-- **C26** Adding a section with a new name puts it last and changes nothing else. -/
theorem C26_append (s : St) {x : Nat} {n : Str} (hc : (s.heap x).cls.isSection = true) (hv : (s.heap x).value = .str n)
    (hy : s.sections.get? (lower n) = none) :
    addSection x s = .ok x { s with sections := s.sections ++ [(lower n, x)] } := by
  simp [addSection, hc, hv, hy, Dict.set_append (Dict.get?_eq_none.1 hy)]

/-- **C26** After adding a section, looking its name up in any letter case gives the section that `add_section` returned, and the name is
`in` the document. -/
theorem C26_lookup {s s' : St} {x y : Nat} {n n' : Str} (hv : (s.heap x).value = .str n) (h : addSection x s = .ok y s')
    (he : lower n' = lower n) : getSection s' n' = .ok y ∧ docContains s' n' = true := by
  simp only [addSection, bind_run, obj_run, assert_run, hv] at h
  cases hc : (s.heap x).cls.isSection
  · simp [hc] at h
  · simp only [hc, if_true, get_run] at h
    cases hy : s.sections.get? (lower n) with
    | some z =>
      simp only [hy, pure_run, Res.ok.injEq] at h
      obtain ⟨rfl, rfl⟩ := h
      simp [getSection, docContains, Dict.has, he, hy]
    | none =>
      simp only [hy, modify_run, bind_run, pure_run, Res.ok.injEq] at h
      obtain ⟨rfl, rfl⟩ := h
      simp [getSection, docContains, Dict.has, he]

/-- **C26** Lookup and `in` agree: `in` is True exactly when the lookup does not raise `KeyError`. -/
theorem C26_agree (s : St) (n : Str) :
    (docContains s n = true ↔ ∃ x, getSection s n = .ok x) ∧ (docContains s n = false ↔ getSection s n = .error .keyError) := by
  unfold docContains getSection Dict.has
  cases s.sections.get? (lower n) <;> simp

example : getSection exSections (py!"RESOURCES") = .ok 1 ∧ (exSections.heap 1).value = .str (py!"Resources") ∧
    (exSections.heap 1).cls.isSection = true := by decide

end Metatab
