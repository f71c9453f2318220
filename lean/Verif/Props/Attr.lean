import Verif.Props.Views
/-! # C52, C60: attributes of terms, and the membership test -/
namespace Metatab
open Py _root_.Spec

/-- Python finds no attribute of this name on the term by itself. -/
def NotPython (s : St) (x : Dict Val) (t : Nat) (item : Str) : Prop := inDict s x t item = false ∧ inClass s t item = false

theorem NotPython.value {s : St} {x : Dict Val} {t : Nat} {item : Str} (h : NotPython s x t item) : item ≠ py!"value" := by
  rintro rfl
  have := h.1
  simp only [inDict, Bool.or_eq_false_iff] at this
  exact absurd this.1.2 (by decide)

theorem NotPython.given {s : St} {x : Dict Val} {t : Nat} {item : Str} (h : NotPython s x t item) : x.get? item = none := by
  have := h.1
  simp only [inDict, Bool.or_eq_false_iff] at this
  rw [Dict.get?_eq_none]
  intro hm
  rw [Dict.has_iff.2 hm] at this
  exact absurd this.1.1 (by decide)

theorem NotPython.get {s : St} {x : Dict Val} {t : Nat} {item : Str} (h : NotPython s x t item) :
    getAttr s x t item = getAttrMissing s t item := by
  unfold getAttr
  rw [if_neg h.value, h.given]
  simp [h.1, h.2]

theorem NotPython.missing {s : St} {x : Dict Val} {t : Nat} {item : Str} (h : NotPython s x t item) :
    item ≠ py!"__setstate__" := by
  rintro rfl
  exact absurd h.2 (by simp [inClass])

theorem getAttr_item {s : St} {x : Dict Val} {t : Nat} {item : Str} (h : NotPython s x t item) (ht : (s.heap t).cls.isSection = false) :
    getAttr s x t item = match readItem s t item with
      | .error .keyError => if lower item ∈ commonProperties then .ok .none else .error .attributeError
      | r => r := by
  rw [h.get]
  unfold getAttrMissing
  rw [if_neg h.missing]
  unfold getItem readItem
  simp only [ht, Bool.false_eq_true, if_false]
  cases termGetItem s t item with
  | ok c => rfl
  | error e => cases e <;> rfl

/-- **C52.** Reading an attribute that Python does not know gives the value of the first child of that name. -/
theorem C52_child {s : St} {x : Dict Val} {t c : Nat} {item : Str} (h : NotPython s x t item) (ht : (s.heap t).cls.isSection = false)
    (hd : '.' ∉ item) (hv : lower item ≠ lower (s.heap t).tvn) (hc : FirstChild s.heap t item c) :
    getAttr s x t item = .ok (s.heap c).value := by
  have : readItem s t item = .ok (s.heap c).value := by
    unfold readItem termGetItem termFindFirst localName
    simp only [hv, if_false, hd, bind, Except.bind, pure, Except.pure, childNamed_some.2 hc, Except.map]
  rw [getAttr_item h ht, this]

/-- **C52.** A name with one leading underscore, other than the seven that Python knows, is read from the children like any other name. -/
theorem C52_underscore {s : St} {x : Dict Val} {t c : Nat} {b : Char} {r : Str} (ht : (s.heap t).cls.isSection = false)
    (hx : x.get? ('_' :: b :: r) = none) (hb : b ≠ '_')
    (hn : '_' :: b :: r ∉ [py!"_term", py!"_orig_term", py!"_section", py!"_doc", py!"_Term__initialised", py!"_common_properties",
      py!"_convert_to_dict"])
    (hd : '.' ∉ '_' :: b :: r) (hv : lower ('_' :: b :: r) ≠ lower (s.heap t).tvn) (hc : FirstChild s.heap t ('_' :: b :: r) c) :
    getAttr s x t ('_' :: b :: r) = .ok (s.heap c).value := by
  refine C52_child ⟨?_, ?_⟩ ht hd hv hc
  · unfold inDict
    have : x.has ('_' :: b :: r) = false := by
      cases hh : x.has ('_' :: b :: r)
      · rfl
      · exact absurd (Dict.has_iff.1 hh) (Dict.get?_eq_none.1 hx)
    rw [this, ht]
    simp [ownAttrs] at hn ⊢
    exact ⟨hn.1, hn.2.1, hn.2.2.1, hn.2.2.2.1, hn.2.2.2.2.1⟩
  · unfold inClass
    rw [ht]
    simp [classAttrs, List.isPrefixOf] at hn ⊢
    exact ⟨⟨hn.2.2.2.2.2.1, hn.2.2.2.2.2.2⟩, hb.symm⟩
/-- **C52.** The name of the term's value reads as the value, even if a child has the same name. -/
theorem C52_value_name {s : St} {x : Dict Val} {t : Nat} {item : Str} (h : NotPython s x t item) (ht : (s.heap t).cls.isSection = false)
    (hv : lower item = lower (s.heap t).tvn) : getAttr s x t item = .ok (s.heap t).value := by
  have : readItem s t item = .ok (s.heap t).value := by
    unfold readItem termGetItem
    simp only [hv, if_true, pure, Except.pure, Except.map]
  rw [getAttr_item h ht, this]

/-- **C52.** Without such a child, `url`, `name`, `description` and `schema`, in any case, read as `None`, and every other name raises
`AttributeError`. -/
theorem C52_absent_partial {s : St} {x : Dict Val} {t : Nat} {item : Str} (h : NotPython s x t item) (ht : (s.heap t).cls.isSection = false)
    (hd : '.' ∉ item) (hv : lower item ≠ lower (s.heap t).tvn) (hc : NoChild s.heap t item) :
    getAttr s x t item =
      if lower item = py!"url" ∨ lower item = py!"name" ∨ lower item = py!"description" ∨ lower item = py!"schema" then .ok .none
      else .error .attributeError := by
  have : readItem s t item = .error .keyError := by
    unfold readItem termGetItem termFindFirst localName
    simp only [hv, if_false, hd, bind, Except.bind, pure, Except.pure, childNamed_none.2 hc, Except.map]
  rw [getAttr_item h ht, this]
  simp only [commonProperties, List.mem_cons, List.not_mem_nil, or_false]

/-- **C52.** Assigning an attribute that is a column name of the term's section, and neither the name of the value nor already an attribute
of the object, is item assignment. The attribute then reads as the assigned value, and every other attribute as before. -/
theorem C52_set_column {s : St} (h : Reach (fun _ => True) s) (x : Dict Val) {t : Nat} (ht : t < s.next) {k : Str} (hc : CanHave s t k)
    (hself : t ∉ (s.heap t).children) (h1 : lower k ≠ lower (s.heap t).tvn) (h2 : lower k ≠ py!"value")
    (hcol : ∃ n ∈ propertyNames s t, lower n = lower k) (hpy : NotPython s x t k) {u : Str} (hu : u ≠ []) (hst : strip u = u) :
    ∃ s', setItem t k (.str u) s = .ok () s' ∧ setAttr x t k (.str u) s = .ok x s' ∧ getAttr s' x t k = .ok (.str u) ∧
      ∀ k', '.' ∉ k' → lower k' ≠ lower k → getAttr s' x t k' = getAttr s x t k' := by
  obtain ⟨s', c, e1, e2, e3, hct, e4, e5, _⟩ := C18_child h ht hc hself h1 h2 hu hst
  have htt : (s'.heap t).cls = (s.heap t).cls ∧ (s'.heap t).value = (s.heap t).value := by
    rw [(e5 t ht (Ne.symm hct)).1]; exact ⟨rfl, rfl⟩
  have hsec' : (s'.heap t).cls.isSection = false := by rw [htt.1]; exact hc.notSec
  have hpy' : ∀ k', NotPython s' x t k' ↔ NotPython s x t k' := by
    intro k'; unfold NotPython inDict inClass; rw [htt.1]
  refine ⟨s', e1, ?_, ?_, ?_⟩
  · obtain ⟨n, hn, hn'⟩ := hcol
    unfold setAttr
    simp only [bind_run, get_run]
    have hb : decide (lower k = lower (s.heap t).tvn ∨ lower k = py!"value") = false := by simp [h1, h2]
    rw [hb, hpy.1]
    simp only [Bool.not_false, Bool.and_true, Bool.false_eq_true, if_false]
    rw [if_pos (List.mem_map.2 ⟨n, hn, hn'⟩)]
    simp only [bind_run]
    unfold setItemAny
    simp only [bind_run, obj_run, hc.notSec, Bool.false_eq_true, if_false, e1]
    rfl
  · rw [getAttr_item ((hpy' k).2 hpy) hsec']
    have : readItem s' t k = .ok (.str u) := by unfold readItem; rw [e2]; simp [Except.map, e3]
    rw [this]
  · intro k' hd hk
    by_cases hp : NotPython s x t k'
    · rw [getAttr_item hp hc.notSec, getAttr_item ((hpy' k').2 hp) hsec', e4 k' hd hk]
    · unfold getAttr
      rw [htt.2]
      split
      · rfl
      · split
        · rfl
        · have hb : ∀ s2 : St, NotPython s2 x t k' ↔ ¬ (inDict s2 x t k' = true ∨ inClass s2 t k' = true) := by
            intro s2; unfold NotPython; simp
          rw [if_pos (not_not.1 ((hb s).not.1 hp)), if_pos (not_not.1 ((hb s').not.1 (fun hh => hp ((hpy' k').1 hh))))]

/-- **C52.** Assigning to the name of the term's value, or to `value`, sets the value and nothing else, whatever attributes the object has. -/
theorem C52_set_value (s : St) (x : Dict Val) {t : Nat} {k : Str} (h : lower k = lower (s.heap t).tvn ∨ lower k = py!"value") (v : Val) :
    setAttr x t k v s = .ok x (withValue s t v) ∧ getAttr (withValue s t v) x t (py!"value") = .ok v := by
  constructor
  · unfold setAttr
    simp only [bind_run, get_run]
    simp only [h, decide_true, Bool.not_true, Bool.and_false, Bool.false_eq_true, if_false, if_true, bind_run, upd_run]
    rfl
  · unfold getAttr withValue; simp

/-- **C52.** Assigning to any other name that Python does not provide leaves the document alone; the attribute reads as the given value, and
so hides a child of that name. -/
theorem C52_set_other {s : St} (x : Dict Val) {t : Nat} {k : Str} (h1 : lower k ≠ lower (s.heap t).tvn) (h2 : lower k ≠ py!"value")
    (hcol : ∀ n ∈ propertyNames s t, lower n ≠ lower k) (hpy : NotPython s [] t k) (v : Val) :
    ∃ x', setAttr x t k v s = .ok x' s ∧ getAttr s x' t k = .ok v ∧
      ∀ k', k' ≠ k → (NotPython s x' t k' ↔ NotPython s x t k') ∧ getAttr s x' t k' = getAttr s x t k' := by
  have hb : decide (lower k = lower (s.heap t).tvn ∨ lower k = py!"value") = false := by simp [h1, h2]
  have hplain : setPlain x t k v s = .ok (x.set k v) s := by
    unfold setPlain
    simp only [bind_run, get_run]
    obtain ⟨ha, hc⟩ := hpy
    simp only [inDict, Bool.or_eq_false_iff, decide_eq_false_iff_not, Bool.and_eq_false_iff] at ha
    rw [if_neg]
    · rfl
    · rintro (hh | ⟨hh, hh'⟩ | hh)
      · exact ha.1.2 hh
      · rcases ha.2 with h' | h'
        · rw [h'] at hh; exact absurd hh (by decide)
        · exact h' hh'
      · rw [hc] at hh; exact absurd hh (by decide)
  refine ⟨x.set k v, ?_, ?_, ?_⟩
  · unfold setAttr
    simp only [bind_run, get_run]
    rw [hb]
    simp only [Bool.not_false, Bool.and_true, Bool.false_eq_true, if_false]
    split
    · exact hplain
    · rw [if_neg]
      · exact hplain
      · intro hm
        obtain ⟨n, hn, e⟩ := List.mem_map.1 hm
        exact hcol n hn e
  · unfold getAttr
    rw [if_neg hpy.value, Dict.get?_set_self]
  · intro k' hk
    have hget : Dict.get? (x.set k v) k' = Dict.get? x k' := by rw [Dict.get?_set, if_neg (Ne.symm hk)]
    have hhas : Dict.has (x.set k v) k' = Dict.has x k' := by
      rw [Bool.eq_iff_iff, Dict.has_iff, Dict.has_iff]
      rw [← not_iff_not, ← Dict.get?_eq_none, ← Dict.get?_eq_none, hget]
    have hin : inDict s (x.set k v) t k' = inDict s x t k' := by unfold inDict; rw [hhas]
    exact ⟨by unfold NotPython; rw [hin], by unfold getAttr; rw [hget, hin]⟩

/-- **C60.** `name in term` is true for `value` and the four common properties, whether or not the term has such a child; for every other
name it raises `AttributeError`, also when the term has a child of that name, unless the term has a child called `properties`. -/
theorem C60_contains {s : St} {x : Dict Val} {t : Nat} (ht : (s.heap t).cls.isSection = false) (item : Str)
    (hx : x.get? (py!"properties") = none) (htv : lower (s.heap t).tvn ≠ py!"properties") (hno : NoChild s.heap t (py!"properties")) :
    termContains s x t item =
      if lower item ∈ [py!"value", py!"url", py!"name", py!"description", py!"schema"] then .ok true else .error .attributeError := by
  have hp : NotPython s x t (py!"properties") := by
    constructor
    · unfold inDict
      have hm := Dict.get?_eq_none.1 hx
      have : Dict.has x (py!"properties") = false := by
        rw [← Bool.not_eq_true, Dict.has_iff]; exact hm
      rw [this, ht]
      decide
    · unfold inClass; rw [ht]; decide
  have hg := C52_absent_partial hp ht (by decide) (fun e => htv (by rw [← e]; decide)) hno
  rw [if_neg (by decide)] at hg
  unfold termContains
  rw [hg]
  simp only [commonProperties, List.mem_cons, List.not_mem_nil, or_false]
  by_cases h1 : lower item = py!"value"
  · simp [h1, pure, Except.pure]
  · by_cases h2 : lower item = py!"url" ∨ lower item = py!"name" ∨ lower item = py!"description" ∨ lower item = py!"schema"
    · simp [h1, h2, pure, Except.pure]
    · simp only [h1, h2, if_false, or_false]; rfl

/-- With a child called `properties`, the test looks for the name inside the text of that child. -/
theorem C60_properties_witness :
    let s := exParse [[py!"Wrangler", py!"Bob"], [py!".Properties", py!"email phone"], [py!".Tag", py!"x"]]
    termContains s [] 1 (py!"Hon") = .ok true ∧ termContains s [] 1 (py!"Tag") = .ok false ∧
      (termGetItem s 1 (py!"Hon")) = .error .keyError ∧ (termGetItem s 1 (py!"Tag")) = .ok 3 := by decide +kernel

/-- A section raises `AttributeError` for an absent common property, where other terms give `None`. -/
theorem C52_section_witness : getAttr itDoc [] 1 (py!"url") = .error .attributeError ∧ getAttr itDoc [] 2 (py!"url") = .ok .none ∧
    (itDoc.heap 1).cls.isSection = true := by decide +kernel

/-- Assigning an attribute that is no column, although a child has that name, changes what the attribute reads but not the child. -/
theorem C52_shadow_witness : propertyNames itDoc 2 = [py!"Email"] ∧ getAttr itDoc [] 2 (py!"Tag") = .ok (.str (py!"one")) ∧
    (setAttr [] 2 (py!"Tag") (.str (py!"new")) itDoc).val = .ok [(py!"Tag", .str (py!"new"))] ∧
    getAttr itDoc [(py!"Tag", .str (py!"new"))] 2 (py!"Tag") = .ok (.str (py!"new")) ∧
    readItem itDoc 2 (py!"Tag") = .ok (.str (py!"one")) := by decide +kernel

example : NotPython itDoc [] 2 (py!"Email") ∧ NotPython itDoc [] 2 (py!"url") ∧ ¬ NotPython itDoc [] 2 (py!"args") ∧
    ¬ NotPython itDoc [] 2 (py!"rows") := by unfold NotPython; decide +kernel
example : CanHave itDoc 2 (py!"email") ∧ ∃ n ∈ propertyNames itDoc 2, lower n = lower (py!"email") :=
  ⟨itDoc_canHave ⟨by decide, by decide, by decide⟩ (by decide +kernel), by decide +kernel⟩
example : getAttr (after (setAttr [] 2 (py!"email") (.str (py!"z"))) itDoc) [] 2 (py!"Email") = .ok (.str (py!"z")) := by decide +kernel
example : NoChild itDoc.heap 2 (py!"properties") ∧ termContains itDoc [] 2 (py!"Tag") = .error .attributeError := by
  unfold NoChild; decide +kernel

example : getAttr (exParse [[py!"Wrangler", py!"Bob"], [py!"._Note", py!"x"]]) [] 1 (py!"_note") = .ok (.str (py!"x")) :=
  (C52_underscore (c := 2) (by decide +kernel) rfl (by decide) (by decide) (by decide) (by decide +kernel)
    (childNamed_some.1 (by decide +kernel))).trans (by decide +kernel)

end Metatab
