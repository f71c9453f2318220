import Verif.Props.NewTerm
/-! # C18–C20: item assignment and `get_or_new_child` on terms -/
namespace Metatab
open Py Spec

/-- `c` is the first child of `t` with this name, ignoring case. -/
def _root_.Spec.FirstChild (h : Nat → Obj) (t : Nat) (k : Str) (c : Nat) : Prop :=
  ∃ pre post, (h t).children = pre ++ c :: post ∧ lower (h c).rt = lower k ∧ ∀ x ∈ pre, lower (h x).rt ≠ lower k

/-- No child of `t` has this name, ignoring case. -/
def _root_.Spec.NoChild (h : Nat → Obj) (t : Nat) (k : Str) : Prop := ∀ x ∈ (h t).children, lower (h x).rt ≠ lower k

theorem childNamed_some {s : St} {t c : Nat} {k : Str} : childNamed s t k .fls = some c ↔ FirstChild s.heap t k c := by
  unfold childNamed FirstChild
  rw [List.find?_eq_some_iff_append]
  constructor
  · rintro ⟨h1, pre, post, h2, h3⟩
    refine ⟨pre, post, h2, ?_, fun x hx => ?_⟩
    · simpa using h1
    · simpa using h3 x hx
  · rintro ⟨pre, post, h2, h1, h3⟩
    refine ⟨by simpa using h1, pre, post, h2, fun x hx => ?_⟩
    simpa using h3 x hx

theorem childNamed_none {s : St} {t : Nat} {k : Str} : childNamed s t k .fls = none ↔ NoChild s.heap t k := by
  unfold childNamed NoChild
  rw [List.find?_eq_none]
  simp

theorem first_or_none (h : Nat → Obj) (t : Nat) (k : Str) : (∃ c, FirstChild h t k c) ∨ NoChild h t k := by
  by_cases e : NoChild h t k
  · exact .inr e
  · refine .inl ?_
    unfold NoChild at e
    unfold FirstChild
    generalize (h t).children = l at e
    induction l with
    | nil => exact absurd (by simp) e
    | cons a l ih =>
      by_cases ha : lower (h a).rt = lower k
      · exact ⟨a, [], l, rfl, ha, by simp⟩
      · have : ¬ ∀ x ∈ l, lower (h x).rt ≠ lower k := fun hh => e fun x hx => by
          rcases List.mem_cons.1 hx with rfl | hx
          · exact ha
          · exact hh x hx
        obtain ⟨c, pre, post, h1, h2, h3⟩ := ih this
        refine ⟨c, a :: pre, post, by rw [h1]; rfl, h2, fun x hx => ?_⟩
        rcases List.mem_cons.1 hx with rfl | hx
        · exact ha
        · exact h3 x hx

/-- The object `get_or_new_child` makes. -/
def childObj (s : St) (t : Nat) (k : Str) (v : Val) : Obj :=
  { Obj.blank with cls := docTermClass s (lower (dotJoin (s.heap t).rt k)), raw := dotJoin (s.heap t).rt k, pt := lower (s.heap t).rt,
                   rt := lower k, value := v.mk, parent := some t, sec := (s.heap t).sec }

/-- The state with one more object, at the end of the children of `t`. -/
def _root_.Spec.withChild (s : St) (t : Nat) (o : Obj) : St :=
  { s with
    next := s.next + 1
    heap := fun j => if j = s.next then o else if j = t then { s.heap t with children := (s.heap t).children ++ [s.next] } else s.heap j }

/-- The state with the value of `c` set. -/
def _root_.Spec.withValue (s : St) (c : Nat) (v : Val) : St :=
  { s with heap := fun j => if j = c then { s.heap c with value := v } else s.heap j }

/-- The conditions under which a child `k` of the term can be made: the term is no section and has a proper name, the child's name has
no class of a section and is not `Datafile.Section`, which the code refuses. -/
structure CanHave (s : St) (t : Nat) (k : Str) : Prop where
  notSec : (s.heap t).cls.isSection = false
  proper : PlainPart (s.heap t).rt
  low : lower (s.heap t).rt = (s.heap t).rt
  plain : PlainPart k
  cls : (docTermClass s (lower (dotJoin (s.heap t).rt k))).isSection = false
  name : dotJoin (lower (s.heap t).rt) (lower k) ≠ py!"datafile.section"

/-- **C19.** With a child of that name, `get_or_new_child` returns the first one; it sets its value if one is given and changes nothing
else. -/
theorem C19_found {s : St} {t c : Nat} {term p k : Str} (ht : (s.heap t).cls.isSection = false) (hs : splitTerm term = .ok (p, k))
    (hc : FirstChild s.heap t k c) (v : Val) :
    getOrNewChild t term v [] s = .ok c (if v = .fls then s else withValue s c v) := by
  have hn := childNamed_some.2 hc
  unfold getOrNewChild
  simp only [bind_run, get_run, ht, Bool.false_eq_true, if_false, lift_run, hs, hn, ite_run, forL, pure_run]
  by_cases hv : v = .fls
  · simp [hv, bind_run, pure_run, hn]
  · have e : childNamed (withValue s c v) t k .fls = some c := by
      rw [childNamed_some]
      obtain ⟨pre, post, h1, h2, h3⟩ := hc
      have key : ∀ j, ((withValue s c v).heap j).rt = (s.heap j).rt ∧ ((withValue s c v).heap j).children = (s.heap j).children := by
        intro j; unfold withValue; simp only; split
        · next e => subst e; exact ⟨rfl, rfl⟩
        · exact ⟨rfl, rfl⟩
      exact ⟨pre, post, by rw [(key t).2]; exact h1, by rw [(key c).1]; exact h2, fun x hx => by rw [(key x).1]; exact h3 x hx⟩
    have e2 : s.setObj c { s.heap c with value := v } = withValue s c v := rfl
    simp only [ne_eq, hv, not_false_eq_true, if_true, bind_run, upd_run, e2, pure_run, get_run, e, decide_true, assert_run, if_false]

theorem splitTermLower_dot {a b : Str} (ha : PlainPart a) (hb : PlainPart b) : splitTermLower (dotJoin a b) = .ok (lower a, lower b) := by
  unfold splitTermLower
  have : dotJoin a b = a ++ '.' :: b := rfl
  rw [this, splitTerm_dot ha.nodot hb.nodot, ha.stripped, hb.stripped, if_neg ha.nonempty]
  rfl

theorem newTermObj_child {s : St} {t : Nat} {k : Str} (ht : PlainPart (s.heap t).rt) (hk : PlainPart k) (hl : lower (s.heap t).rt = (s.heap t).rt)
    (c : Cls) (v : Val) (sec : Option Nat) :
    newTermObj c (dotJoin (s.heap t).rt k) v [] (some t) sec 0 false s = .ok s.next ({ s with next := s.next + 1 }.setObj s.next
      { Obj.blank with cls := c, raw := dotJoin (s.heap t).rt k, pt := lower (s.heap t).rt, rt := lower k, value := v.mk, parent := some t,
                       sec := sec }) := by
  unfold newTermObj
  rw [bind_run, lift_run, splitTermLower_dot ht hk]
  simp only [bind_run, obj_run]
  by_cases hr : lower (s.heap t).rt = ROOT
  · rw [if_pos hr, assert_run, if_pos (by simp)]
    simp only [alloc_run, hl]
    rfl
  · rw [if_neg hr, assert_run, if_pos (by simp)]
    simp only [alloc_run]
    rfl

theorem construct_child {s : St} {t : Nat} {k : Str} (h : CanHave s t k) (v : Val) :
    construct (docTermClass s (lower (dotJoin (s.heap t).rt k))) (dotJoin (s.heap t).rt k) v (some t) (s.heap t).sec s =
      .ok s.next ({ s with next := s.next + 1 }.setObj s.next (childObj s t k v)) := by
  have := newTermObj_child h.proper h.plain h.low (docTermClass s (lower (dotJoin (s.heap t).rt k))) v (s.heap t).sec
  have hc := h.cls
  unfold construct
  unfold childObj
  generalize docTermClass s (lower (dotJoin (s.heap t).rt k)) = c at this hc ⊢
  cases c with
  | term => exact this
  | user n => exact this
  | «section» => cases hc
  | root => cases hc

theorem withChild_eq {s : St} {t : Nat} (ht : t < s.next) (o : Obj) :
    (({ s with next := s.next + 1 }.setObj s.next o).setObj t
      { s.heap t with children := (s.heap t).children ++ [s.next] }) = withChild s t o := by
  unfold withChild St.setObj
  refine St.ext rfl (funext fun j => ?_) rfl rfl rfl rfl rfl rfl rfl rfl rfl rfl
  simp only
  by_cases e : j = s.next
  · rw [if_pos e, if_neg (by omega), if_pos e]
  · rw [if_neg e, if_neg e]

theorem withChild_heap {s : St} (t : Nat) (o : Obj) (j : Nat) : (withChild s t o).heap j = if j = s.next then o else if j = t then
    { s.heap t with children := (s.heap t).children ++ [s.next] } else s.heap j := rfl

/-- After a child is appended, the first child of a name is the one it was, or else the new one if it has the name. -/
theorem withChild_first' {s : St} {t : Nat} (w : ∀ c ∈ (s.heap t).children, c < s.next) (ht : t < s.next) {o : Obj} {k : Str} :
    childNamed (withChild s t o) t k .fls = match childNamed s t k .fls with
      | some c => some c
      | none => if lower o.rt = lower k then some s.next else none := by
  have hk : ((withChild s t o).heap t).children = (s.heap t).children ++ [s.next] := by
    rw [withChild_heap, if_neg (by omega), if_pos rfl]
  have hrt : ∀ j, j < s.next → ((withChild s t o).heap j).rt = (s.heap j).rt := by
    intro j hj
    rw [withChild_heap, if_neg (by omega)]
    split
    · next e => rw [e]
    · rfl
  unfold childNamed
  rw [hk, List.find?_append]
  have : (s.heap t).children.find? (fun c => lower ((withChild s t o).heap c).rt == lower k && (Val.fls == .fls || Val.pyEq ((withChild s t o).heap c).value .fls)) =
      (s.heap t).children.find? (fun c => lower (s.heap c).rt == lower k && (Val.fls == .fls || Val.pyEq (s.heap c).value .fls)) := by
    have hlt := w
    generalize (s.heap t).children = l at hlt
    induction l with
    | nil => rfl
    | cons a l ih =>
      rw [List.find?_cons, List.find?_cons, hrt a (hlt a List.mem_cons_self), ih fun c hc => hlt c (List.mem_cons_of_mem _ hc)]
      simp
  rw [this]
  cases (s.heap t).children.find? (fun c => lower (s.heap c).rt == lower k && (Val.fls == .fls || Val.pyEq (s.heap c).value .fls)) with
  | some c => rfl
  | none =>
    simp only [Option.none_or, List.find?_cons, withChild_heap, if_true, List.find?_nil]
    by_cases e : lower o.rt = lower k
    · simp [e]
    · have : (lower o.rt == lower k) = false := by simpa using e
      simp [e, this]

theorem withChild_first {F : Prop} {s : St} (w : WF F s) {t : Nat} (ht : t < s.next) {o : Obj} {k : Str} :
    childNamed (withChild s t o) t k .fls = match childNamed s t k .fls with
      | some c => some c
      | none => if lower o.rt = lower k then some s.next else none := withChild_first' (w.kidLt t) ht

/-- **C19.** Without a child of that name, `get_or_new_child` appends exactly one child with the name and the stripped value and
changes nothing else. -/
theorem C19_new {s : St} (h : Reach (fun _ => True) s) {t : Nat} (ht : t < s.next) {term p k : Str} (hs : splitTerm term = .ok (p, k))
    (hc : CanHave s t k) (hno : NoChild s.heap t k) (v : Val) :
    getOrNewChild t term v [] s = .ok s.next (withChild s t (childObj s t k v)) := by
  have w : WF False s := h.wf fun f => f.elim
  have hn := childNamed_none.2 hno
  have e := construct_child hc v
  have e2 : childNamed (withChild s t (childObj s t k v)) t k .fls = some s.next := by
    rw [withChild_first w ht, hn]
    simp [childObj]
  have hj : ({ s with next := s.next + 1 }.setObj s.next (childObj s t k v)).heap s.next = childObj s t k v := if_pos rfl
  have hj2 : ({ s with next := s.next + 1 }.setObj s.next (childObj s t k v)).heap t = s.heap t := if_neg (by omega)
  have hname : (childObj s t k v).joinLc ≠ py!"datafile.section" := by
    have : (childObj s t k v).joinLc = dotJoin (lower (s.heap t).rt) (lower k) := by simp [Obj.joinLc, childObj]
    rw [this]; exact hc.name
  have hdj : (s.heap t).rt ++ '.' :: k = dotJoin (s.heap t).rt k := rfl
  unfold getOrNewChild
  simp only [bind_run, get_run, hc.notSec, Bool.false_eq_true, if_false, lift_run, hs, hn, hdj, e, newChildren, forL, pure_run, obj_run, hj,
    hname, ne_eq, not_false_eq_true, decide_true, assert_run, if_true, upd_run, hj2, withChild_eq ht, e2]

/-- **C19.** Calling it a second time returns the same child and adds nothing: only the value is set again, which changes nothing
when no value is given or the value has no blanks around it. -/
theorem C19_twice {s : St} (h : Reach (fun _ => True) s) {t : Nat} (ht : t < s.next) {term p k : Str} (hs : splitTerm term = .ok (p, k))
    (hc : CanHave s t k) (v : Val) :
    ∃ c s1, getOrNewChild t term v [] s = .ok c s1 ∧ FirstChild s1.heap t k c ∧
      getOrNewChild t term v [] s1 = .ok c (if v = .fls then s1 else withValue s1 c v) ∧
      (v = .fls ∨ v.mk = v → getOrNewChild t term v [] s1 = .ok c s1) := by
  have w : WF False s := h.wf fun f => f.elim
  rcases first_or_none s.heap t k with ⟨c, hf⟩ | hno
  · refine ⟨c, _, C19_found hc.notSec hs hf v, ?_⟩
    obtain ⟨s1, hs1⟩ : ∃ s1, s1 = if v = .fls then s else withValue s c v := ⟨_, rfl⟩
    rw [← hs1]
    have key : ∀ j, (s1.heap j).rt = (s.heap j).rt ∧ (s1.heap j).children = (s.heap j).children ∧ (s1.heap j).cls = (s.heap j).cls := by
      intro j; rw [hs1]; unfold withValue; split
      · exact ⟨rfl, rfl, rfl⟩
      · simp only; split
        · next e => subst e; exact ⟨rfl, rfl, rfl⟩
        · exact ⟨rfl, rfl, rfl⟩
    have hf1 : FirstChild s1.heap t k c := by
      obtain ⟨pre, post, h1, h2, h3⟩ := hf
      exact ⟨pre, post, by rw [(key t).2.1]; exact h1, by rw [(key c).1]; exact h2, fun x hx => by rw [(key x).1]; exact h3 x hx⟩
    have e := C19_found (s := s1) (by rw [(key t).2.2]; exact hc.notSec) hs hf1 v
    refine ⟨hf1, e, fun _ => ?_⟩
    rw [e]
    split
    · rfl
    · next hv =>
      congr 1
      rw [hs1, if_neg hv]
      unfold withValue
      refine St.ext rfl (funext fun j => ?_) rfl rfl rfl rfl rfl rfl rfl rfl rfl rfl
      simp only [if_true]
      split <;> rfl
  · refine ⟨_, _, C19_new h ht hs hc hno v, ?_⟩
    have hf1 : FirstChild (withChild s t (childObj s t k v)).heap t k s.next := by
      rw [← childNamed_some, withChild_first w ht, childNamed_none.2 hno]
      simp [childObj]
    have e := C19_found (s := withChild s t (childObj s t k v)) (by
      rw [withChild_heap, if_neg (by omega), if_pos rfl]; exact hc.notSec) hs hf1 v
    refine ⟨hf1, e, fun hv => ?_⟩
    rw [e]
    split
    · rfl
    · next hv' =>
      congr 1
      have hmk := hv.resolve_left hv'
      unfold withValue
      refine St.ext rfl (funext fun j => ?_) rfl rfl rfl rfl rfl rfl rfl rfl rfl rfl
      simp only
      split
      · next ej =>
        subst ej
        have : (withChild s t (childObj s t k v)).heap s.next = childObj s t k v := by rw [withChild_heap, if_pos rfl]
        rw [this]
        unfold childObj
        simp only [hmk]
      · rfl

theorem getOrNewChild0_eq (t : Nat) (term : Str) (v : Val) : getOrNewChild0 t term v = getOrNewChild t term v [] := by
  funext s
  unfold getOrNewChild0 getOrNewChild
  rfl

theorem localName_plain (s : St) (t : Nat) {k : Str} (h : '.' ∉ k) : localName s t k = .ok k := if_neg h

theorem termGetItem_run (s : St) (t : Nat) {k : Str} (h : '.' ∉ k) : termGetItem s t k = if lower k = lower (s.heap t).tvn then .ok t else
    match childNamed s t k .fls with
    | some c => .ok c
    | none => .error .keyError := by
  unfold termGetItem termFindFirst
  rw [localName_plain s t h]
  split
  · rfl
  · simp only [bind, Except.bind, pure, Except.pure]
    cases childNamed s t k .fls <;> rfl

theorem setItemSome_run {s s' : St} {t c : Nat} {k : Str} {v : Val} (hk : '.' ∉ k) (h1 : lower k ≠ lower (s.heap t).tvn) (h2 : lower k ≠ py!"value")
    (h3 : getOrNewChild t k v [] s = .ok c s') (h4 : (s'.heap t).tvn = (s.heap t).tvn) (h5 : FirstChild s'.heap t k c)
    (h6 : (s'.heap c).value = v) : setItem t k v s = if v = .none then setItem t k v s else .ok () s' := by
  split
  · rfl
  · next hv =>
    unfold setItem
    simp only [bind_run, obj_run, hv, false_and, if_false]
    unfold setItemSome
    rw [bind_run, obj_run]
    simp only
    rw [if_neg (by simp [h1, h2]), bind_run, getOrNewChild0_eq, h3]
    simp only
    rw [bind_run, lift_run, termGetItem_run s' t hk, if_neg (by rw [h4]; exact h1), childNamed_some.2 h5]
    simp only [bind_run, obj_run, h6]
    rw [assert_run, if_pos]
    have : Val.pyEq v v = true := by cases v <;> simp [Val.pyEq]
    simp [this]

/-- The value read under a name: `term[k].value`. -/
def readItem (s : St) (t : Nat) (k : Str) : Except Err Val := (termGetItem s t k).map fun c => (s.heap c).value

/-- **C18.** `term[k] = v` for a property name other than the value's and a non-empty string without blanks around it: `term[k].value` is
then `v`; every property with another name reads as before; every other object but the term itself, of which only the list of
children may grow, is unchanged; and assigning the same again changes nothing. -/
theorem C18_child {s : St} (h : Reach (fun _ => True) s) {t : Nat} (ht : t < s.next) {k : Str} (hc : CanHave s t k)
    (hself : t ∉ (s.heap t).children) (h1 : lower k ≠ lower (s.heap t).tvn) (h2 : lower k ≠ py!"value") {u : Str} (hu : u ≠ []) (hst : strip u = u) :
    ∃ s' c, setItem t k (.str u) s = .ok () s' ∧ termGetItem s' t k = .ok c ∧ (s'.heap c).value = .str u ∧ c ≠ t ∧
      (∀ k', '.' ∉ k' → lower k' ≠ lower k → readItem s' t k' = readItem s t k') ∧
      (∀ j, j < s.next → j ≠ c → s'.heap j = { s.heap j with children := (s'.heap j).children } ∧
        ((s'.heap j).children ≠ (s.heap j).children → j = t ∧ (s'.heap j).children = (s.heap j).children ++ [c] ∧ c = s.next)) ∧
      s'.terms = s.terms ∧ s'.sections = s.sections ∧
      setItem t k (.str u) s' = .ok () s' := by
  have w : WF False s := h.wf fun f => f.elim
  have hs : splitTerm k = .ok (ROOT, k) := by rw [splitTerm_nodot hc.plain.nodot, hc.plain.stripped]
  have hvf : (Val.str u) ≠ .fls := by simp
  have hvn : (Val.str u) ≠ .none := by simp
  have hmk : (Val.str u).mk = .str u := by simp [Val.mk, Val.truthy, hu, hst]
  have hread : ∀ s' : St, (s'.heap t).tvn = (s.heap t).tvn → (s'.heap t).value = (s.heap t).value →
      (∀ k', lower k' ≠ lower k → childNamed s' t k' .fls = childNamed s t k' .fls) →
      (∀ c, c ∈ (s.heap t).children → lower (s.heap c).rt ≠ lower k → (s'.heap c).value = (s.heap c).value) →
      ∀ k', '.' ∉ k' → lower k' ≠ lower k → readItem s' t k' = readItem s t k' := by
    intro s' a1 a2 a3 a4 k' hk' hne
    unfold readItem
    rw [termGetItem_run s' t hk', termGetItem_run s t hk', a1, a3 k' hne]
    split
    · simp [Except.map, a2]
    · cases hcn : childNamed s t k' .fls with
      | none => rfl
      | some c =>
        obtain ⟨pre, post, b1, b2, b3⟩ := childNamed_some.1 hcn
        simp [Except.map, a4 c (by rw [b1]; simp) (by rw [b2]; exact hne)]
  rcases first_or_none s.heap t k with ⟨c, hf⟩ | hno
  · have e := C19_found hc.notSec hs hf (.str u)
    rw [if_neg hvf] at e
    have hct : t ≠ c := by
      obtain ⟨pre, post, b1, _⟩ := hf
      rintro rfl; exact hself (by rw [b1]; simp)
    have hh : ∀ j, j ≠ c → (withValue s c (.str u)).heap j = s.heap j := fun j hj => if_neg hj
    have hcv : (withValue s c (.str u)).heap c = { s.heap c with value := .str u } := if_pos rfl
    have key : ∀ j, ((withValue s c (.str u)).heap j).rt = (s.heap j).rt ∧ ((withValue s c (.str u)).heap j).children = (s.heap j).children := by
      intro j
      by_cases e : j = c
      · subst e; rw [hcv]; exact ⟨rfl, rfl⟩
      · rw [hh j e]; exact ⟨rfl, rfl⟩
    have hf1 : FirstChild (withValue s c (.str u)).heap t k c := by
      obtain ⟨pre, post, h1, h2, h3⟩ := hf
      exact ⟨pre, post, by rw [(key t).2]; exact h1, by rw [(key c).1]; exact h2, fun x hx => by rw [(key x).1]; exact h3 x hx⟩
    have hval : ((withValue s c (.str u)).heap c).value = .str u := by rw [hcv]
    have e1 := setItemSome_run hc.plain.nodot h1 h2 e (by rw [hh t hct]) hf1 hval
    rw [if_neg hvn] at e1
    have e2 := C19_found (s := withValue s c (.str u)) (by rw [hh t hct]; exact hc.notSec) hs hf1 (.str u)
    have e3 : withValue (withValue s c (.str u)) c (.str u) = withValue s c (.str u) := by
      unfold withValue
      refine St.ext rfl (funext fun j => ?_) rfl rfl rfl rfl rfl rfl rfl rfl rfl rfl
      simp only [if_true]
      split <;> rfl
    rw [if_neg hvf, e3] at e2
    have e4 := setItemSome_run hc.plain.nodot (by rw [hh t hct]; exact h1) h2 e2 rfl hf1 hval
    rw [if_neg hvn] at e4
    refine ⟨_, c, e1, ?_, hval, Ne.symm hct, ?_, ?_, rfl, rfl, e4⟩
    · rw [termGetItem_run _ t hc.plain.nodot, hh t hct, if_neg h1, childNamed_some.2 hf1]
    · refine hread _ (by rw [hh t hct]) (by rw [hh t hct]) (fun k' hk' => ?_) (fun c' _ hne => ?_)
      · unfold childNamed
        rw [(key t).2]
        congr 1
        funext j
        rw [(key j).1]
        simp
      · have : c' ≠ c := by
          obtain ⟨pre, post, h1, h2, h3⟩ := hf
          rintro rfl; exact hne h2
        rw [hh c' this]
    · intro j _ hj
      rw [hh j hj]
      exact ⟨rfl, fun h => absurd rfl h⟩
  · have e := C19_new h ht hs hc hno (.str u)
    obtain ⟨o, ho⟩ : ∃ o, o = childObj s t k (.str u) := ⟨_, rfl⟩
    rw [← ho] at e
    have hort : lower o.rt = lower k := by rw [ho]; simp [childObj]
    have hov : o.value = .str u := by rw [ho]; exact hmk
    have htn : (withChild s t o).heap t = { s.heap t with children := (s.heap t).children ++ [s.next] } := by
      rw [withChild_heap, if_neg (by omega), if_pos rfl]
    have hnn : (withChild s t o).heap s.next = o := by rw [withChild_heap, if_pos rfl]
    have hf1 : FirstChild (withChild s t o).heap t k s.next := by
      rw [← childNamed_some, withChild_first w ht, childNamed_none.2 hno]
      simp [hort]
    have hval : ((withChild s t o).heap s.next).value = .str u := by rw [hnn]; exact hov
    have e1 := setItemSome_run hc.plain.nodot h1 h2 e (by rw [htn]) hf1 hval
    rw [if_neg hvn] at e1
    have e2 := C19_found (s := withChild s t o) (by rw [htn]; exact hc.notSec) hs hf1 (.str u)
    have e3 : withValue (withChild s t o) s.next (.str u) = withChild s t o := by
      unfold withValue
      refine St.ext rfl (funext fun j => ?_) rfl rfl rfl rfl rfl rfl rfl rfl rfl rfl
      simp only
      split
      · next ej => rw [ej, hnn, ← hov]
      · rfl
    rw [if_neg hvf, e3] at e2
    have e4 := setItemSome_run hc.plain.nodot (by rw [htn]; exact h1) h2 e2 rfl hf1 hval
    rw [if_neg hvn] at e4
    refine ⟨_, s.next, e1, ?_, hval, by omega, ?_, ?_, rfl, rfl, e4⟩
    · rw [termGetItem_run _ t hc.plain.nodot, htn, if_neg h1, childNamed_some.2 hf1]
    · refine hread _ (by rw [htn]) (by rw [htn]) (fun k' hk' => ?_) (fun c' hc' hne => ?_)
      · rw [withChild_first w ht]
        cases childNamed s t k' .fls with
        | some c => rfl
        | none => simp only; rw [if_neg (by rw [hort]; exact Ne.symm hk')]
      · have hlt := w.kidLt t c' hc'
        rw [withChild_heap, if_neg (by omega)]
        split
        · next e => rw [e]
        · rfl
    · intro j hj _
      rw [withChild_heap, if_neg (by omega)]
      split
      · next e => subst e; exact ⟨rfl, fun _ => ⟨rfl, rfl, rfl⟩⟩
      · exact ⟨rfl, fun h => absurd rfl h⟩

/-- **C18.** Under the name of the term's value the assignment sets the value and nothing else, and reads back. -/
theorem C18_value (s : St) {t : Nat} {k : Str} (h : lower k = lower (s.heap t).tvn) (v : Val) :
    setItem t k v s = .ok () (withValue s t v) ∧ readItem (withValue s t v) t k = .ok v := by
  constructor
  · unfold setItem
    simp only [bind_run, obj_run, h, true_or, not_true_eq_false, and_false, if_false]
    unfold setItemSome
    simp only [bind_run, obj_run, h, true_or, if_true, upd_run]
    rfl
  · unfold readItem termGetItem
    have : (withValue s t v).heap t = { s.heap t with value := v } := if_pos rfl
    rw [this, if_pos h]
    simp [Except.map, pure, Except.pure, this]

/-- **C18.** The word `value`, in any case, sets the value of every term and nothing else, and reads back if the term's value goes by
that name. -/
theorem C18_value_word (s : St) {t : Nat} {k : Str} (h : lower k = py!"value") (v : Val) :
    setItem t k v s = .ok () (withValue s t v) ∧ (lower (s.heap t).tvn = py!"value" → readItem (withValue s t v) t k = .ok v) := by
  refine ⟨?_, fun ht => (C18_value s (h.trans ht.symm) v).2⟩
  unfold setItem
  simp only [bind_run, obj_run, h, or_true, not_true_eq_false, and_false, if_false]
  unfold setItemSome
  simp only [bind_run, obj_run, h, or_true, if_true, upd_run]
  rfl

/-- **C20.** Assigning `None` under the name of a property the term does not have does nothing. -/
theorem C20_absent {s : St} {t : Nat} {k : Str} (hk : '.' ∉ k) (h1 : lower k ≠ lower (s.heap t).tvn) (h2 : lower k ≠ py!"value")
    (h : NoChild s.heap t k) : setItem t k .none s = .ok () s := by
  unfold setItem
  simp only [bind_run, obj_run, h1, h2, or_false, not_false_eq_true, and_self, if_true, lift_run]
  unfold termFindFirst
  simp only [localName_plain s t hk, bind, Except.bind, pure, Except.pure, childNamed_none.2 h]
  rfl

/-- Removing a child removes it everywhere. -/
theorem removeChild_run {s : St} (h : Reach Op.noAddChild s) {t c : Nat} (hmem : c ∈ (s.heap t).children) (hp : Placed s c) :
    removeChild t c s = .ok () (without s c) := by
  have w : WF True s := h.wf fun _ op ho => ho
  have hpar := w.kidPar trivial t c hmem
  have hnd := w.kidNodup trivial t
  unfold removeChild
  rw [bind_run, obj_run]
  simp only
  rw [if_pos hmem, bind_run, upd_run]
  simp only
  obtain ⟨s1, hs1⟩ : ∃ s1, s1 = s.setObj t { s.heap t with children := (s.heap t).children.erase c } := ⟨_, rfl⟩
  rw [← hs1]
  have hh : ∀ j, s1.heap j = { s.heap j with children := if j = t then (s.heap j).children.erase c else (s.heap j).children } := by
    intro j; rw [hs1, heap_setObj]
    split
    · next e => subst e; rfl
    · rfl
  have hpn : propertyNames s1 c = propertyNames s c := by unfold propertyNames; simp only [hh]; rfl
  have hp1 : Placed s1 c := ⟨by rw [hh]; exact hp.notSec, fun x e1 e2 => by
      rw [hh] at e1 e2; rw [hh]
      obtain ⟨n, h1, h2⟩ := hp.home x e1 e2
      exact ⟨n, h1, by rw [hs1]; exact h2⟩,
    fun x e1 e2 => by rw [hh] at e1 e2; rw [hpn, hh]; exact hp.plain x e1 e2⟩
  have hnot : c ∉ (s.heap t).children.erase c := fun hm => absurd (hnd.mem_erase_iff.1 hm).1 (by simp)
  have hcount : removeRounds s1 c = 1 + 1 := by
    unfold removeRounds
    rw [hh c]
    simp only [hpar, hh t, if_true, List.count_eq_zero_of_not_mem hnot]
  unfold removeTerm
  rw [bind_run, get_run]
  simp only
  rw [if_neg (by rw [hp1.notSec]; simp), hcount, removeTermF_last 1 hp1]
  · congr 1
    unfold without
    refine St.ext ?_ (funext fun j => ?_) ?_ ?_ ?_ ?_ ?_ ?_ ?_ ?_ ?_ ?_
    · rw [hs1]; rfl
    · simp only [hh, hpar]
      by_cases e : t = j
      · subst e
        simp only [if_true, filter_erase]
      · simp only [if_neg (Ne.symm e), Option.some.injEq, e, if_false]
    all_goals (rw [hs1]; rfl)
  · intro x hx; rw [hh] at hx ⊢; exact (w.secLt c x hx).2
  · rw [hs1]; exact w.termsNodup
  · intro x _; rw [hh]; exact w.secTermsNodup x
  · intro q hq
    rw [hh] at hq
    rw [hpar] at hq; cases hq
    rw [hh]; simpa using hnot

/-- **C20.** Assigning `None` removes the first child of that name from the term and does nothing else: the child, unlike a term in a
section, is in no other list. -/
theorem C20_removes {s : St} (h : Reach Op.noAddChild s) {t c : Nat} {k : Str} (hk : '.' ∉ k) (h1 : lower k ≠ lower (s.heap t).tvn)
    (h2 : lower k ≠ py!"value") (hc : FirstChild s.heap t k c) (hp : Placed s c) : setItem t k .none s = .ok () (without s c) := by
  have hmem : c ∈ (s.heap t).children := by obtain ⟨pre, post, b1, _⟩ := hc; rw [b1]; simp
  unfold setItem
  simp only [bind_run, obj_run, h1, h2, or_false, not_false_eq_true, and_self, if_true, lift_run]
  unfold termFindFirst
  simp only [localName_plain s t hk, bind, Except.bind, pure, Except.pure, childNamed_some.2 hc]
  exact removeChild_run h hmem hp

/-- A term with an argument cell and a child row. -/
def itDoc : St := exParse [[py!"Section", py!"Contacts", py!"Email"], [py!"Wrangler", py!"Bob", py!"b@x"], [py!".Tag", py!"one"],
  [py!".Tag", py!"two"]]

theorem itDoc_reach : Reach (fun _ => True) itDoc := exParse_reach _ trivial
theorem itDoc_reach' : Reach Op.noAddChild itDoc := exParse_reach _ trivial

example : (itDoc.heap 2).children = [3, 4, 5] ∧ itDoc.next = 6 ∧ 2 ∉ (itDoc.heap 2).children := by decide +kernel
example : FirstChild itDoc.heap 2 (py!"TAG") 4 := ⟨[3], [5], by decide +kernel, by decide +kernel, by decide +kernel⟩
example : NoChild itDoc.heap 2 (py!"Url") := by unfold NoChild; decide +kernel

theorem itDoc_canHave {k : Str} (hk : PlainPart k) (hc : (docTermClass itDoc (lower (dotJoin (py!"wrangler") k))).isSection = false) :
    CanHave itDoc 2 k := by
  have hr : (itDoc.heap 2).rt = py!"wrangler" := by decide +kernel
  refine ⟨by decide +kernel, ?_, ?_, hk, ?_, ?_⟩
  · rw [hr]; exact ⟨by decide, by decide, by decide⟩
  · rw [hr]; decide
  · rw [hr]; exact hc
  · rw [hr]
    intro e
    have := (dotJoin_inj (a := lower (py!"wrangler")) (b := lower k) (c := py!"datafile") (d := py!"section") (by decide) (by decide)).1 e
    exact absurd this.1 (by decide)

example : CanHave itDoc 2 (py!"Url") ∧ CanHave itDoc 2 (py!"Tag") :=
  ⟨itDoc_canHave ⟨by decide, by decide, by decide⟩ (by decide +kernel), itDoc_canHave ⟨by decide, by decide, by decide⟩ (by decide +kernel)⟩
example : splitTerm (py!"Wrangler.Url") = .ok (py!"Wrangler", py!"Url") ∧ splitTerm (py!"Tag") = .ok (py!"root", py!"Tag") := by decide
example : lower (py!"Url") ≠ lower (itDoc.heap 2).tvn ∧ (itDoc.heap 2).tvn = py!"@value" := by decide +kernel
example : Placed itDoc 4 := ⟨by decide +kernel, fun x _ h => absurd h (by decide +kernel), fun x _ h => absurd h (by decide +kernel)⟩

/-- The name `value` always sets the value, but reads it only if the term's value goes by that name. -/
theorem C18_value_name_witness : setItem 2 (py!"value") (.str (py!"Eve")) itDoc = .ok () (withValue itDoc 2 (.str (py!"Eve"))) ∧
    readItem (withValue itDoc 2 (.str (py!"Eve"))) 2 (py!"value") = .error .keyError := by
  exact ⟨(C18_value_word itDoc (by decide) _).1, by decide +kernel⟩

/-- A new property with blanks around the value: the assignment raises, and leaves the stripped value behind. -/
theorem C18_blanks_witness : (setItem 2 (py!"Url") (.str (py!" x ")) itDoc).val = .error .assertionError ∧
    readItem (after (setItem 2 (py!"Url") (.str (py!" x "))) itDoc) 2 (py!"Url") = .ok (.str (py!"x")) := by decide +kernel

/-- On the term of a row `Foo.Foo`, which is its own child, assigning the property `Foo` overwrites the value of the term. -/
theorem C18_self_witness : let s := exParse [[py!"Foo.Foo", py!"a"]]
    (s.heap 1).value = .str (py!"a") ∧ ((after (setItem 1 (py!"Foo") (.str (py!"b"))) s).heap 1).value = .str (py!"b") := by decide +kernel

end Metatab
