import Verif.Props.Items
import Verif.Lemmas.Examples
/-! # C68: new children and the properties of new terms -/
namespace Metatab
open Py _root_.Spec

/-- The text a value is stored as: `str(value)` unless it is `None`. Section objects are not modelled as text. -/
def _root_.Spec.textOf : Val → Option Val
  | .none => some .none
  | .obj _ => none
  | v => v.toStr.map .str

/-- What `new_child(term, value)` needs: the term's name is bare or qualified with the name of the term `t`; its class is no section class;
its record name is not `section`; the declared value name is usable. `p` and `r` are the parts of the name of the child. -/
structure KidOk (s : St) (t : Nat) (term p r : Str) : Prop where
  split : ∃ p0, splitTermLower term = .ok (p0, r) ∧ ((p0 = ROOT ∧ p = (s.heap t).rt) ∨ (p0 ≠ ROOT ∧ p = p0 ∧ lower p = lower (s.heap t).rt))
  cls : (docTermClass s (lower term)).isSection = false
  name : r ≠ py!"section"
  tvn : lower (declProp s.declTerms (dotJoin p r) (py!"termvaluename") (py!"@value")) ∉ reservedTvn

/-- The child made. -/
def kidObj (s : St) (t : Nat) (term p r : Str) (v : Val) : Obj :=
  { Obj.blank with cls := docTermClass s (lower term), raw := term, pt := p, rt := r, value := v.mk, parent := some t, sec := (s.heap t).sec,
                   tvn := declProp s.declTerms (dotJoin p r) (py!"termvaluename") (py!"@value") }

theorem newChild0_run {s : St} {t : Nat} (ht : t < s.next) {term p r : Str} (h : KidOk s t term p r) {v w : Val} (hv : textOf v = some w) :
    newChild0 t term v s = .ok s.next (withChild s t (kidObj s t term p r w)) := by
  obtain ⟨p0, hs, hp⟩ := h.split
  have hcon : construct (docTermClass s (lower term)) term w (some t) (s.heap t).sec s = .ok s.next ({ s with next := s.next + 1 }.setObj s.next
      { kidObj s t term p r w with tvn := py!"@value" }) := by
    have key : ∀ c, newTermObj c term w [] (some t) (s.heap t).sec 0 false s = .ok s.next ({ s with next := s.next + 1 }.setObj s.next
      { kidObj s t term p r w with cls := c, tvn := py!"@value" }) := by
      intro c
      unfold newTermObj
      rw [bind_run, lift_run, hs]
      simp only [bind_run, obj_run]
      rcases hp with ⟨e, rfl⟩ | ⟨e, rfl, hq⟩
      · rw [if_pos e, assert_run, if_pos (by simp)]; rfl
      · rw [if_neg e, assert_run, if_pos (by simp [hq])]; rfl
    have hc := h.cls
    unfold construct
    cases hd : docTermClass s (lower term) with
    | term => have := key .term; unfold kidObj at this ⊢; rw [hd]; exact this
    | user n => have := key (.user n); unfold kidObj at this ⊢; rw [hd]; exact this
    | «section» => rw [hd] at hc; cases hc
    | root => rw [hd] at hc; cases hc
  have hl := (splitTermLower_low hs).2
  have fin : (do
      let c ← construct (docTermClass s (lower term)) term w (some t) (s.heap t).sec
      let o ← obj c
      setTvn c (declProp s.declTerms o.join (py!"termvaluename") o.tvn)
      M.assert (lower o.rt ≠ py!"section")
      upd t fun o => { o with children := o.children ++ [c] }
      return c) s = .ok s.next (withChild s t (kidObj s t term p r w)) := by
    rw [bind_run, hcon]
    simp only [bind_run, obj_run, heap_setObj, if_true]
    have hj : ({ kidObj s t term p r w with tvn := py!"@value" } : Obj).join = dotJoin p r := rfl
    unfold setTvn
    rw [hj]
    rw [if_neg h.tvn, upd_run]
    have hr : lower (kidObj s t term p r w).rt ≠ py!"section" := by show lower r ≠ _; rw [hl]; exact h.name
    simp only [heap_setObj, if_true, assert_run]
    rw [if_pos (by simpa using hr)]
    simp only [upd_run, pure_run, heap_setObj, if_neg (show t ≠ s.next by omega)]
    congr 1
    unfold withChild St.setObj
    refine St.ext rfl (funext fun j => ?_) rfl rfl rfl rfl rfl rfl rfl rfl rfl rfl
    simp only
    by_cases e : j = s.next
    · subst e; rw [if_neg (by omega), if_pos rfl, if_pos rfl]; rfl
    · by_cases e2 : j = t
      · subst e2; simp [e]
      · simp [e, e2]
  unfold newChild0
  rw [bind_run, get_run]
  dsimp only
  cases v with
  | none => cases hv; exact fin
  | str x => cases hv; exact fin
  | int i => cases hv; exact fin
  | fls => cases hv; exact fin
  | obj i => cases hv

/-- **C68** `term.new_child(name, value)` for a bare name, or one qualified with the term's own name, appends exactly one child, with the
name in lower case, the value as stripped text, the section of the term and the declared value name; nothing else changes. -/
theorem C68_new {s : St} {t : Nat} (ht : t < s.next) {term p r : Str} (h : KidOk s t term p r) {v w : Val} (hv : textOf v = some w) :
    newChild t term v [] s = .ok s.next (withChild s t (kidObj s t term p r w)) := by
  have e : newChild t term v [] = newChild0 t term v := by
    unfold newChild newChild0 newChildren forL
    rfl
  rw [e]; exact newChild0_run ht h hv

/-- **C68** A name qualified with another name than the term's is refused with `AssertionError`, and nothing has changed. -/
theorem C68_mismatch {s : St} {t : Nat} {term p r : Str} (hs : splitTermLower term = .ok (p, r)) (hp : p ≠ ROOT) (hm : p ≠ lower (s.heap t).rt)
    (hc : (docTermClass s (lower term)).isSection = false) {v w : Val} (hv : textOf v = some w) (kw : List (Str × Val)) :
    newChild t term v kw s = .err .assertionError s := by
  have hcon : ∀ w, construct (docTermClass s (lower term)) term w (some t) (s.heap t).sec s = .err .assertionError s := by
    intro w
    have key : ∀ c, newTermObj c term w [] (some t) (s.heap t).sec 0 false s = .err .assertionError s := by
      intro c
      unfold newTermObj
      rw [bind_run, lift_run, hs]
      simp only [bind_run, obj_run]
      have hl : lower p = p := (splitTermLower_low hs).1
      rw [if_neg hp, assert_run, if_neg (by rw [hl]; simpa using Ne.symm hm)]
    unfold construct
    cases hd : docTermClass s (lower term) with
    | term => exact key .term
    | user n => exact key (.user n)
    | «section» => rw [hd] at hc; cases hc
    | root => rw [hd] at hc; cases hc
  unfold newChild
  rw [bind_run, get_run]
  dsimp only
  cases v with
  | obj i => cases hv
  | _ => simp only [Val.toStr, bind_run, pure_run, hcon]

/-- The state after children have been appended one after the other, given as name and stored value. -/
def _root_.Spec.withKids (s : St) (t : Nat) : List (Str × Val) → St
  | [] => s
  | kv :: kw => withKids (withChild s t (kidObj s t kv.1 (s.heap t).rt (lower kv.1) kv.2)) t kw

/-- Properties given as keyword arguments: bare names that can be used for children of a term called `rt`. -/
def KwOk (s : St) (rt : Str) (kw : List (Str × Val)) : Prop :=
  ∀ kv ∈ kw, PlainPart kv.1 ∧ (docTermClass s (lower kv.1)).isSection = false ∧ lower kv.1 ≠ py!"section" ∧
    lower (declProp s.declTerms (dotJoin rt (lower kv.1)) (py!"termvaluename") (py!"@value")) ∉ reservedTvn

theorem KwOk.congr {s s' : St} {rt : Str} {kw : List (Str × Val)} (h : KwOk s rt kw) (h1 : s'.classes = s.classes)
    (h2 : s'.superTerms = s.superTerms) (h3 : s'.declTerms = s.declTerms) : KwOk s' rt kw := by
  intro kv hk
  obtain ⟨a, b, c, d⟩ := h kv hk
  have e : ∀ n, docTermClass s' n = docTermClass s n := fun n => by unfold docTermClass; rw [h1, h2]
  exact ⟨a, by rw [e]; exact b, c, by rw [h3]; exact d⟩

theorem newChildren_run {t : Nat} : ∀ {kw ws : List (Str × Val)} {s : St}, t < s.next → KwOk s (s.heap t).rt kw →
    (kw.mapM fun kv => (textOf kv.2).map fun w => (kv.1, w)) = some ws → newChildren t kw s = .ok () (withKids s t ws)
  | [], ws, s, _, _, hw => by
    cases hw; rfl
  | kv :: kw, ws, s, ht, hk, hw => by
    rw [List.mapM_cons] at hw
    cases h1 : textOf kv.2 with
    | none => rw [h1] at hw; cases hw
    | some w =>
      cases h2 : (kw.mapM fun kv => (textOf kv.2).map fun w => (kv.1, w)) with
      | none => rw [h1, h2] at hw; cases hw
      | some ws' =>
        rw [h1, h2] at hw
        have hws : ws = (kv.1, w) :: ws' := by cases hw; rfl
        subst hws
        obtain ⟨hp, hc, hn, htv⟩ := hk kv List.mem_cons_self
        have hko : KidOk s t kv.1 (s.heap t).rt (lower kv.1) := ⟨⟨ROOT, splitTermLower_plain hp, .inl ⟨rfl, rfl⟩⟩, hc, hn, htv⟩
        unfold newChildren forL
        rw [bind_run, bind_run, newChild0_run ht hko h1]
        simp only [pure_run]
        have hrt : ((withChild s t (kidObj s t kv.1 (s.heap t).rt (lower kv.1) w)).heap t).rt = (s.heap t).rt := by
          rw [withChild_heap, if_neg (by omega), if_pos rfl]
        exact newChildren_run (kw := kw) (Nat.lt_succ_of_lt ht)
          (KwOk.congr (by rw [hrt]; exact fun kv h => hk kv (List.mem_cons_of_mem _ h)) rfl rfl rfl) h2

/-- What `withKids` means: the new objects are numbered from `s.next` on, in the order given; each has the name and value given, no
children of its own, and `t` as parent; `t` has them at the end of its children; nothing else changes. -/
theorem withKids_spec {t : Nat} : ∀ {ws : List (Str × Val)} {s : St}, t < s.next →
    (withKids s t ws).next = s.next + ws.length ∧
    ((withKids s t ws).heap t) = { s.heap t with children := (s.heap t).children ++ List.range' s.next ws.length } ∧
    (∀ i (h : i < ws.length), (withKids s t ws).heap (s.next + i) = kidObj s t ws[i].1 (s.heap t).rt (lower ws[i].1) ws[i].2) ∧
    (∀ j, j < s.next → j ≠ t → (withKids s t ws).heap j = s.heap j) ∧
    (withKids s t ws) = { s with next := (withKids s t ws).next, heap := (withKids s t ws).heap }
  | [], s, ht => ⟨rfl, by simp [withKids], fun i h => absurd h (by simp), fun _ _ _ => rfl, rfl⟩
  | kv :: ws, s, ht => by
    obtain ⟨s1, hs1⟩ : ∃ s1, s1 = withChild s t (kidObj s t kv.1 (s.heap t).rt (lower kv.1) kv.2) := ⟨_, rfl⟩
    have hn : s1.next = s.next + 1 := by rw [hs1]; rfl
    have hh : ∀ j, s1.heap j = _ := fun j => (congrArg (fun x => St.heap x j) hs1).trans (withChild_heap t _ j)
    have ht1 : s1.heap t = { s.heap t with children := (s.heap t).children ++ [s.next] } := by rw [hh, if_neg (by omega), if_pos rfl]
    obtain ⟨a, b, c, d, e⟩ := withKids_spec (ws := ws) (s := s1) (by omega : t < s1.next)
    have hw : withKids s t (kv :: ws) = withKids s1 t ws := by rw [hs1]; rfl
    rw [hw]
    have hko : ∀ n p r v, kidObj s1 t n p r v = kidObj s t n p r v := by
      intro n p r v
      have : docTermClass s1 (lower n) = docTermClass s (lower n) := by rw [hs1]; rfl
      have hd : s1.declTerms = s.declTerms := by rw [hs1]; rfl
      unfold kidObj; rw [this, hd, ht1]
    refine ⟨by rw [a, hn, List.length_cons]; omega, ?_, fun i h => ?_, fun j hj hjt => ?_, ?_⟩
    · rw [b, ht1, hn]
      simp [List.range'_succ]
    · cases i with
      | zero => rw [Nat.add_zero, d s.next (by omega) (by omega), hh, if_pos rfl]; rfl
      | succ i =>
        have := c i (by simpa using h)
        rw [hn] at this
        rw [show s.next + (i + 1) = s.next + 1 + i by omega, this, hko, ht1]; rfl
    · rw [d j (by omega) hjt, hh, if_neg (by omega), if_neg hjt]
    · rw [e, hs1]; rfl

/-- The child made for a property `k` of the term `c`, which is called `rt` and belongs to the section `sec`. -/
def _root_.Spec.propObj (s : St) (c : Nat) (rt : Str) (sec : Option Nat) (k : Str) (v : Val) : Obj :=
  { Obj.blank with cls := docTermClass s (lower k), raw := k, pt := rt, rt := lower k, value := v.mk, parent := some c, sec := sec,
                   tvn := declProp s.declTerms (dotJoin rt (lower k)) (py!"termvaluename") (py!"@value") }

/-- Constructing a child, before its value name and properties are set. -/
theorem construct_kid {s : St} {t : Nat} {term p r : Str} (h : KidOk s t term p r) (w : Val) :
    construct (docTermClass s (lower term)) term w (some t) (s.heap t).sec s = .ok s.next ({ s with next := s.next + 1 }.setObj s.next
      { kidObj s t term p r w with tvn := py!"@value" }) := by
  obtain ⟨p0, hs, hp⟩ := h.split
  have key : ∀ c, newTermObj c term w [] (some t) (s.heap t).sec 0 false s = .ok s.next ({ s with next := s.next + 1 }.setObj s.next
    { kidObj s t term p r w with cls := c, tvn := py!"@value" }) := by
    intro c
    unfold newTermObj
    rw [bind_run, lift_run, hs]
    simp only [bind_run, obj_run]
    rcases hp with ⟨e, rfl⟩ | ⟨e, rfl, hq⟩
    · rw [if_pos e, assert_run, if_pos (by simp)]; rfl
    · rw [if_neg e, assert_run, if_pos (by simp [hq])]; rfl
  have hc := h.cls
  unfold construct
  cases hd : docTermClass s (lower term) with
  | term => have := key .term; unfold kidObj at this ⊢; rw [hd]; exact this
  | user n => have := key (.user n); unfold kidObj at this ⊢; rw [hd]; exact this
  | «section» => rw [hd] at hc; cases hc
  | root => rw [hd] at hc; cases hc

/-- **C68** `term.new_child(name, value, **properties)` also makes one child of the new child for each property, in the order given. -/
theorem C68_properties {s : St} {t : Nat} (ht : t < s.next) {term p r : Str} (h : KidOk s t term p r) {v w : Val} (hv : textOf v = some w)
    {kw ws : List (Str × Val)} (hk : KwOk s r kw) (hw : (kw.mapM fun kv => (textOf kv.2).map fun w => (kv.1, w)) = some ws) :
    ∃ s', newChild t term v kw s = .ok s.next s' ∧ s'.next = s.next + 1 + ws.length ∧
      s'.heap t = { s.heap t with children := (s.heap t).children ++ [s.next] } ∧
      s'.heap s.next = { kidObj s t term p r w with children := List.range' (s.next + 1) ws.length } ∧
      (∀ i (h : i < ws.length), s'.heap (s.next + 1 + i) = propObj s s.next r (s.heap t).sec ws[i].1 ws[i].2) ∧
      (∀ j, j < s.next → j ≠ t → s'.heap j = s.heap j) ∧ s' = { s with next := s'.next, heap := s'.heap } := by
  obtain ⟨s1, hs1⟩ : ∃ s1 : St, s1 = ({ s with next := s.next + 1 }.setObj s.next { kidObj s t term p r w with tvn := py!"@value" }) := ⟨_, rfl⟩
  have h1 : ∀ j, s1.heap j = if j = s.next then { kidObj s t term p r w with tvn := py!"@value" } else s.heap j := fun j => by rw [hs1]; rfl
  have hc1 : s1.heap s.next = { kidObj s t term p r w with tvn := py!"@value" } := by rw [h1, if_pos rfl]
  have hn1 : s1.next = s.next + 1 := by rw [hs1]; rfl
  have hrun := newChildren_run (t := s.next) (kw := kw) (ws := ws) (s := s1) (by omega)
    (KwOk.congr (by rw [hc1]; exact hk) (by rw [hs1]; rfl) (by rw [hs1]; rfl) (by rw [hs1]; rfl)) hw
  obtain ⟨a, b, c, d, e⟩ := withKids_spec (t := s.next) (ws := ws) (s := s1) (by omega)
  obtain ⟨s2, hs2⟩ : ∃ s2, s2 = withKids s1 s.next ws := ⟨_, rfl⟩
  rw [← hs2] at hrun a b c d e
  have hl := (splitTermLower_low h.split.choose_spec.1).2
  have hj : (s2.heap s.next).join = dotJoin p r := by rw [b, hc1]; rfl
  have htv : (s2.heap s.next).tvn = py!"@value" := by rw [b, hc1]
  have hr : (s2.heap s.next).rt = r := by rw [b, hc1]; rfl
  have fin : ∃ s', (do
      let c ← construct (docTermClass s (lower term)) term w (some t) (s.heap t).sec
      newChildren c kw
      let o ← obj c
      setTvn c (declProp s.declTerms o.join (py!"termvaluename") o.tvn)
      M.assert (lower o.rt ≠ py!"section")
      upd t fun o => { o with children := o.children ++ [c] }
      return c) s = .ok s.next s' ∧ s' = (s2.setObj s.next { kidObj s t term p r w with children := List.range' (s.next + 1) ws.length }).setObj t
        { s.heap t with children := (s.heap t).children ++ [s.next] } := by
    rw [bind_run, construct_kid h w, ← hs1]
    simp only [bind_run, hrun, obj_run]
    unfold setTvn
    rw [hj, htv, if_neg h.tvn, upd_run]
    simp only [assert_run]
    rw [if_pos (by rw [hr]; have : lower r ≠ py!"section" := by { rw [hl]; exact h.name }; simpa using this)]
    simp only [upd_run, pure_run, heap_setObj, if_neg (show t ≠ s.next by omega)]
    refine ⟨_, rfl, ?_⟩
    have e1 : s2.heap t = s.heap t := by rw [d t (by omega) (by omega), h1, if_neg (by omega)]
    rw [e1, b, hc1, hn1]
    rfl
  obtain ⟨s', h3, h4⟩ := fin
  have hh : ∀ j, s'.heap j = if j = t then { s.heap t with children := (s.heap t).children ++ [s.next] } else
      if j = s.next then { kidObj s t term p r w with children := List.range' (s.next + 1) ws.length } else s2.heap j := by
    intro j; rw [h4, heap_setObj, heap_setObj]
  refine ⟨s', ?_, ?_, by rw [hh, if_pos rfl], by rw [hh, if_neg (by omega), if_pos rfl], fun i hi => ?_, fun j hj hjt => ?_, ?_⟩
  · unfold newChild
    rw [bind_run, get_run]
    dsimp only
    cases v with
    | none => cases hv; exact h3
    | str x => cases hv; exact h3
    | int i => cases hv; exact h3
    | fls => cases hv; exact h3
    | obj i => cases hv
  · rw [h4]; show s2.next = _; rw [a, hn1]
  · rw [hh, if_neg (by omega), if_neg (by omega), ← hn1, c i hi, hc1]
    have hcls : ∀ n, docTermClass s1 n = docTermClass s n := fun n => by rw [hs1]; rfl
    have hd : s1.declTerms = s.declTerms := by rw [hs1]; rfl
    unfold kidObj propObj
    rw [hcls, hd, hc1]
    rfl
  · rw [hh, if_neg hjt, if_neg (by omega), d j (by omega) (by omega), h1, if_neg (by omega)]
  · have : s'.next = s2.next := by rw [h4]; rfl
    rw [this]
    have e2 : s' = { s2 with heap := s'.heap } := by rw [h4]; rfl
    rw [e2, e, hs1]
    rfl

/-! ## Properties of a new term -/

theorem setOwnership_kids {s : St} {t x : Nat} (hlt : t < s.next) (hsec : (s.heap t).sec = some x)
    (hk : ∀ c ∈ (s.heap t).children, (s.heap c).parent = some t ∧ (s.heap c).sec = some x ∧ (s.heap c).children = []) :
    setOwnership t s = .ok () s := by
  unfold setOwnership
  rw [bind_run, get_run]
  dsimp only
  obtain ⟨n, hn⟩ : ∃ n, s.next = n + 1 := ⟨s.next - 1, by omega⟩
  rw [hn]
  unfold setOwnershipF
  simp only [bind_run, obj_run, hsec, Option.isSome_some, assert_run, if_true]
  have : ∀ l : List Nat, (∀ c ∈ l, (s.heap c).parent = some t ∧ (s.heap c).sec = some x ∧ (s.heap c).children = []) →
      forL (fun c => do
        upd c fun oc => { oc with parent := some t, sec := some x }
        setOwnershipF (n + 1) c) l s = .ok () s := by
    intro l
    induction l with
    | nil => intro _; rfl
    | cons c l ih =>
      intro hl
      obtain ⟨h1, h2, h3⟩ := hl c List.mem_cons_self
      unfold forL
      have e : s.setObj c { s.heap c with parent := some t, sec := some x } = s := by
        have : ({ s.heap c with parent := some t, sec := some x } : Obj) = s.heap c := by rw [← h1, ← h2]
        rw [this, setObj_same]
      rw [bind_run, bind_run, upd_run, e]
      dsimp only
      unfold setOwnershipF
      simp only [bind_run, obj_run, h2, Option.isSome_some, assert_run, if_true, h3, forL, pure_run]
      exact ih fun c hc => hl c (List.mem_cons_of_mem _ hc)
  exact this _ hk

/-- The value name a root-level term gets when it is added. -/
def addedTvn (s : St) (t x : Nat) : Str :=
  if py!"@value" = (s.heap x).defTvn then declProp s.declTerms (s.heap t).join (py!"termvaluename") (s.heap x).defTvn else py!"@value"

/-- The state after a root-level term has been added to a document that does not have it. -/
def _root_.Spec.withAdded (s : St) (t x : Nat) (tvn cpt : Str) : St :=
  { s with
    terms := s.terms ++ [t]
    heap := fun j => if j = t then { s.heap t with tvn := tvn, cpt := cpt } else if j = x then { s.heap x with terms := (s.heap x).terms ++ [t] } else s.heap j }

/-- `doc.add_term` of a new root-level term with its properties, up to its declared names. -/
theorem docAddTerm_kids_pre {s : St} {t x : Nat} {n : Str} (hx : Registered s x n) (hlt : t < s.next) (htx : t ≠ x) (hsec : (s.heap t).sec = some x)
    (hpt : (s.heap t).pt = ROOT) (htvn : (s.heap t).tvn = py!"@value") (hcl : (s.heap t).cls.isSection = false)
    (hnt : t ∉ s.terms) (hnx : t ∉ (s.heap x).terms)
    (hk : ∀ c ∈ (s.heap t).children, c ≠ x ∧ (s.heap c).parent = some t ∧ (s.heap c).sec = some x ∧ (s.heap c).children = []) :
    docAddTerm t s = addTermFinish t ({ s with terms := s.terms ++ [t] }.setObj x { s.heap x with terms := (s.heap x).terms ++ [t] }) := by
  obtain ⟨s2, hs2⟩ : ∃ s2 : St, s2 = { s with terms := s.terms ++ [t] } := ⟨_, rfl⟩
  obtain ⟨s3, hs3⟩ : ∃ s3 : St, s3 = s2.setObj x { s.heap x with terms := (s.heap x).terms ++ [t] } := ⟨_, rfl⟩
  have h2 : ∀ j, s2.heap j = s.heap j := fun j => by rw [hs2]
  have h3 : ∀ j, j ≠ x → s3.heap j = s.heap j := fun j hj => by rw [hs3, heap_setObj, if_neg hj, h2]
  have h3n : s3.heap t = s.heap t := h3 t htx
  have h3t : t ∈ s3.terms := by
    have : s3.terms = s.terms ++ [t] := by rw [hs3, hs2]; rfl
    rw [this]; simp
  have e4 : sectionAddTerm x t s2 = .ok () s3 := by
    unfold sectionAddTerm
    rw [bind_run, get_run]
    simp only
    rw [if_pos (by rw [h2]; exact hnx)]
    rw [h2, hpt, if_pos (by decide), bind_run, upd_run, h2, ← hs3]
    simp only
    unfold docAddTermCore
    rw [bind_run, bind_run, get_run]
    simp only
    rw [if_pos h3t, pure_run]
    simp only
    rw [bind_run, setOwnership_kids (s := s3) (t := t) (x := x) (by rw [hs3, hs2]; exact hlt) (by rw [h3n]; exact hsec) (by
      rw [h3n]
      intro c hc
      obtain ⟨hcx, h⟩ := hk c hc
      rw [h3 c hcx]; exact h)]
    simp only [bind_run, obj_run, h3n, hsec, Option.isSome_some, assert_run, if_true]
    simp
  have e0 : ({ s with terms := s.terms ++ [t] } : St).setObj x { s.heap x with terms := (s.heap x).terms ++ [t] } = s3 := by rw [hs3, hs2]
  rw [e0]
  have e5 : docAddTerm t s = addTermFinish t s3 := by
    unfold docAddTerm
    rw [bind_run, get_run]
    simp only
    rw [if_neg hnt, bind_run]
    simp only [hsec, Option.isSome_some, true_or, decide_true, assert_run, if_true, hcl, Bool.false_eq_true, if_false]
    rw [bind_run, modify_run, ← hs2]
    simp only
    rw [hpt, if_pos (by decide), bind_run, addSection_known (n := n) (by rw [h2]; exact hx.cls) (by rw [h2]; exact hx.value)
      (by rw [hs2]; exact hx.known)]
    simp only
    have hps : lower (s2.heap t).tvn ≠ py!"section" ∧ py!"section" ∉ (propertyNames s2 t).map lower := by
      refine ⟨by rw [h2, htvn]; decide, ?_⟩
      unfold propertyNames
      rw [h2, hcl, hsec]
      simp only [Bool.false_eq_true, if_false, h2]
      exact hx.plain
    rw [bind_run, setSectionTerm_run hps]
    have e6 : s2.setObj t { s2.heap t with sec := some x } = s2 := by
      have : ({ s2.heap t with sec := some x } : Obj) = s2.heap t := by rw [h2, ← hsec]
      rw [this, setObj_same]
    rw [e6]
    simp only [bind_run, obj_run, h2, hsec, e4]
  exact e5

/-- `doc.add_term` of a new root-level term with its properties. -/
theorem docAddTerm_kids {s : St} {t x : Nat} {n : Str} (hx : Registered s x n) (hlt : t < s.next) (htx : t ≠ x) (hsec : (s.heap t).sec = some x)
    (hpt : (s.heap t).pt = ROOT) (htvn : (s.heap t).tvn = py!"@value") (hcpt : (s.heap t).cpt = py!"any") (hcl : (s.heap t).cls.isSection = false)
    (hnt : t ∉ s.terms) (hnx : t ∉ (s.heap x).terms)
    (hk : ∀ c ∈ (s.heap t).children, c ≠ x ∧ (s.heap c).parent = some t ∧ (s.heap c).sec = some x ∧ (s.heap c).children = [])
    (htv : lower (addedTvn s t x) ∉ reservedTvn) :
    docAddTerm t s = .ok () (withAdded s t x (addedTvn s t x) (declProp s.declTerms (s.heap t).join (py!"childpropertytype") (py!"any"))) := by
  obtain ⟨s2, hs2⟩ : ∃ s2 : St, s2 = { s with terms := s.terms ++ [t] } := ⟨_, rfl⟩
  obtain ⟨s3, hs3⟩ : ∃ s3 : St, s3 = s2.setObj x { s.heap x with terms := (s.heap x).terms ++ [t] } := ⟨_, rfl⟩
  have h2 : ∀ j, s2.heap j = s.heap j := fun j => by rw [hs2]
  have h3 : ∀ j, j ≠ x → s3.heap j = s.heap j := fun j hj => by rw [hs3, heap_setObj, if_neg hj, h2]
  have h3n : s3.heap t = s.heap t := h3 t htx
  have e5 : docAddTerm t s = addTermFinish t s3 := by
    rw [docAddTerm_kids_pre hx hlt htx hsec hpt htvn hcl hnt hnx hk, hs3, hs2]
  have hd3 : s3.declTerms = s.declTerms := by rw [hs3, hs2]; rfl
  have hx3 : (s3.heap x).defTvn = (s.heap x).defTvn := by rw [hs3, heap_setObj, if_pos rfl]
  rw [e5]
  unfold addTermFinish
  rw [bind_run, get_run]
  simp only
  rw [h3n, if_pos (.inr hcpt), bind_run, upd_run, hsec]
  dsimp only
  rw [hx3, hd3, htvn]
  have fin : ∀ s4 : St, (∀ j, s4.heap j = (withAdded s t x (addedTvn s t x) (declProp s.declTerms (s.heap t).join (py!"childpropertytype") (py!"any"))).heap j) →
      { s4 with heap := s3.heap } = s3 →
      s4 = withAdded s t x (addedTvn s t x) (declProp s.declTerms (s.heap t).join (py!"childpropertytype") (py!"any")) := by
    intro s4 ha hb
    have h5 : { s3 with heap := (withAdded s t x (addedTvn s t x) (declProp s.declTerms (s.heap t).join (py!"childpropertytype") (py!"any"))).heap } =
        withAdded s t x (addedTvn s t x) (declProp s.declTerms (s.heap t).join (py!"childpropertytype") (py!"any")) := by
      rw [hs3, hs2]; rfl
    rw [← h5, ← hb]
    refine St.ext rfl (funext ha) rfl rfl rfl rfl rfl rfl rfl rfl rfl rfl
  have hheap : ∀ j, j ≠ t → s3.heap j = (withAdded s t x (addedTvn s t x) (declProp s.declTerms (s.heap t).join (py!"childpropertytype") (py!"any"))).heap j := by
    intro j hj
    rw [hs3, heap_setObj, h2]
    unfold withAdded
    simp only [if_neg hj]
  by_cases hv : py!"@value" = (s.heap x).defTvn
  · have hnew : addedTvn s t x = declProp s.declTerms (s.heap t).join (py!"termvaluename") (s.heap x).defTvn := by
      unfold addedTvn; rw [if_pos hv]
    rw [if_pos (.inr hv)]
    unfold setTvn
    rw [← hnew, if_neg htv, upd_run]
    congr 1
    refine fin _ (fun j => ?_) ?_
    · by_cases e : j = t
      · subst e
        simp only [heap_setObj, if_true, h3n]
        unfold withAdded; simp only [if_true]
      · simp only [heap_setObj, if_neg e]; exact hheap j e
    · rfl
  · have hnew : addedTvn s t x = py!"@value" := by
      unfold addedTvn; rw [if_neg hv]
    rw [if_neg (by simpa using hv), pure_run]
    congr 1
    refine fin _ (fun j => ?_) ?_
    · by_cases e : j = t
      · subst e
        simp only [heap_setObj, if_true, h3n]
        unfold withAdded; simp only [if_true]
        rw [hnew, ← htvn]
      · simp only [heap_setObj, if_neg e]; exact hheap j e
    · rfl

/-- **C68** `section.new_term(name, value, **properties)` for a root-level name makes one new term as C17 says, and one child of it for each
property, in the order given. Only the new term, and not its children, is listed by the document and the section. -/
theorem C68_term {s : St} (h : Reach (fun _ => True) s) {x : Nat} {n : Str} (hx : Registered s x n) {B : Str} (hB : PlainPart B)
    (hc : (docTermClass s (lower B)).isSection = false) (htv : lower (newTvn s x B) ∉ reservedTvn) (v : Val)
    {kw ws : List (Str × Val)} (hk : KwOk s (lower B) kw) (hw : (kw.mapM fun kv => (textOf kv.2).map fun w => (kv.1, w)) = some ws) :
    ∃ s', newTerm x B v kw s = .ok s.next s' ∧ s'.next = s.next + 1 + ws.length ∧
      s'.heap s.next = { newObj s x (docTermClass s (lower B)) B B v with children := List.range' (s.next + 1) ws.length } ∧
      (∀ i (h : i < ws.length), s'.heap (s.next + 1 + i) = propObj s s.next (lower B) (some x) ws[i].1 ws[i].2) ∧
      s'.heap x = { s.heap x with terms := (s.heap x).terms ++ [s.next] } ∧ s'.terms = s.terms ++ [s.next] ∧
      (∀ j, j < s.next → j ≠ x → s'.heap j = s.heap j) ∧ s' = { s with next := s'.next, heap := s'.heap, terms := s'.terms } := by
  have w : WF False s := h.wf fun f => f.elim
  have hxlt : x < s.next := (w.secsLt (lower n, x) (Dict.mem_of_get? hx.known)).1
  have hnt : s.next ∉ s.terms := fun m => absurd (w.termsLt _ m).1 (by omega)
  have hnx : s.next ∉ (s.heap x).terms := fun m => absurd (w.secTermsLt x _ m) (by omega)
  obtain ⟨c, hcc⟩ : ∃ c, c = docTermClass s (lower B) := ⟨_, rfl⟩
  obtain ⟨o0, ho0⟩ : ∃ o0, o0 = { Obj.blank with cls := c, raw := B, pt := ROOT, rt := lower B, value := v.mk, sec := some x } := ⟨_, rfl⟩
  rw [← hcc] at hc ⊢
  obtain ⟨s1, hs1⟩ : ∃ s1 : St, s1 = ({ s with next := s.next + 1 }.setObj s.next o0) := ⟨_, rfl⟩
  have e1 : construct c B v none (some x) s = .ok s.next s1 := by
    have : newTermObj c B v [] none (some x) 0 false s = .ok s.next s1 := by
      unfold newTermObj
      rw [bind_run, lift_run, splitTermLower_plain hB, hs1]
      rw [ho0]; rfl
    unfold construct
    cases c with
    | term => exact this
    | user k => exact this
    | «section» => cases hc
    | root => cases hc
  have h1 : ∀ j, s1.heap j = if j = s.next then o0 else s.heap j := fun j => by rw [hs1]; rfl
  have hc1 : s1.heap s.next = o0 := by rw [h1, if_pos rfl]
  have hn1 : s1.next = s.next + 1 := by rw [hs1]; rfl
  have hrt : o0.rt = lower B := by rw [ho0]
  have hrun := newChildren_run (t := s.next) (kw := kw) (ws := ws) (s := s1) (by omega)
    (KwOk.congr (by rw [hc1, hrt]; exact hk) (by rw [hs1]; rfl) (by rw [hs1]; rfl) (by rw [hs1]; rfl)) hw
  obtain ⟨ka, kb, kc, kd, ke⟩ := withKids_spec (t := s.next) (ws := ws) (s := s1) (by omega)
  obtain ⟨s2, hs2⟩ : ∃ s2, s2 = withKids s1 s.next ws := ⟨_, rfl⟩
  rw [← hs2] at hrun ka kb kc kd ke
  have hxx : s2.heap x = s.heap x := by rw [kd x (by omega) (by omega), h1, if_neg (by omega)]
  have hb : s2.heap s.next = { o0 with children := List.range' (s.next + 1) ws.length } := by
    rw [kb, hc1, hn1]
    have : o0.children = [] := by rw [ho0]; rfl
    rw [this]; simp
  have hkid : ∀ i (h : i < ws.length), s2.heap (s.next + 1 + i) = propObj s s.next (lower B) (some x) ws[i].1 ws[i].2 := by
    intro i hi
    rw [← hn1, kc i hi, hc1]
    have hcls : ∀ n, docTermClass s1 n = docTermClass s n := fun n => by rw [hs1]; rfl
    have hd : s1.declTerms = s.declTerms := by rw [hs1]; rfl
    unfold kidObj propObj
    rw [hcls, hd, hc1, hrt]
    have : o0.sec = some x := by rw [ho0]
    rw [this]
  have ht2 : s2.terms = s.terms := by rw [ke, hs1]; rfl
  have hd2 : s2.declTerms = s.declTerms := by rw [ke, hs1]; rfl
  have hj2 : (s2.heap s.next).join = dotJoin ROOT (lower B) := by rw [hb, ho0]; rfl
  have htv2 : addedTvn s2 s.next x = newTvn s x B := by
    unfold addedTvn newTvn; rw [hxx, hj2, hd2]
  have hadd := docAddTerm_kids (s := s2) (t := s.next) (x := x) (n := n)
    ⟨by rw [hxx]; exact hx.cls, by rw [hxx]; exact hx.value, by rw [ke, hs1]; exact hx.known, by rw [hxx]; exact hx.plain⟩
    (by omega) (by omega) (by rw [hb, ho0]) (by rw [hb, ho0]) (by rw [hb, ho0]; rfl) (by rw [hb, ho0]; rfl) (by rw [hb, ho0]; exact hc)
    (by rw [ht2]; exact hnt) (by rw [hxx]; exact hnx)
    (by
      intro k hk
      rw [hb] at hk
      obtain ⟨i, hi, rfl⟩ := List.mem_range'.1 hk
      rw [Nat.one_mul, hkid i hi]
      exact ⟨by omega, rfl, rfl, rfl⟩)
    (by rw [htv2]; exact htv)
  rw [htv2, hj2, hd2] at hadd
  refine ⟨withAdded s2 s.next x (newTvn s x B) (declProp s.declTerms (dotJoin ROOT (lower B)) (py!"childpropertytype") (py!"any")),
    ?_, ?_, ?_, fun i hi => ?_, ?_, ?_, fun j hj hjx => ?_, ?_⟩
  · unfold newTerm
    rw [bind_run, get_run]
    dsimp only
    rw [← hcc, bind_run, e1]
    simp only [bind_run, hrun, hadd, pure_run]
  · show s2.next = _; rw [ka, hn1]
  · unfold withAdded; simp only [if_true]; rw [hb, ho0]; rfl
  · unfold withAdded; simp only; rw [if_neg (by omega), if_neg (by omega), hkid i hi]
  · unfold withAdded; simp only [if_true]; rw [if_neg (by omega), hxx]
  · show s2.terms ++ _ = _; rw [ht2]
  · unfold withAdded; simp only; rw [if_neg (by omega), if_neg hjx, kd j (by omega) (by omega), h1, if_neg (by omega)]
  · unfold withAdded
    rw [ke, hs1]; rfl

/-! ## Examples -/
theorem exDoc_reach : Reach (fun _ => True) exDoc := .new exEnv _

/-- A new document can be given a title with two properties, and the title another child with a property. -/
example : ∃ s', newTerm 0 (py!"Title") (.str (py!" T ")) [(py!"Lang", .str (py!"en")), (py!"size", .int 3)] exDoc = .ok 1 s' ∧
    (s'.heap 1).children = [2, 3] ∧ (s'.heap 2).join = py!"title.lang" ∧ (s'.heap 3).value = .str (py!"3") ∧ s'.terms = [1] := by
  obtain ⟨s', h1, -, h3, h4, -, h6, -⟩ := C68_term exDoc_reach (x := 0) (n := py!"Root") ⟨by decide, by decide, by decide, by decide⟩ (B := py!"Title")
    ⟨by decide, by decide, by decide⟩ (by decide) (by decide) (.str (py!" T ")) (kw := [(py!"Lang", .str (py!"en")), (py!"size", .int 3)])
    (ws := [(py!"Lang", .str (py!"en")), (py!"size", .str (py!"3"))])
    (by
      intro kv h
      rcases List.mem_cons.1 h with rfl | h
      · exact ⟨⟨by decide, by decide, by decide⟩, by decide, by decide, by decide⟩
      · obtain rfl := List.mem_singleton.1 h
        exact ⟨⟨by decide, by decide, by decide⟩, by decide, by decide, by decide⟩)
    (by decide)
  refine ⟨s', h1, ?_, ?_, ?_, h6⟩
  · have : exDoc.next = 1 := rfl
    rw [this] at h3; rw [h3]; rfl
  · have := h4 0 (by decide); rw [show exDoc.next + 1 + 0 = 2 from rfl] at this; rw [this]; decide
  · have := h4 1 (by decide); rw [show exDoc.next + 1 + 1 = 3 from rfl] at this; rw [this]; decide

/-- The hypotheses of `C68_new`, `C68_properties` and `C68_mismatch` can be met. -/
def kidDoc : St := after (newTerm 0 (py!"Title") (.str (py!"T"))) exDoc
example : newChild 1 (py!"Title.Lang") (.int 5) [] kidDoc = .ok 2 (withChild kidDoc 1 (kidObj kidDoc 1 (py!"Title.Lang") (py!"title") (py!"lang") (.str (py!"5")))) :=
  C68_new (by decide +kernel) ⟨⟨py!"title", by decide, .inr ⟨by decide, rfl, by decide +kernel⟩⟩, by decide +kernel, by decide, by decide +kernel⟩ rfl
example : ∃ s', newChild 1 (py!"Lang") (.str (py!"en")) [(py!"Code", .str (py!"e"))] kidDoc = .ok 2 s' ∧ (s'.heap 2).children = [3] := by
  have hn : kidDoc.next = 2 := by decide +kernel
  obtain ⟨s', h1, -, -, h4, -⟩ := C68_properties (s := kidDoc) (t := 1) (by rw [hn]; decide) (term := py!"Lang") (p := py!"title") (r := py!"lang")
    ⟨⟨ROOT, by decide, .inl ⟨rfl, by decide +kernel⟩⟩, by decide +kernel, by decide, by decide +kernel⟩ (v := .str (py!"en")) rfl
    (kw := [(py!"Code", .str (py!"e"))]) (ws := [(py!"Code", .str (py!"e"))])
    (by
      intro kv h
      obtain rfl := List.mem_singleton.1 h
      exact ⟨⟨by decide, by decide, by decide⟩, by decide +kernel, by decide, by decide +kernel⟩) (by decide)
  rw [hn] at h1 h4
  exact ⟨s', h1, by rw [h4]; rfl⟩
example : newChild 1 (py!"Other.Lang") (.str (py!"en")) [] kidDoc = .err .assertionError kidDoc :=
  C68_mismatch (p := py!"other") (r := py!"lang") (by decide) (by decide) (by decide +kernel) (by decide +kernel) rfl []

end Metatab
