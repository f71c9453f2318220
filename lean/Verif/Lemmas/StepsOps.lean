import Verif.Lemmas.Steps
/-! The operations on terms are sequences of elementary steps. -/
namespace Metatab
open Py

/-- The steps may attach every object from `n` on to older ones, and anything when children may be attached by hand. -/
structure Cap.Good (C : Cap) (n : Nat) : Prop where
  new : ∀ t c, n ≤ c → t < c → C.att t c
  any : ¬ C.strict → ∀ t c, C.att t c

theorem Cap.Good.mono {C : Cap} {n m : Nat} (h : C.Good n) (hm : n ≤ m) : C.Good m :=
  ⟨fun t c a b => h.new t c (Nat.le_trans hm a) b, h.any⟩
theorem Cap.Good.up {C : Cap} {s s' : St} (h : C.Good s.next) (k : Steps C s s') : C.Good s'.next := h.mono (Steps.ext k).next

/-- The same permissions, but in strict mode attach objects from `n` on only. -/
def Cap.since (C : Cap) (n : Nat) : Cap := { C with att := fun t c => C.att t c ∧ (C.strict → n ≤ c) }
theorem Cap.Good.since {C : Cap} {n m k : Nat} (h : C.Good n) (hn : n ≤ k) (hk : m ≤ k) : (C.since m).Good k :=
  ⟨fun t c a b => ⟨h.new t c (Nat.le_trans hn a) b, fun _ => Nat.le_trans hk a⟩, fun hs t c => ⟨h.any hs t c, fun f => absurd f hs⟩⟩

variable {C : Cap} {s : St}

/-- What a fresh object looks like. -/
structure FreshObj (s s' : St) (i : Nat) (cls : Cls) (parent sec : Option Nat) : Prop where
  eq : i = s.next
  obj : ∃ o : Obj, s' = { s with next := s.next + 1 }.setObj s.next o ∧ o.children = [] ∧ o.terms = [] ∧ o.parent = parent ∧ o.sec = sec ∧
    o.cls = cls

namespace FreshObj
variable {s' : St} {i : Nat} {cls : Cls} {parent sec : Option Nat} (f : FreshObj s s' i cls parent sec)
include f
theorem next : s'.next = s.next + 1 := by obtain ⟨o, h, _⟩ := f.obj; rw [h]; rfl
theorem lt : i < s'.next := by rw [f.next, f.eq]; exact Nat.lt_succ_self _
theorem heap {j : Nat} (h : j ≠ i) : s'.heap j = s.heap j := by
  obtain ⟨o, e, _⟩ := f.obj; rw [e, heap_setObj, if_neg (by rw [← f.eq]; exact h)]
theorem at_ : ∃ o : Obj, s'.heap i = o ∧ o.children = [] ∧ o.terms = [] ∧ o.parent = parent ∧ o.sec = sec ∧ o.cls = cls := by
  obtain ⟨o, e, h⟩ := f.obj; exact ⟨o, by rw [e, heap_setObj, f.eq, if_pos rfl], h⟩
theorem children : (s'.heap i).children = [] := by obtain ⟨o, e, h, _⟩ := f.at_; rw [e, h]
theorem terms : (s'.heap i).terms = [] := by obtain ⟨o, e, _, h, _⟩ := f.at_; rw [e, h]
theorem par : (s'.heap i).parent = parent := by obtain ⟨o, e, _, _, h, _⟩ := f.at_; rw [e, h]
theorem sect : (s'.heap i).sec = sec := by obtain ⟨o, e, _, _, _, h, _⟩ := f.at_; rw [e, h]
theorem cl : (s'.heap i).cls = cls := by obtain ⟨o, e, _, _, _, _, h⟩ := f.at_; rw [e, h]
theorem free {F : Prop} (w : WF F s) : Free s' i := by
  intro j hj
  by_cases e : j = i
  · rw [e, f.children] at hj; cases hj
  · rw [f.heap e] at hj
    have := w.kidLt j i hj
    rw [f.eq] at this; omega
theorem sections : s'.sections = s.sections ∧ s'.terms = s.terms ∧ s'.p = s.p ∧ s'.env = s.env ∧ s'.root = s.root := by
  obtain ⟨o, h, _⟩ := f.obj; rw [h]; exact ⟨rfl, rfl, rfl, rfl, rfl⟩
end FreshObj

theorem tri_alloc {o : Obj} (hc : o.children = []) (ht : o.terms = []) (hp : ∀ q, o.parent = some q → q < s.next)
    (hs : ∀ x, o.sec = some x → x < s.next ∧ (s.heap x).cls.isSection = true) (hn : Low o.pt ∧ Low o.rt) :
    Tri C (alloc o) (fun i s' => FreshObj s s' i o.cls o.parent o.sec) s :=
  fun _ => ⟨.single (.alloc o hc ht hp hs hn), rfl, o, rfl, hc, ht, rfl, rfl, rfl⟩

theorem splitTermLower_low {t p r : Str} (h : splitTermLower t = .ok (p, r)) : Low p ∧ Low r := by
  unfold splitTermLower at h
  cases hs : splitTerm t with
  | error e => rw [hs] at h; cases h
  | ok a => rw [hs] at h; cases h; exact ⟨lower_lower _, lower_lower _⟩

theorem tri_newTermObj {cls : Cls} {term : Str} {value : Val} {args : List Str} {parent sec : Option Nat} {col : Nat} {isDecl : Bool}
    (hp : ∀ q, parent = some q → q < s.next) (hs : ∀ x, sec = some x → x < s.next ∧ (s.heap x).cls.isSection = true) :
    Tri C (newTermObj cls term value args parent sec col isDecl) (fun i s' => FreshObj s s' i cls parent sec) s := by
  unfold newTermObj
  refine tri_wf fun w => tri_lift fun ⟨p0, r⟩ hpr => ?_
  have hl := splitTermLower_low hpr
  cases parent with
  | none => exact tri_alloc rfl rfl (fun q h => by cases h) hs hl
  | some q =>
    refine tri_obj (tri_assert fun _ => ?_)
    refine tri_alloc rfl rfl hp hs ⟨?_, hl.2⟩
    dsimp only; split
    · exact (w.low q).2
    · exact hl.1

theorem tri_newSectionObj {term : Str} {value : Val} {args : List Str} {isDecl : Bool} :
    Tri C (newSectionObj term value args isDecl) (fun i s' => FreshObj s s' i .section none none) s := by
  unfold newSectionObj
  have fin : ∀ a : List Str, Tri C (do
      let i ← newTermObj .section term value a none none 1 isDecl
      let o ← obj i
      M.assert (o.joinLc = py!"root.section" ∨ o.joinLc = py!"root.root")
      return i) (fun i s' => FreshObj s s' i .section none none) s := by
    intro a
    refine tri_bind (tri_newTermObj (fun q h => by cases h) (fun q h => by cases h)) fun i s' _ f => ?_
    exact tri_obj (tri_assert fun _ => tri_pure f)
  refine tri_ite (fun _ => ?_) fun _ => ?_
  · exact tri_bind (Q := fun _ s' => s' = s) (tri_pure rfl) fun a s' _ e => by subst e; exact fin a
  · exact tri_lift fun a _ => fin a

theorem tri_construct {cls : Cls} {term : Str} {value : Val} {parent sec : Option Nat} (hp : ∀ q, parent = some q → q < s.next)
    (hs : ∀ x, sec = some x → x < s.next ∧ (s.heap x).cls.isSection = true) :
    Tri C (construct cls term value parent sec)
      (fun i s' => ∃ c, FreshObj s s' i c parent sec ∧ (parent.isSome ∨ sec.isSome → c.isSection = false)) s := by
  unfold construct
  cases cls with
  | term => exact tri_mono (tri_newTermObj hp hs) fun i s' _ f => ⟨_, f, fun _ => rfl⟩
  | user n => exact tri_mono (tri_newTermObj hp hs) fun i s' _ f => ⟨_, f, fun _ => rfl⟩
  | root => exact tri_raise
  | «section» =>
    refine tri_ite (fun _ => ?_) fun h => ?_
    · exact tri_lift fun _ _ => tri_raise
    · have h1 : parent = none ∧ sec = none := by
        cases parent <;> cases sec <;> simp at h ⊢
      obtain ⟨rfl, rfl⟩ := h1
      exact tri_mono tri_newSectionObj fun i s' _ f => ⟨_, f, fun h' => absurd h' h⟩

theorem step_attrs {i : Nat} {o : Obj} (hi : i < s.next) (h : SameLinks (s.heap i) o) : Step C s (s.setObj i o) := .attrs i o hi h

theorem tri_setTvn {t : Nat} {v : Str} (ht : t < s.next) :
    Tri C (setTvn t v) (fun _ s' => s' = s.setObj t { s.heap t with tvn := v }) s := by
  unfold setTvn
  refine tri_ite (fun _ => tri_raise) fun _ => ?_
  exact tri_upd' (step_attrs ht ⟨rfl, rfl, rfl, rfl, rfl, rfl, rfl⟩) rfl

/-- Attaching a fresh child. -/
theorem step_attach {t c : Nat} (w : WF C.strict s) (ht : t < c) (hc : c < s.next) (ha : C.att t c)
    (h : C.strict → (s.heap c).cls.isSection = false ∧ (s.heap c).parent = some t ∧ Free s c) :
    Step C s (s.setObj t { s.heap t with children := (s.heap t).children ++ [c] }) :=
  .attach t c (Nat.lt_trans ht hc) hc ha fun f => ⟨.inl ht, h f⟩

theorem tri_newChild0 {t : Nat} {term : Str} {value : Val} (ht : t < s.next) (hC : C.Good s.next) :
    Tri C (newChild0 t term value) (fun c s' => c < s'.next) s := by
  unfold newChild0
  refine tri_wf fun w => tri_get ?_
  have fin : ∀ v : Val, Tri C (do
      let c ← construct (docTermClass s (lower term)) term v (some t) (s.heap t).sec
      let o ← obj c
      setTvn c (declProp s.declTerms o.join (py!"termvaluename") o.tvn)
      M.assert (lower o.rt ≠ py!"section")
      upd t fun o => { o with children := o.children ++ [c] }
      return c) (fun c s' => c < s'.next) s := by
    intro v
    refine tri_bind (tri_construct (fun q h => by cases h; exact ht) (w.secLt t)) fun c s1 st1 ⟨cl, f, hcl⟩ => ?_
    refine tri_obj ?_
    refine tri_bind (tri_setTvn f.lt) fun _ s2 st2 e2 => ?_
    refine tri_assert fun _ => ?_
    have htc : t < c := by rw [f.eq]; exact ht
    have kids : ∀ j, (s2.heap j).children = (s1.heap j).children := by
      intro j; rw [e2, heap_setObj]; split
      · next e => rw [e]
      · rfl
    refine tri_wf fun w2 => tri_upd (step_attach w2 htc (st2.lt f.lt) (hC.new t c (by rw [f.eq]; exact Nat.le_refl _) htc) fun _ => ⟨?_, ?_, ?_⟩)
      (tri_pure (st2.lt f.lt))
    · rw [e2, heap_setObj, if_pos rfl]
      show (s1.heap c).cls.isSection = false
      rw [f.cl]; exact hcl (.inl rfl)
    · rw [e2, heap_setObj, if_pos rfl]; exact f.par
    · intro j; rw [kids]; exact f.free w j
  split
  · exact tri_bind (Q := fun _ s' => s' = s) (tri_pure rfl) fun a s' _ e => by subst e; exact fin a
  · split
    · exact tri_bind (Q := fun _ s' => s' = s) (tri_pure rfl) fun a s' _ e => by subst e; exact fin a
    · exact tri_bind (Q := fun _ s' => False) tri_raise fun a s' _ e => by cases e

theorem tri_newChildren {t : Nat} {kw : List (Str × Val)} (ht : t < s.next) (hC : C.Good s.next) :
    Tri C (newChildren t kw) (fun _ _ => True) s := by
  unfold newChildren
  refine tri_forL (I := fun _ => True) (fun a _ s' st _ => ?_) trivial
  exact tri_bind (tri_newChild0 (st.lt ht) (hC.up st)) fun _ _ _ _ => tri_pure trivial

/-- Free stays free, and the parent stays, when only newer objects are attached. -/
theorem Steps.keepFree {n : Nat} {s s' : St} (h : Steps (C.since n) s s') (f : C.strict) {c : Nat} (hc : c < n) (hf : Free s c) : Free s' c :=
  fun i hi => hf i (Steps.oldKids (C := C.since n) (n := n) (fun _ _ a => a.2 f) h hc hi)
theorem Steps.keepParent {n : Nat} {s s' : St} (h : Steps (C.since n) s s') (f : C.strict) {c : Nat} (hc : c < n) (hn : c < s.next) :
    (s'.heap c).parent = (s.heap c).parent := Steps.oldParent (C := C.since n) (n := n) (fun _ _ a => a.2 f) h hc hn
theorem Steps.ofSince {n : Nat} {s s' : St} (h : Steps (C.since n) s s') : Steps C s s' :=
  h.mono id (fun _ _ a => a.1) id id id
theorem tri_ofSince {α : Type} {m : M α} {Q : α → St → Prop} {n : Nat} (h : Tri (C.since n) m Q s) :
    Tri C m (fun a s' => Steps (C.since n) s s' ∧ Q a s') s := by
  intro w
  exact wp_mono (h w) (fun _ _ ⟨a, b⟩ => ⟨a.ofSince, a, b⟩) fun _ _ a => a.ofSince

theorem tri_newChild {t : Nat} {term : Str} {value : Val} {kw : List (Str × Val)} (ht : t < s.next) (hC : C.Good s.next) :
    Tri C (newChild t term value kw) (fun c s' => c < s'.next) s := by
  unfold newChild
  refine tri_wf fun w => tri_get ?_
  have fin : ∀ v : Val, Tri C (do
      let c ← construct (docTermClass s (lower term)) term v (some t) (s.heap t).sec
      newChildren c kw
      let o ← obj c
      setTvn c (declProp s.declTerms o.join (py!"termvaluename") o.tvn)
      M.assert (lower o.rt ≠ py!"section")
      upd t fun o => { o with children := o.children ++ [c] }
      return c) (fun c s' => c < s'.next) s := by
    intro v
    refine tri_bind (tri_construct (fun q h => by cases h; exact ht) (w.secLt t)) fun c s1 st1 ⟨cl, f, hcl⟩ => ?_
    have htc : t < c := by rw [f.eq]; exact ht
    refine tri_bind (tri_ofSince (n := c + 1) (tri_newChildren f.lt (hC.since (by rw [f.next]; exact Nat.le_succ _) (by rw [f.next, f.eq]; exact Nat.le_refl _))))
      fun _ s2 st2 ⟨st2', _⟩ => ?_
    refine tri_obj ?_
    refine tri_bind (tri_setTvn (st2.lt f.lt)) fun _ s3 st3 e3 => ?_
    refine tri_assert fun _ => ?_
    have kids : ∀ j, (s3.heap j).children = (s2.heap j).children := by
      intro j; rw [e3, heap_setObj]; split
      · next e => rw [e]
      · rfl
    have hc3 := st3.lt (st2.lt f.lt)
    refine tri_wf fun w2 => tri_upd (step_attach w2 htc hc3 (hC.new t c (by rw [f.eq]; exact Nat.le_refl _) htc) fun hF => ⟨?_, ?_, ?_⟩)
      (tri_pure hc3)
    · rw [st3.cls (st2.lt f.lt), st2.cls f.lt, f.cl]; exact hcl (.inl rfl)
    · rw [e3, heap_setObj, if_pos rfl]
      show (s2.heap c).parent = some t
      rw [st2'.keepParent hF (Nat.lt_succ_self c) f.lt]; exact f.par
    · intro j; rw [kids]; exact st2'.keepFree hF (Nat.lt_succ_self c) (f.free w) j
  split
  · exact tri_bind (Q := fun _ s' => s' = s) (tri_pure rfl) fun a s' _ e => by subst e; exact fin a
  · split
    · exact tri_bind (Q := fun _ s' => s' = s) (tri_pure rfl) fun a s' _ e => by subst e; exact fin a
    · exact tri_bind (Q := fun _ s' => False) tri_raise fun a s' _ e => by cases e

theorem childNamed_mem {t : Nat} {n : Str} {v : Val} {c : Nat} (h : childNamed s t n v = some c) : c ∈ (s.heap t).children :=
  List.mem_of_find?_eq_some h

theorem tri_setValue {t : Nat} {v : Val} (ht : t < s.next) : Tri C (upd t fun o => { o with value := v }) (fun _ _ => True) s :=
  tri_upd' (step_attrs ht ⟨rfl, rfl, rfl, rfl, rfl, rfl, rfl⟩) trivial

theorem tri_getOrNewChild0 {t : Nat} {term : Str} {value : Val} (ht : t < s.next) (hC : C.Good s.next) :
    Tri C (getOrNewChild0 t term value) (fun c s' => c < s'.next) s := by
  unfold getOrNewChild0
  refine tri_wf fun w => tri_get (tri_ite (fun _ => tri_raise) fun _ => tri_lift fun ⟨_, rt⟩ _ => ?_)
  dsimp only
  have fin : ∀ c s', c < s'.next → Tri C (do
      let s ← M.get
      M.assert (decide (childNamed s t rt .fls = some c))
      return c) (fun c s' => c < s'.next) s' := fun c s' h => tri_get (tri_assert fun _ => tri_pure h)
  split
  · refine tri_bind (tri_construct (fun q h => by cases h; exact ht) (w.secLt t)) fun c s1 st1 ⟨cl, f, hcl⟩ => ?_
    refine tri_obj (tri_assert fun _ => ?_)
    have htc : t < c := by rw [f.eq]; exact ht
    refine tri_wf fun w1 => tri_upd (step_attach w1 htc f.lt (hC.new t c (by rw [f.eq]; exact Nat.le_refl _) htc) fun hF => ⟨?_, ?_, ?_⟩) ?_
    · rw [f.cl]; exact hcl (.inl rfl)
    · exact f.par
    · exact f.free w
    · exact tri_bind (Q := fun a s' => a < s'.next) (tri_pure f.lt) fun a s' _ e => fin a s' e
  · next c hc =>
    have hlt := w.kidLt t c (childNamed_mem hc)
    refine tri_ite (fun _ => ?_) fun _ => ?_
    · refine tri_bind (tri_setValue hlt) fun _ s1 st _ => ?_
      exact tri_bind (Q := fun a s' => a < s'.next) (tri_pure (st.lt hlt)) fun a s' _ e => fin a s' e
    · exact tri_bind (Q := fun a s' => a < s'.next) (tri_pure hlt) fun a s' _ e => fin a s' e

theorem tri_getOrNewChild {t : Nat} {term : Str} {value : Val} {kw : List (Str × Val)} (ht : t < s.next) (hC : C.Good s.next) :
    Tri C (getOrNewChild t term value kw) (fun c s' => c < s'.next) s := by
  unfold getOrNewChild
  refine tri_wf fun w => tri_get (tri_ite (fun _ => tri_raise) fun _ => tri_lift fun ⟨_, rt⟩ _ => ?_)
  dsimp only
  have fin : ∀ c s', c < s'.next → Tri C (do
      let s ← M.get
      M.assert (decide (childNamed s t rt .fls = some c))
      return c) (fun c s' => c < s'.next) s' := fun c s' h => tri_get (tri_assert fun _ => tri_pure h)
  split
  · refine tri_bind (tri_construct (fun q h => by cases h; exact ht) (w.secLt t)) fun c s1 st1 ⟨cl, f, hcl⟩ => ?_
    have htc : t < c := by rw [f.eq]; exact ht
    refine tri_bind (tri_ofSince (n := c + 1) (tri_newChildren f.lt (hC.since (by rw [f.next]; exact Nat.le_succ _) (by rw [f.next, f.eq]; exact Nat.le_refl _))))
      fun _ s2 st2 ⟨st2', _⟩ => ?_
    refine tri_obj (tri_assert fun _ => ?_)
    refine tri_wf fun w1 => tri_upd (step_attach w1 htc (st2.lt f.lt) (hC.new t c (by rw [f.eq]; exact Nat.le_refl _) htc) fun hF => ⟨?_, ?_, ?_⟩) ?_
    · rw [st2.cls f.lt, f.cl]; exact hcl (.inl rfl)
    · rw [st2'.keepParent hF (Nat.lt_succ_self c) f.lt]; exact f.par
    · exact st2'.keepFree hF (Nat.lt_succ_self c) (f.free w)
    · exact tri_bind (Q := fun a s' => a < s'.next) (tri_pure (st2.lt f.lt)) fun a s' _ e => fin a s' e
  · next c hc =>
    have hlt := w.kidLt t c (childNamed_mem hc)
    have fin2 : ∀ s1, Steps C s s1 → Tri C (do
        forL (fun kv => do let _ ← getOrNewChild0 c kv.1 kv.2) kw
        let c ← pure c
        let s ← M.get
        M.assert (decide (childNamed s t rt .fls = some c))
        return c) (fun c s' => c < s'.next) s1 := by
      intro s1 st
      refine tri_bind (tri_forL (I := fun _ => True) (fun a _ s' st' _ => ?_) trivial) fun _ s2 st2 _ => ?_
      · exact tri_bind (tri_getOrNewChild0 ((st.trans st').lt hlt) (hC.up (st.trans st'))) fun _ _ _ _ => tri_pure trivial
      · exact tri_bind (Q := fun a s' => a < s'.next) (tri_pure ((st.trans st2).lt hlt)) fun a s' _ e => fin a s' e
    refine tri_ite (fun _ => ?_) fun _ => ?_
    · exact tri_bind (tri_setValue hlt) fun _ s1 st _ => fin2 s1 st
    · exact fin2 s .refl

theorem tri_setItemSome {t : Nat} {item : Str} {value : Val} (ht : t < s.next) (hC : C.Good s.next) :
    Tri C (setItemSome t item value) (fun _ _ => True) s := by
  unfold setItemSome
  refine tri_obj (tri_ite (fun _ => tri_setValue ht) fun _ => ?_)
  refine tri_bind (tri_getOrNewChild0 ht hC) fun _ s1 _ _ => tri_lift fun c _ => tri_obj (tri_assert' fun _ => trivial)

theorem tri_setSectionTerm {t v : Nat} (ht : t < s.next) (hv : v < s.next ∧ (s.heap v).cls.isSection = true) (hC : C.Good s.next) :
    Tri C (setSectionTerm t v) (fun _ _ => True) s := by
  unfold setSectionTerm
  refine tri_get (tri_ite (fun _ => tri_setValue ht) fun _ => tri_ite (fun _ => tri_setItemSome ht hC) fun _ => ?_)
  exact tri_upd' (.setSec t (some v) ht (fun x e => by cases e; exact hv) fun e => by cases e) trivial

theorem tri_addSection {x : Nat} (hx : x < s.next) :
    Tri C (addSection x) (fun y s' => (y < s'.next ∧ (s'.heap y).cls.isSection = true) ∧ s'.heap = s.heap ∧ s'.terms = s.terms) s := by
  unfold addSection
  refine tri_wf fun w => tri_obj (tri_assert fun hs => ?_)
  split
  · refine tri_get ?_
    split
    · next y hy =>
      have := w.secsLt _ (Dict.mem_of_get? hy)
      exact tri_pure ⟨⟨this.1, this.2.1⟩, rfl, rfl⟩
    · exact tri_modify (.secAdd _ x hx hs) (tri_pure ⟨⟨hx, hs⟩, rfl, rfl⟩)
  · exact tri_raise

/-- Nothing but sections of objects differs. -/
def SecOnly (s s' : St) : Prop := ∀ i, (s'.heap i).children = (s.heap i).children

theorem tri_setOwnershipF (hC : C.Good s.next) : ∀ f t {s1 : St}, Steps C s s1 → t < s1.next →
    Tri C (setOwnershipF f t) (fun _ s' => SecOnly s1 s') s1
  | 0, _, _, _, _ => tri_raise
  | f + 1, t, s1, st1, ht => by
    unfold setOwnershipF
    refine tri_wf fun w1 => tri_obj (tri_assert fun hsec => ?_)
    have loop : ∀ (l : List Nat) (s2 : St), Steps C s1 s2 → SecOnly s1 s2 → (∀ c ∈ l, c ∈ (s1.heap t).children) →
        Tri C (forL (fun c => do
          upd c fun oc => { oc with parent := some t, sec := (s1.heap t).sec }
          setOwnershipF f c) l) (fun _ s' => SecOnly s1 s') s2 := by
      intro l
      induction l with
      | nil => intro s2 _ h _; exact tri_pure h
      | cons c l ih =>
        intro s2 st2 h2 hl
        have hcm := hl c List.mem_cons_self
        have hc1 := w1.kidLt t c hcm
        have hc2 := st2.lt hc1
        have hsecs : ∀ x, (s1.heap t).sec = some x → x < s2.next ∧ (s2.heap x).cls.isSection = true :=
          fun x hx => st2.isSec (w1.secLt t x hx)
        refine tri_bind (Q := fun _ s' => SecOnly s1 s') ?_ fun _ s3 st3 h3 => ih s3 (st2.trans st3) h3 fun d hd => hl d (List.mem_cons_of_mem _ hd)
        -- one child
        have body : ∀ s3, Steps C s2 s3 → SecOnly s1 s3 → Tri C (setOwnershipF f c) (fun _ s' => SecOnly s1 s') s3 := by
          intro s3 st3 h3
          exact tri_mono (tri_setOwnershipF hC f c ((st1.trans st2).trans st3) (st3.lt hc2)) fun _ s4 _ h4 i => (h4 i).trans (h3 i)
        have same : SecOnly s1 (s2.setObj c { s2.heap c with parent := some t, sec := (s1.heap t).sec }) := by
          intro i; rw [heap_setObj]; split
          · next e => rw [e]; exact h2 c
          · exact h2 i
        by_cases hF : C.strict
        · refine tri_wf fun w2 => ?_
          have hp : (s2.heap c).parent = some t := w2.kidPar hF t c (by rw [h2 t]; exact hcm)
          have e : ({ s2.heap c with parent := some t, sec := (s1.heap t).sec } : Obj) = { s2.heap c with sec := (s1.heap t).sec } := by
            rw [← hp]
          have hstep : Step C s2 (s2.setObj c { s2.heap c with parent := some t, sec := (s1.heap t).sec }) := by
            rw [e]; exact .setSec c _ hc2 hsecs fun e => by rw [e] at hsec; cases hsec
          exact tri_upd hstep (body _ (.single hstep) same)
        · have hs1 : Step C s2 (s2.setObj c { s2.heap c with parent := some t }) :=
            .setParent c t hc2 (st2.lt ht) (hC.any hF t c) fun f => absurd f hF
          have hs2 : Step C (s2.setObj c { s2.heap c with parent := some t })
              ((s2.setObj c { s2.heap c with parent := some t }).setObj c
                { (s2.setObj c { s2.heap c with parent := some t }).heap c with sec := (s1.heap t).sec }) :=
            .setSec c _ hc2 (fun x hx => (Steps.one hs1).isSec (hsecs x hx)) fun e => by rw [e] at hsec; cases hsec
          have e : ((s2.setObj c { s2.heap c with parent := some t }).setObj c
                { (s2.setObj c { s2.heap c with parent := some t }).heap c with sec := (s1.heap t).sec }) =
              s2.setObj c { s2.heap c with parent := some t, sec := (s1.heap t).sec } := by
            unfold St.setObj; simp only [if_pos]
            congr 1; funext j; split <;> rfl
          rw [e] at hs2
          have hst := (Steps.one hs1).tail hs2
          intro w2
          rw [wp_bind, wp_upd]
          exact wp_mono (body _ hst same (hst.wf w2)) (fun _ _ ⟨a, b⟩ => ⟨hst.trans a, b⟩) fun _ _ a => hst.trans a
    exact loop _ s1 .refl (fun _ => rfl) fun c h => h

theorem tri_setOwnership {t : Nat} (ht : t < s.next) (hC : C.Good s.next) : Tri C (setOwnership t) (fun _ _ => True) s := by
  unfold setOwnership
  exact tri_get (tri_mono (tri_setOwnershipF hC _ t .refl ht) fun _ _ _ _ => trivial)

theorem tri_addTermFinish {t : Nat} (ht : t < s.next) : Tri C (addTermFinish t) (fun _ _ => True) s := by
  unfold addTermFinish
  refine tri_get ?_
  dsimp only
  have fin : ∀ s1, t < s1.next → Tri C (match (s.heap t).sec with
      | none => M.raise .attributeError
      | some x =>
        if (s.heap t).tvn = [] ∨ (s.heap t).tvn = (s.heap x).defTvn then
          setTvn t (declProp s.declTerms (s.heap t).join (py!"termvaluename") (s.heap x).defTvn)
        else pure ()) (fun _ _ => True) s1 := by
    intro s1 h
    split
    · exact tri_raise
    · exact tri_ite (fun _ => tri_mono (tri_setTvn h) fun _ _ _ _ => trivial) fun _ => tri_pure trivial
  refine tri_ite (fun _ => ?_) fun _ => fin s ht
  exact tri_upd (step_attrs ht ⟨rfl, rfl, rfl, rfl, rfl, rfl, rfl⟩) (fin _ ht)

theorem tri_docAddTermCore {t : Nat} (ht : t < s.next) : Tri C (docAddTermCore t) (fun _ _ => True) s := by
  unfold docAddTermCore
  refine tri_get (tri_ite (fun _ => tri_pure trivial) fun hm => tri_assert fun hl => ?_)
  refine tri_ite (fun _ => ?_) fun hs => ?_
  · exact tri_bind (tri_addSection ht) fun _ s1 st _ => tri_addTermFinish (st.lt ht)
  · exact tri_modify (.docAdd t ht (by simpa using hs) hm (by simpa [Sited] using hl)) (tri_addTermFinish ht)

theorem tri_sectionAddTerm {x t : Nat} (hx : x < s.next) (ht : t < s.next) (hC : C.Good s.next) :
    Tri C (sectionAddTerm x t) (fun _ _ => True) s := by
  unfold sectionAddTerm
  refine tri_get ?_
  dsimp only
  refine tri_ite (fun h => tri_ite (fun _ => ?_) fun _ => ?_) fun _ => tri_obj (tri_assert' fun _ => trivial)
  · refine tri_upd (.list x t hx ht h) ?_
    refine tri_bind (tri_docAddTermCore ht) fun _ s1 st1 _ => ?_
    refine tri_bind (tri_setOwnership (st1.lt ht) (hC.mono st1.ext.next)) fun _ s2 _ _ => ?_
    exact tri_obj (tri_assert' fun _ => trivial)
  · exact tri_bind (Q := fun _ _ => False) tri_raise fun _ _ _ h => h.elim

theorem tri_docAddTerm {t : Nat} (ht : t < s.next) (hC : C.Good s.next) : Tri C (docAddTerm t) (fun _ _ => True) s := by
  unfold docAddTerm
  refine tri_wf fun w => tri_get (tri_ite (fun _ => tri_pure trivial) fun hm => tri_assert fun hl => ?_)
  dsimp only
  have fin : ∀ s1, Steps C s s1 → Tri C (match (s.heap t).sec with
      | some x => if lower (s.heap t).pt = ROOT then do
          let y ← addSection x
          setSectionTerm t y
          let o ← obj t
          match o.sec with
            | some z => do
              sectionAddTerm z t
              addTermFinish t
            | none => do
              M.raise .attributeError
              addTermFinish t
        else addTermFinish t
      | none => addTermFinish t) (fun _ _ => True) s1 := by
    intro s1 st1
    split
    · next x hx =>
      refine tri_ite (fun _ => ?_) fun _ => tri_addTermFinish (st1.lt ht)
      have hxs := st1.isSec (w.secLt t x hx)
      refine tri_bind (tri_addSection hxs.1) fun y s2 st2 h2 => ?_
      have t2 := st2.lt (st1.lt ht)
      refine tri_bind (tri_setSectionTerm t2 h2.1 (hC.up (st1.trans st2))) fun _ s3 st3 _ => ?_
      refine tri_wf fun w3 => tri_obj ?_
      split
      · next z hz =>
        refine tri_bind (tri_sectionAddTerm (w3.secLt t z hz).1 (st3.lt t2) (hC.up ((st1.trans st2).trans st3))) fun _ s4 st4 _ => ?_
        exact tri_addTermFinish (st4.lt (st3.lt t2))
      · exact tri_bind (Q := fun _ _ => False) tri_raise fun _ _ _ h => h.elim
    · exact tri_addTermFinish (st1.lt ht)
  refine tri_ite (fun _ => ?_) fun hs => ?_
  · exact tri_bind (tri_addSection ht) fun _ s1 st _ => fin s1 st
  · have hst : Step C s { s with terms := s.terms ++ [t] } := .docAdd t ht (by simpa using hs) hm (by simpa [Sited] using hl)
    exact tri_modify hst (fin _ (.single hst))

theorem tri_removeTermF (hC : C.Good s.next) : ∀ f t {s1 : St}, Steps C s s1 → t < s1.next → Tri C (removeTermF f t) (fun _ _ => True) s1
  | 0, _, _, _, _ => tri_raise
  | f + 1, t, s1, st1, ht => by
    unfold removeTermF
    refine tri_modify (.docDel t) ?_
    have st2 : Steps C s { s1 with terms := s1.terms.erase t } := st1.tail (.docDel t)
    refine tri_wf fun w => tri_obj ?_
    dsimp only
    have fin : ∀ s2, Steps C s s2 → t < s2.next → Tri C (do
        let o ← obj t
        match o.parent with
        | some q => do
          let po ← obj q
          if t ∈ po.children then do
            upd q fun oq => { oq with children := oq.children.erase t }
            removeTermF f t
          else pure ()
        | none => pure ()) (fun _ _ => True) s2 := by
      intro s2 st ht2
      refine tri_wf fun w2 => tri_obj ?_
      split
      · next q hq =>
        refine tri_obj (tri_ite (fun _ => ?_) fun _ => tri_pure trivial)
        have hd : Step C s2 _ := Step.detach q t (w2.parLt t q hq)
        exact tri_upd hd (tri_removeTermF hC f t (st.tail hd) ht2)
      · exact tri_pure trivial
    split
    · next x hx =>
      refine tri_ite (fun _ => ?_) fun _ => fin _ st2 ht
      have hxs := w.secLt t x hx
      refine tri_bind (tri_addSection hxs.1) fun y s3 st3 h3 => ?_
      have t3 := st3.lt ht
      refine tri_bind (tri_setSectionTerm t3 h3.1 (hC.up (st2.trans st3))) fun _ s4 st4 _ => ?_
      refine tri_wf fun w4 => tri_obj ?_
      split
      · next z hz =>
        have hu : Step C s4 _ := Step.unlist z t (w4.secLt t z hz).1
        exact tri_upd hu (fin _ (((st2.trans st3).trans st4).tail hu) (st4.lt t3))
      · exact tri_bind (Q := fun _ _ => False) tri_raise fun _ _ _ h => h.elim
    · exact fin _ st2 ht

theorem tri_removeTerm {t : Nat} (ht : t < s.next) (hC : C.Good s.next) : Tri C (removeTerm t) (fun _ _ => True) s := by
  unfold removeTerm
  exact tri_get (tri_ite (fun _ => tri_raise) fun _ => tri_removeTermF hC _ t .refl ht)

theorem tri_removeChild {t c : Nat} (ht : t < s.next) (hC : C.Good s.next) : Tri C (removeChild t c) (fun _ _ => True) s := by
  unfold removeChild
  refine tri_wf fun w => tri_obj (tri_ite (fun h => ?_) fun _ => tri_raise)
  have hd : Step C s _ := Step.detach t c ht
  exact tri_upd hd (tri_removeTerm (w.kidLt t c h) hC)

theorem tri_setItem {t : Nat} {item : Str} {value : Val} (ht : t < s.next) (hC : C.Good s.next) :
    Tri C (setItem t item value) (fun _ _ => True) s := by
  unfold setItem
  refine tri_obj (tri_ite (fun _ => ?_) fun _ => tri_setItemSome ht hC)
  refine tri_lift fun a _ => ?_
  split
  · exact tri_removeChild ht hC
  · exact tri_pure trivial

theorem tri_newTerm {x : Nat} {term : Str} {value : Val} {kw : List (Str × Val)} (hx : x < s.next ∧ (s.heap x).cls.isSection = true)
    (hC : C.Good s.next) : Tri C (newTerm x term value kw) (fun t s' => t < s'.next) s := by
  unfold newTerm
  refine tri_get ?_
  refine tri_bind (tri_construct (fun q h => by cases h) (fun y h => by cases h; exact hx)) fun c s1 st1 ⟨cl, f, hcl⟩ => ?_
  refine tri_bind (tri_newChildren f.lt (hC.up st1)) fun _ s2 st2 _ => ?_
  refine tri_bind (tri_docAddTerm (st2.lt f.lt) (hC.up (st1.trans st2))) fun _ s3 st3 _ => ?_
  exact tri_pure (st3.lt (st2.lt f.lt))

end Metatab
