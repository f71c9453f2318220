import Verif.Lemmas.StepsParse
import Verif.Lemmas.Rows
import Verif.Lemmas.Tree
import Verif.Spec.Additive
/-! Reading rows only adds to the document.

`n` is the number of objects before, `S` tells which of them are sections, and if `N` holds then no older object is renamed. -/
namespace Metatab
open Py _root_.Spec

theorem _root_.Spec.KeptSection.refl (o : Obj) : KeptSection o o := ⟨rfl, fun _ => rfl, List.prefix_refl _, List.prefix_refl _⟩
theorem _root_.Spec.KeptSection.tvn {a b : Obj} (h : KeptSection a b) : b.tvn = a.tvn :=
  (congrArg (fun x : Obj => x.tvn) h.same :)
theorem _root_.Spec.KeptSection.cls {a b : Obj} (h : KeptSection a b) : b.cls = a.cls :=
  (congrArg (fun x : Obj => x.cls) h.same :)
theorem _root_.Spec.KeptSection.trans {a b c : Obj} (h : KeptSection a b) (k : KeptSection b c) : KeptSection a c :=
  ⟨(congrArg (fun x : Obj => { x with pt := a.pt, rt := a.rt, value := a.value, sec := a.sec, headerArgs := a.headerArgs,
                                      defTvn := a.defTvn, children := a.children, terms := a.terms }) k.same).trans h.same,
    fun hv => (k.value (by rw [h.tvn]; exact hv)).trans (h.value hv), h.children.trans k.children, h.terms.trans k.terms⟩

variable {n : Nat} {S : Nat → Prop} {N : Prop} {α β : Type} {s : St}

/-- New, or a section. -/
def NewOr (n : Nat) (S : Nat → Prop) (i : Nat) : Prop := n ≤ i ∨ S i

/-- A change of the object `j` that only adds. -/
structure Fine (n : Nat) (S : Nat → Prop) (N : Prop) (j : Nat) (o o' : Obj) : Prop where
  kids : n ≤ j → (∀ c ∈ o.children, n ≤ c) → ∀ c ∈ o'.children, n ≤ c
  sec : n ≤ j → (∀ x, o.sec = some x → NewOr n S x) → ∀ x, o'.sec = some x → NewOr n S x
  term : j < n → ¬ S j → o' = o
  sect : j < n → S j → KeptSection o o'
  names : N → j < n → o'.pt = o.pt ∧ o'.rt = o.rt

/-- Only additions so far. -/
structure Adds (n : Nat) (S : Nat → Prop) (N : Prop) (s s' : St) : Prop where
  root : s'.root = s.root
  next : s.next ≤ s'.next
  terms : s.terms <+: s'.terms
  sections : s.sections <+: s'.sections
  term : ∀ j, j < n → ¬ S j → s'.heap j = s.heap j
  sect : ∀ j, j < n → S j → KeptSection (s.heap j) (s'.heap j)
  names : N → ∀ j, j < n → (s'.heap j).pt = (s.heap j).pt ∧ (s'.heap j).rt = (s.heap j).rt

theorem Adds.refl (s : St) : Adds n S N s s :=
  ⟨rfl, Nat.le_refl _, List.prefix_refl _, List.prefix_refl _, fun _ _ _ => rfl, fun _ _ _ => .refl _, fun _ _ _ => ⟨rfl, rfl⟩⟩

theorem Adds.trans {a b c : St} (h : Adds n S N a b) (k : Adds n S N b c) : Adds n S N a c :=
  ⟨k.root.trans h.root, Nat.le_trans h.next k.next, h.terms.trans k.terms, h.sections.trans k.sections,
    fun j hj hs => (k.term j hj hs).trans (h.term j hj hs), fun j hj hs => (h.sect j hj hs).trans (k.sect j hj hs),
    fun hn j hj => ⟨(k.names hn j hj).1.trans (h.names hn j hj).1, (k.names hn j hj).2.trans (h.names hn j hj).2⟩⟩

/-- What holds while rows are read. -/
structure Growing (n : Nat) (S : Nat → Prop) (s : St) : Prop where
  le : n ≤ s.next
  kids : ∀ j, n ≤ j → ∀ c ∈ (s.heap j).children, n ≤ c
  sec : ∀ j, n ≤ j → ∀ x, (s.heap j).sec = some x → NewOr n S x
  cur : NewOr n S s.p.lastSec
  map : ∀ kv ∈ s.p.lastMap, NewOr n S kv.2
  root : NewOr n S s.root
  secs : ∀ kv ∈ s.sections, NewOr n S kv.2
  cls : ∀ j, j < n → (S j ↔ (s.heap j).cls.isSection = true)

/-- The computation only adds, and if it returns then `Q`. -/
def Tr (n : Nat) (S : Nat → Prop) (N : Prop) (m : M α) (Q : α → St → Prop) (s : St) : Prop :=
  Growing n S s → Adds n S N s (m s).st ∧ Growing n S (m s).st ∧ ∀ a s', m s = .ok a s' → Q a s'

theorem tr_bind {m : M α} {f : α → M β} {Q : α → St → Prop} {Q' : β → St → Prop} (h : Tr n S N m Q s)
    (k : ∀ a s', Q a s' → Tr n S N (f a) Q' s') : Tr n S N (m >>= f) Q' s := by
  intro w
  obtain ⟨h1, h2, h3⟩ := h w
  rw [bind_run]
  cases hm : m s with
  | err e s' => rw [hm] at h1 h2; exact ⟨h1, h2, fun a s' e => by cases e⟩
  | ok a s' =>
    rw [hm] at h1 h2
    obtain ⟨k1, k2, k3⟩ := k a s' (h3 a s' hm) h2
    exact ⟨h1.trans k1, k2, k3⟩

theorem tr_mono {m : M α} {Q Q' : α → St → Prop} (h : Tr n S N m Q s) (hq : ∀ a s', Q a s' → Q' a s') : Tr n S N m Q' s :=
  fun w => ⟨(h w).1, (h w).2.1, fun a s' e => hq a s' ((h w).2.2 a s' e)⟩

theorem tr_true {m : M α} {Q : α → St → Prop} (h : Tr n S N m Q s) : Tr n S N m (fun _ _ => True) s := tr_mono h fun _ _ _ => trivial

theorem tr_pure {a : α} {Q : α → St → Prop} (h : Q a s) : Tr n S N (pure a) Q s :=
  fun w => ⟨.refl _, w, fun _ _ e => by cases e; exact h⟩
theorem tr_raise {e : Err} {Q : α → St → Prop} : Tr n S N (M.raise e) Q s := fun w => ⟨.refl _, w, fun _ _ e => by cases e⟩
/-- The invariant may be used. -/
theorem tr_inv {m : M α} {Q : α → St → Prop} (h : Growing n S s → Tr n S N m Q s) : Tr n S N m Q s := fun w => h w w
theorem tr_get : Tr n S N M.get (fun a s' => a = s ∧ s' = s) s := fun w => ⟨.refl _, w, fun _ _ e => by cases e; exact ⟨rfl, rfl⟩⟩
theorem tr_obj {i : Nat} : Tr n S N (obj i) (fun a s' => a = s.heap i ∧ s' = s) s :=
  fun w => ⟨.refl _, w, fun _ _ e => by cases e; exact ⟨rfl, rfl⟩⟩
theorem tr_lift {f : St → Except Err α} : Tr n S N (M.lift f) (fun a s' => f s = .ok a ∧ s' = s) s := by
  intro w
  rw [lift_run]
  cases f s with
  | ok a => exact ⟨.refl _, w, fun _ _ e => by cases e; exact ⟨rfl, rfl⟩⟩
  | error e => exact ⟨.refl _, w, fun _ _ e => by cases e⟩
theorem tr_assert {b : Bool} : Tr n S N (M.assert b) (fun _ s' => b = true ∧ s' = s) s := by
  intro w
  rw [assert_run]
  cases b with
  | true => exact ⟨.refl _, w, fun _ _ e => by cases e; exact ⟨rfl, rfl⟩⟩
  | false => exact ⟨.refl _, w, fun _ _ e => by cases e⟩
theorem tr_ite {c : Prop} [Decidable c] {m k : M α} {Q : α → St → Prop} (h : c → Tr n S N m Q s) (h' : ¬ c → Tr n S N k Q s) :
    Tr n S N (if c then m else k) Q s := by
  by_cases hc : c
  · rw [if_pos hc]; exact h hc
  · rw [if_neg hc]; exact h' hc

theorem tr_upd {i : Nat} {f : Obj → Obj} (h : Fine n S N i (s.heap i) (f (s.heap i))) :
    Tr n S N (upd i f) (fun _ s' => s' = s.setObj i (f (s.heap i))) s := by
  intro w
  refine ⟨⟨rfl, Nat.le_refl _, List.prefix_refl _, List.prefix_refl _, ?_, ?_, ?_⟩, ⟨w.le, ?_, ?_, w.cur, w.map, w.root, w.secs, ?_⟩, fun _ _ e => by cases e; rfl⟩
  · intro j hj hs
    show (s.setObj i _).heap j = _
    rw [heap_setObj]
    split
    · next e => subst e; exact h.term hj hs
    · rfl
  · intro j hj hs
    show KeptSection _ ((s.setObj i _).heap j)
    rw [heap_setObj]
    split
    · next e => subst e; exact h.sect hj hs
    · exact .refl _
  · intro hn j hj
    show ((s.setObj i _).heap j).pt = _ ∧ ((s.setObj i _).heap j).rt = _
    rw [heap_setObj]
    split
    · next e => subst e; exact h.names hn hj
    · exact ⟨rfl, rfl⟩
  · intro j hj
    show ∀ c ∈ ((s.setObj i _).heap j).children, _
    rw [heap_setObj]
    split
    · next e => subst e; exact h.kids hj (w.kids _ hj)
    · exact w.kids j hj
  · intro j hj
    show ∀ x, ((s.setObj i _).heap j).sec = some x → _
    rw [heap_setObj]
    split
    · next e => subst e; exact h.sec hj (w.sec _ hj)
    · exact w.sec j hj
  · intro j hj
    show S j ↔ ((s.setObj i _).heap j).cls.isSection = true
    rw [heap_setObj]
    split
    · next e =>
      subst e
      rw [w.cls j hj]
      by_cases hs : S j
      · rw [(h.sect hj hs).cls]
      · rw [h.term hj hs]
    · exact w.cls j hj

/-- A change of a new object that keeps its children. -/
theorem fine_new' {i : Nat} {o o' : Obj} (hi : n ≤ i) (hc : o'.children = o.children) (hs : ∀ x, o'.sec = some x → NewOr n S x) : Fine n S N i o o' :=
  ⟨fun _ h => by rw [hc]; exact h, fun _ _ => hs, fun h => absurd hi (Nat.not_le.2 h), fun h => absurd hi (Nat.not_le.2 h),
    fun _ h => absurd hi (Nat.not_le.2 h)⟩

/-- A change of a new object that keeps its children and its section. -/
theorem fine_new {i : Nat} {o o' : Obj} (hi : n ≤ i) (hc : o'.children = o.children) (hs : o'.sec = o.sec) : Fine n S N i o o' :=
  ⟨fun _ h => by rw [hc]; exact h, fun _ h => by rw [hs]; exact h, fun h => absurd hi (Nat.not_le.2 h), fun h => absurd hi (Nat.not_le.2 h),
    fun _ h => absurd hi (Nat.not_le.2 h)⟩

theorem not_old {i : Nat} {P : Prop} (hi : NewOr n S i) (h : i < n) (hs : ¬ S i) : P := by
  rcases hi with hi | hi
  · exact absurd hi (Nat.not_le.2 h)
  · exact absurd hi hs

/-- A new child. -/
theorem fine_child {i c : Nat} {o : Obj} (hi : NewOr n S i) (hc : n ≤ c) : Fine n S N i o { o with children := o.children ++ [c] } := by
  refine ⟨fun _ h c' hc' => ?_, fun _ h => h, not_old hi, fun _ _ => ⟨rfl, fun _ => rfl, List.prefix_append _ _, List.prefix_refl _⟩,
    fun _ _ => ⟨rfl, rfl⟩⟩
  rcases List.mem_append.1 hc' with h' | h'
  · exact h c' h'
  · rw [List.mem_singleton.1 h']; exact hc

/-- A new term of a section. -/
theorem fine_terms {i t : Nat} {o : Obj} (hi : NewOr n S i) : Fine n S N i o { o with terms := o.terms ++ [t] } :=
  ⟨fun _ h => h, fun _ h => h, not_old hi, fun _ _ => ⟨rfl, fun _ => rfl, List.prefix_refl _, List.prefix_append _ _⟩, fun _ _ => ⟨rfl, rfl⟩⟩

theorem fine_refl {i : Nat} {o : Obj} : Fine n S N i o o :=
  ⟨fun _ h => h, fun _ h => h, fun _ _ => rfl, fun _ _ => .refl _, fun _ _ => ⟨rfl, rfl⟩⟩

theorem tr_alloc {o : Obj} (h : o.children = []) (hs : ∀ x, o.sec = some x → NewOr n S x) :
    Tr n S N (alloc o) (fun a s' => n ≤ a ∧ a = s.next ∧ s' = { s with next := s.next + 1 }.setObj s.next o) s := by
  intro w
  have hh : ∀ j, j < n → ({ s with next := s.next + 1 }.setObj s.next o).heap j = s.heap j := by
    intro j hj
    rw [heap_setObj, if_neg (Nat.ne_of_lt (Nat.lt_of_lt_of_le hj w.le))]
  refine ⟨⟨rfl, Nat.le_succ _, List.prefix_refl _, List.prefix_refl _, ?_, ?_, ?_⟩, ⟨Nat.le_succ_of_le w.le, ?_, ?_, w.cur, w.map, w.root, w.secs, ?_⟩, ?_⟩
  · intro j hj _; exact hh j hj
  · intro j hj _; show KeptSection _ (({ s with next := s.next + 1 }.setObj s.next o).heap j); rw [hh j hj]; exact .refl _
  · intro _ j hj
    show (({ s with next := s.next + 1 }.setObj s.next o).heap j).pt = _ ∧ (({ s with next := s.next + 1 }.setObj s.next o).heap j).rt = _
    rw [hh j hj]; exact ⟨rfl, rfl⟩
  · intro j hj
    show ∀ c ∈ (({ s with next := s.next + 1 }.setObj s.next o).heap j).children, _
    rw [heap_setObj]
    split
    · rw [h]; intro c hc; cases hc
    · exact w.kids j hj
  · intro j hj
    show ∀ x, (({ s with next := s.next + 1 }.setObj s.next o).heap j).sec = some x → _
    rw [heap_setObj]
    split
    · exact hs
    · exact w.sec j hj
  · intro j hj
    show S j ↔ (({ s with next := s.next + 1 }.setObj s.next o).heap j).cls.isSection = true
    rw [hh j hj]; exact w.cls j hj
  · intro a s' e; cases e; exact ⟨w.le, rfl, rfl⟩

/-- Changes outside the heap. -/
theorem tr_modify {f : St → St} (h1 : (f s).heap = s.heap) (h2 : (f s).next = s.next) (h3 : (f s).root = s.root) (h4 : s.terms <+: (f s).terms)
    (h5 : s.sections <+: (f s).sections) (h6 : Growing n S s → NewOr n S (f s).p.lastSec)
    (h8 : Growing n S s → ∀ kv ∈ (f s).p.lastMap, NewOr n S kv.2) (h7 : Growing n S s → ∀ kv ∈ (f s).sections, NewOr n S kv.2) :
    Tr n S N (M.modify f) (fun _ s' => s' = f s) s := by
  intro w
  refine ⟨⟨h3, Nat.le_of_eq h2.symm, h4, h5, ?_, ?_, ?_⟩, ⟨?_, ?_, ?_, h6 w, h8 w, ?_, h7 w, ?_⟩, fun _ _ e => by cases e; rfl⟩
  · intro j _ _; show (f s).heap j = _; rw [h1]
  · intro j _ _; show KeptSection _ ((f s).heap j); rw [h1]; exact .refl _
  · intro _ j _; show ((f s).heap j).pt = _ ∧ ((f s).heap j).rt = _; rw [h1]; exact ⟨rfl, rfl⟩
  · show n ≤ (f s).next; rw [h2]; exact w.le
  · show ∀ j, n ≤ j → ∀ c ∈ ((f s).heap j).children, _; rw [h1]; exact w.kids
  · show ∀ j, n ≤ j → ∀ x, ((f s).heap j).sec = some x → _; rw [h1]; exact w.sec
  · show NewOr n S (f s).root; rw [h3]; exact w.root
  · show ∀ j, j < n → (S j ↔ ((f s).heap j).cls.isSection = true); rw [h1]; exact w.cls

theorem tr_updP {f : PSt → PSt} (h : Growing n S s → NewOr n S (f s.p).lastSec) (h' : Growing n S s → ∀ kv ∈ (f s.p).lastMap, NewOr n S kv.2) :
    Tr n S N (updP f) (fun _ s' => s' = { s with p := f s.p }) s :=
  tr_modify (f := fun s => { s with p := f s.p }) rfl rfl rfl (List.prefix_refl _) (List.prefix_refl _) h h' fun w => w.secs

theorem tr_forL {f : α → M Unit} {l : List α} (h : ∀ a ∈ l, ∀ s, Tr n S N (f a) (fun _ _ => True) s) :
    ∀ s, Tr n S N (forL f l) (fun _ _ => True) s := by
  induction l with
  | nil => exact fun s => tr_pure trivial
  | cons a l ih =>
    intro s
    exact tr_bind (h a List.mem_cons_self s) fun _ s' _ => ih (fun a ha => h a (List.mem_cons_of_mem _ ha)) s'

/-! ## Terms -/

theorem tr_setTvn {t : Nat} {v : Str} (ht : n ≤ t) : Tr n S N (setTvn t v) (fun _ s' => ∀ j, (s'.heap j).cls = (s.heap j).cls) s := by
  unfold setTvn
  refine tr_ite (fun _ => tr_raise) fun _ => tr_mono (tr_upd (fine_new ht rfl rfl)) ?_
  rintro _ _ rfl j
  rw [heap_setObj]; split
  · next e => rw [e]
  · rfl

theorem tr_newTermObj {c : Cls} {term : Str} {v : Val} {args : List Str} {parent sec : Option Nat} {col : Nat} {d : Bool}
    (hs : ∀ x, sec = some x → NewOr n S x) : Tr n S N (newTermObj c term v args parent sec col d) (fun t _ => n ≤ t) s := by
  unfold newTermObj
  refine tr_bind tr_lift fun pr s' _ => ?_
  obtain ⟨p0, r⟩ := pr
  dsimp only
  split
  · exact tr_mono (tr_alloc rfl hs) fun _ _ h => h.1
  · refine tr_bind tr_obj fun po s' _ => tr_bind tr_assert fun _ s' _ => tr_mono (tr_alloc rfl hs) fun _ _ h => h.1

theorem tr_newSectionObj {term : Str} {v : Val} {args : List Str} {d : Bool} : Tr n S N (newSectionObj term v args d) (fun t _ => n ≤ t) s := by
  unfold newSectionObj
  refine tr_ite (fun _ => ?_) fun _ => ?_
  · rw [pure_bind]
    exact tr_bind (tr_newTermObj fun _ h => by cases h) fun i _ hi => tr_bind tr_obj fun o _ _ => tr_bind tr_assert fun _ _ _ => tr_pure hi
  · refine tr_bind tr_lift fun _ _ _ => ?_
    exact tr_bind (tr_newTermObj fun _ h => by cases h) fun i _ hi => tr_bind tr_obj fun o _ _ => tr_bind tr_assert fun _ _ _ => tr_pure hi

theorem tr_construct {c : Cls} {term : Str} {v : Val} {parent sec : Option Nat} (hs : ∀ x, sec = some x → NewOr n S x) :
    Tr n S N (construct c term v parent sec) (fun t _ => n ≤ t) s := by
  unfold construct
  split
  · exact tr_newTermObj hs
  · exact tr_newTermObj hs
  · exact tr_ite (fun _ => tr_bind tr_lift fun _ _ _ => tr_raise) fun _ => tr_newSectionObj
  · exact tr_raise

theorem tr_getOrNewChild0 {t : Nat} {term : Str} {v : Val} (ht : n ≤ t) : Tr n S N (getOrNewChild0 t term v) (fun _ _ => True) s := by
  unfold getOrNewChild0
  refine tr_inv fun w => tr_bind tr_get fun _ s0 h => ?_
  obtain ⟨rfl, rfl⟩ := h
  refine tr_ite (fun _ => tr_raise) fun _ => tr_bind tr_lift fun pr s' h => ?_
  obtain ⟨-, rfl⟩ := h
  obtain ⟨-, rt⟩ := pr
  dsimp only
  cases hc : childNamed s' t rt .fls with
  | none =>
    dsimp only
    simp only [bind_assoc, pure_bind]
    exact tr_bind (tr_construct (w.sec t ht)) fun c _ hc => tr_bind tr_obj fun _ _ _ => tr_bind tr_assert fun _ _ _ => tr_bind (tr_upd (fine_child (.inl ht) hc)) fun _ _ _ =>
      tr_bind tr_get fun _ _ _ => tr_bind tr_assert fun _ _ _ => tr_pure trivial
  | some c =>
    dsimp only
    have hn := w.kids t ht c (childNamed_mem hc)
    refine tr_ite (fun _ => ?_) fun _ => ?_
    · simp only [bind_assoc, pure_bind]
      exact tr_bind (tr_upd (fine_new hn rfl rfl)) fun _ _ _ => tr_bind tr_get fun _ _ _ => tr_bind tr_assert fun _ _ _ => tr_pure trivial
    · simp only [pure_bind]
      exact tr_bind tr_get fun _ _ _ => tr_bind tr_assert fun _ _ _ => tr_pure trivial

theorem tr_setItemSome {t : Nat} {item : Str} {v : Val} (ht : n ≤ t) : Tr n S N (setItemSome t item v) (fun _ _ => True) s := by
  unfold setItemSome
  refine tr_bind tr_obj fun o s' _ => tr_ite (fun _ => tr_true (tr_upd (fine_new ht rfl rfl))) fun _ => ?_
  exact tr_bind (tr_getOrNewChild0 ht) fun _ _ _ => tr_bind tr_lift fun _ _ _ => tr_bind tr_obj fun _ _ _ => tr_true tr_assert

theorem tr_setSectionTerm {t v : Nat} (ht : n ≤ t) (hv : NewOr n S v) : Tr n S N (setSectionTerm t v) (fun _ _ => True) s := by
  unfold setSectionTerm
  refine tr_bind tr_get fun _ s0 h => ?_
  obtain ⟨rfl, rfl⟩ := h
  exact tr_ite (fun _ => tr_true (tr_upd (fine_new ht rfl rfl))) fun _ => tr_ite (fun _ => tr_setItemSome ht) fun _ =>
    tr_true (tr_upd (fine_new' ht rfl fun x h => by cases h; exact hv))

theorem tr_addSection {x : Nat} : Tr n S N (addSection x) (fun y _ => NewOr n S y) s := by
  unfold addSection
  refine tr_inv fun w => tr_bind tr_obj fun o s' h => ?_
  obtain ⟨rfl, rfl⟩ := h
  refine tr_bind tr_assert fun _ s' h => ?_
  obtain ⟨hs, rfl⟩ := h
  have hx : NewOr n S x := by
    by_cases hx : n ≤ x
    · exact .inl hx
    · exact .inr ((w.cls x (Nat.lt_of_not_le hx)).2 hs)
  split
  · next v hv =>
    refine tr_bind tr_get fun _ s0 h => ?_
    obtain ⟨rfl, rfl⟩ := h
    cases hg : Dict.get? s0.sections (lower v) with
    | some y => exact tr_pure (w.secs _ (Dict.mem_of_get? hg))
    | none =>
      dsimp only
      have happ : s0.sections.set (lower v) x = s0.sections ++ [(lower v, x)] := Dict.set_append (Dict.get?_eq_none.1 hg) x
      refine tr_bind (tr_modify rfl rfl rfl (List.prefix_refl _) ?_ (fun w => w.cur) (fun w => w.map) fun w => ?_) fun _ _ _ => tr_pure hx
      · show s0.sections <+: s0.sections.set (lower v) x
        rw [happ]; exact List.prefix_append _ _
      · show ∀ kv ∈ s0.sections.set (lower v) x, _
        rw [happ]
        intro kv hkv
        rcases List.mem_append.1 hkv with h | h
        · exact w.secs kv h
        · rw [List.mem_singleton.1 h]; exact hx
  · exact tr_raise

theorem tr_setOwnershipF : ∀ {f t : Nat} {s : St}, n ≤ t → Tr n S N (setOwnershipF f t) (fun _ _ => True) s
  | 0, _, _, _ => tr_raise
  | f + 1, t, s, ht => by
    unfold setOwnershipF
    refine tr_inv fun w => tr_bind tr_obj fun o s' h => ?_
    obtain ⟨rfl, rfl⟩ := h
    refine tr_bind tr_assert fun _ s' h => tr_forL (fun c hc s'' => ?_) s'
    have hn := w.kids t ht c hc
    exact tr_bind (tr_upd (fine_new' hn rfl (w.sec t ht))) fun _ _ _ => tr_setOwnershipF hn

theorem tr_setOwnership {t : Nat} (ht : n ≤ t) : Tr n S N (setOwnership t) (fun _ _ => True) s := by
  unfold setOwnership
  exact tr_bind tr_get fun _ _ _ => tr_setOwnershipF ht

theorem tr_addTermFinish {t : Nat} (ht : n ≤ t) : Tr n S N (addTermFinish t) (fun _ _ => True) s := by
  unfold addTermFinish
  refine tr_bind tr_get fun _ s0 h => ?_
  obtain ⟨rfl, rfl⟩ := h
  have key : ∀ s', Tr n S N (match (s0.heap t).sec with
      | none => M.raise .attributeError
      | some x =>
        let dflt := (s0.heap x).defTvn
        if (s0.heap t).tvn = [] ∨ (s0.heap t).tvn = dflt then setTvn t (declProp s0.declTerms (s0.heap t).join (py!"termvaluename") dflt)
        else pure ()) (fun _ _ => True) s' := by
    intro s'
    split
    · exact tr_raise
    · exact tr_ite (fun _ => tr_true (tr_setTvn ht)) fun _ => tr_pure trivial
  exact tr_ite (fun _ => tr_bind (tr_upd (fine_new ht rfl rfl)) fun _ s' _ => key s') fun _ => key _

theorem tr_listTerm {t : Nat} : Tr n S N (M.modify fun s => { s with terms := s.terms ++ [t] }) (fun _ _ => True) s :=
  tr_true (tr_modify rfl rfl rfl (List.prefix_append _ _) (List.prefix_refl _) (fun w => w.cur) (fun w => w.map) fun w => w.secs)

theorem tr_docAddTermCore {t : Nat} (ht : n ≤ t) : Tr n S N (docAddTermCore t) (fun _ _ => True) s := by
  unfold docAddTermCore
  refine tr_bind tr_get fun _ s0 h => ?_
  obtain ⟨rfl, rfl⟩ := h
  refine tr_ite (fun _ => tr_pure trivial) fun _ => tr_bind tr_assert fun _ _ _ => tr_ite (fun _ => ?_) fun _ => ?_
  · simp only [bind_assoc, pure_bind]
    exact tr_bind tr_addSection fun _ _ _ => tr_addTermFinish ht
  · exact tr_bind tr_listTerm fun _ _ _ => tr_addTermFinish ht

theorem tr_sectionAddTerm {x t : Nat} (hx : NewOr n S x) (ht : n ≤ t) : Tr n S N (sectionAddTerm x t) (fun _ _ => True) s := by
  unfold sectionAddTerm
  refine tr_bind tr_get fun _ s0 h => ?_
  obtain ⟨rfl, rfl⟩ := h
  have last : ∀ s', Tr n S N (do
      let o ← obj t
      M.assert (o.sec.isSome ∨ o.joinLc = py!"root.root")) (fun _ _ => True) s' := fun s' => tr_bind tr_obj fun _ _ _ => tr_true tr_assert
  refine tr_ite (fun _ => tr_ite (fun _ => ?_) fun _ => tr_raise) fun _ => last _
  exact tr_bind (tr_upd (fine_terms hx)) fun _ _ _ => tr_bind (tr_docAddTermCore ht) fun _ _ _ => tr_bind (tr_setOwnership ht) fun _ s' _ => last s'

theorem tr_docAddTerm {t : Nat} (ht : n ≤ t) : Tr n S N (docAddTerm t) (fun _ _ => True) s := by
  unfold docAddTerm
  refine tr_bind tr_get fun _ s0 h => ?_
  obtain ⟨rfl, rfl⟩ := h
  have key : ∀ s', Tr n S N (do
      match (s0.heap t).sec with
      | some x =>
        if lower (s0.heap t).pt = ROOT then do
          let y ← addSection x
          setSectionTerm t y
          let o ← obj t
          match o.sec with
          | some z => sectionAddTerm z t
          | none => M.raise .attributeError
      | none => pure ()
      addTermFinish t) (fun _ _ => True) s' := by
    intro s'
    split
    · refine tr_ite (fun _ => ?_) fun _ => tr_addTermFinish ht
      refine tr_bind tr_addSection fun y _ hy => tr_bind (tr_setSectionTerm ht hy) fun _ _ _ => tr_inv fun w => tr_bind tr_obj fun o _ h => ?_
      obtain ⟨rfl, rfl⟩ := h
      split
      · next z hz => exact tr_bind (tr_sectionAddTerm (w.sec t ht z hz) ht) fun _ _ _ => tr_addTermFinish ht
      · exact tr_bind (Q := fun _ _ => True) tr_raise fun _ _ _ => tr_addTermFinish ht
    · exact tr_addTermFinish ht
  refine tr_ite (fun _ => tr_pure trivial) fun _ => tr_bind tr_assert fun _ _ _ => tr_ite (fun _ => ?_) fun _ => ?_
  · simp only [bind_assoc, pure_bind]
    exact tr_bind tr_addSection fun _ s' _ => key s'
  · exact tr_bind tr_listTerm fun _ s' _ => key s'

theorem tr_newTerm {x : Nat} {term : Str} {v : Val} (hx : NewOr n S x) : Tr n S N (newTerm x term v) (fun _ _ => True) s := by
  unfold newTerm
  refine tr_bind tr_get fun _ _ _ => tr_bind (tr_construct fun y h => by cases h; exact hx) fun t _ ht => tr_bind (Q := fun _ _ => True) (tr_pure trivial) fun _ _ _ => ?_
  exact tr_bind (tr_docAddTerm ht) fun _ _ _ => tr_pure trivial

/-! ## Assigning the section -/

theorem findTest_value {term : Str} {v : Val} {sec : Option (List Str)} {t : Nat} (h : findTest s term v sec t = .ok true) (hv : v ≠ .fls) :
    Val.pyEq v (s.heap t).value = true := by
  unfold findTest at h
  by_cases h1 : (s.heap t).joinLc = py!"root.root"
  · rw [if_pos h1] at h; cases h
  rw [if_neg h1] at h
  by_cases h2 : (s.heap t).sec = none ∧ (s.heap t).joinLc ≠ py!"root.section"
  · rw [if_pos h2] at h; cases h
  rw [if_neg h2] at h
  cases h3 : termIs (s.heap t).pt (s.heap t).rt term with
  | error e => rw [h3] at h; cases h
  | ok b =>
    rw [h3] at h
    cases b with
    | false => cases h
    | true =>
      cases h4 : inSection s t sec with
      | error e => rw [h4] at h; cases h
      | ok b =>
        rw [h4] at h
        cases b with
        | false => cases h
        | true =>
          have : (v == .fls || Val.pyEq v (s.heap t).value) = true := by injection h
          rw [Bool.or_eq_true] at this
          rcases this with h | h
          · exact absurd (eq_of_beq h) hv
          · exact h

theorem filterE_test {α : Type} {p : α → Except Err Bool} : ∀ {l r : List α}, filterE p l = .ok r → ∀ a ∈ r, p a = .ok true
  | [], r, h, a, ha => by cases h; cases ha
  | b :: l, r, h, a, ha => by
    rw [filterE] at h
    cases hb : p b with
    | error e => rw [hb] at h; cases h
    | ok x =>
      cases hl : filterE p l with
      | error e => rw [hb, hl] at h; cases h
      | ok r' =>
        rw [hb, hl] at h
        cases x with
        | false =>
          have : r' = r := by injection h
          subst this; exact filterE_test hl a ha
        | true =>
          have : b :: r' = r := by injection h
          subst this
          rcases List.mem_cons.1 ha with rfl | ha
          · exact hb
          · exact filterE_test hl a ha

theorem findOne_value {term : Str} {v : Val} {sec : Option (List Str)} {l : List Nat} (h : findOne s term v sec = .ok l) (hv : v ≠ .fls) {t : Nat}
    (ht : t ∈ l) : Val.pyEq v (s.heap t).value = true := by
  unfold findOne at h
  by_cases hs : startsWith (py!"root.") (if '.' ∉ lower term then py!"root." ++ lower term else lower term) = true
  · simp only [hs, if_true, bind, Except.bind] at h
    exact findTest_value (filterE_test h t ht) hv
  · simp only [hs, bind, Except.bind] at h
    cases ha : allTerms s with
    | error e => rw [ha] at h; cases h
    | ok g =>
      rw [ha] at h
      exact findTest_value (filterE_test h t ht) hv

theorem sectionFindFirst_value {x : Nat} {term : Str} {v : Val} {t : Nat} (h : sectionFindFirst s x term v = .ok (some t)) (hv : v ≠ .fls) :
    Val.pyEq v (s.heap t).value = true := by
  have key : ∀ {sec : Option (List Str)}, findFirst s term v sec = .ok (some t) → Val.pyEq v (s.heap t).value = true := by
    intro sec h
    unfold findFirst at h
    cases hf : find s term v sec with
    | error e => rw [hf] at h; cases h
    | ok l =>
      rw [hf] at h
      simp only [bind, Except.bind, pure, Except.pure, Except.ok.injEq] at h
      have ht := List.mem_of_head? h
      unfold find at hf
      split at hf
      · next ds _ =>
        unfold findList at hf
        cases hm : (s.env.setOrd ds ++ [term]).mapM fun e => findOne s e v sec with
        | error e => rw [hm] at hf; cases hf
        | ok ls =>
          rw [hm] at hf; cases hf
          obtain ⟨r, hr, htr⟩ := List.mem_flatten.1 ht
          obtain ⟨e, _, he⟩ := mapM_mem hm r hr
          exact findOne_value he hv htr
      · exact findOne_value hf hv ht
  unfold sectionFindFirst at h
  split at h
  · exact key h
  · exact key h
  · cases h

/-- A section searches for the value before it assigns it, so nothing changes in a term that is found. -/
theorem tr_getOrNewTerm {x : Nat} {term : Str} {v : Val} (hx : NewOr n S x) (hv : v = .none ∨ ∃ i, v = .obj i) :
    Tr n S N (getOrNewTerm x term v) (fun _ _ => True) s := by
  unfold getOrNewTerm
  refine tr_bind tr_lift fun r s' h => ?_
  obtain ⟨h, rfl⟩ := h
  cases r with
  | none => exact tr_newTerm hx
  | some t =>
    dsimp only
    refine tr_ite (fun hn => ?_) fun _ => tr_bind (tr_forL (fun a ha => by cases ha) _) fun _ _ _ => tr_pure trivial
    have e : (s'.heap t).value = v := by
      rcases hv with rfl | ⟨i, rfl⟩
      · exact absurd rfl hn
      · have := sectionFindFirst_value h (by simp)
        cases hw : (s'.heap t).value <;> rw [hw] at this <;> simp_all [Val.pyEq]
    refine tr_bind (tr_upd ?_) fun _ _ _ => tr_bind (tr_forL (fun a ha => by cases ha) _) fun _ _ _ => tr_pure trivial
    have : { s'.heap t with value := v } = s'.heap t := by rw [← e]
    show Fine n S N t (s'.heap t) { s'.heap t with value := v }
    rw [this]; exact fine_refl

/-- A change of a section that keeps its children and terms, its class and so on; names only where allowed. -/
theorem fine_sect {i : Nat} {o o' : Obj} (hi : NewOr n S i) (hc : o'.children = o.children)
    (hs : o'.sec = o.sec ∨ ∀ x, o'.sec = some x → NewOr n S x) (k : KeptSection o o') (hn : N → o'.pt = o.pt ∧ o'.rt = o.rt) :
    Fine n S N i o o' :=
  ⟨fun _ h => by rw [hc]; exact h, fun _ h => by rcases hs with hs | hs
                                                 · rw [hs]; exact h
                                                 · exact hs, not_old hi, fun _ _ => k, fun h _ => hn h⟩

theorem new_of_class {t : Nat} (w : Growing n S s) (ht : NewOr n S t) (hc : (s.heap t).cls.isSection = false) : n ≤ t := by
  by_cases h : n ≤ t
  · exact h
  · rcases ht with ht | ht
    · exact ht
    · rw [(w.cls t (Nat.lt_of_not_le h)).1 ht] at hc; cases hc

theorem tr_setSection {t : Nat} {v : Option Nat} (ht : NewOr n S t) (hm : ∀ x, v = some x → NewOr n S x)
    (hv : v = none → (s.heap t).cls.isSection = true) :
    Tr n S N (setSection t v) (fun _ _ => True) s := by
  unfold setSection
  refine tr_inv fun w => tr_bind tr_get fun _ s0 h => ?_
  obtain ⟨rfl, rfl⟩ := h
  refine tr_ite (fun h => ?_) fun _ => tr_ite (fun _ => ?_) fun _ => ?_
  · exact tr_true (tr_upd (fine_sect ht rfl (.inl rfl) ⟨rfl, fun hn => absurd h hn, List.prefix_refl _, List.prefix_refl _⟩ fun _ => ⟨rfl, rfl⟩))
  · unfold setItemAny
    refine tr_bind tr_obj fun o s' h => ?_
    obtain ⟨rfl, rfl⟩ := h
    refine tr_ite (fun _ => ?_) fun hc => ?_
    · refine tr_bind (tr_getOrNewTerm ht ?_) fun _ _ _ => tr_pure trivial
      cases v with
      | none => exact .inl rfl
      | some i => exact .inr ⟨i, rfl⟩
    · have hn := new_of_class w ht (by simpa using hc)
      cases v with
      | none => exact absurd (hv rfl) hc
      | some i =>
        unfold setItem
        refine tr_bind tr_obj fun o s'' h => ?_
        exact tr_ite (fun h => by simp at h) fun _ => tr_setItemSome hn
  · exact tr_true (tr_upd (fine_sect ht rfl (.inr hm) ⟨rfl, fun _ => rfl, List.prefix_refl _, List.prefix_refl _⟩ fun _ => ⟨rfl, rfl⟩))

/-- A computation that renames no older object. -/
theorem tr_names {m : M α} {Q : α → St → Prop} (h : Tr n S True m Q s) :
    Tr n S N m (fun a s' => Q a s' ∧ ∀ j, j < n → (s'.heap j).pt = (s.heap j).pt ∧ (s'.heap j).rt = (s.heap j).rt) s := by
  intro w
  obtain ⟨a, b, c⟩ := h w
  refine ⟨⟨a.root, a.next, a.terms, a.sections, a.term, a.sect, fun _ => a.names trivial⟩, b, fun x s' e => ⟨c x s' e, ?_⟩⟩
  have := a.names trivial
  rw [e] at this
  exact this

/-! ## The parser -/

theorem tr_applyDecl {t : Nat} (ht : n ≤ t) : Tr n S N (applyDecl t) (fun _ _ => True) s := by
  unfold applyDecl
  exact tr_bind tr_get fun _ _ _ => tr_bind (tr_upd (fine_new ht rfl rfl)) fun _ _ _ => tr_bind (tr_setTvn ht) fun _ _ _ =>
    tr_true (tr_upd (fine_new ht rfl rfl))

theorem tr_addChild {q t : Nat} (hq : NewOr n S q) (ht : n ≤ t) : Tr n S N (addChild q t) (fun _ _ => True) s := by
  unfold addChild
  exact tr_bind (tr_upd (fine_child hq ht)) fun _ _ _ => tr_bind (tr_upd (fine_new ht rfl rfl)) fun _ _ _ => tr_bind tr_obj fun _ _ _ =>
    tr_true tr_assert

theorem tr_attach {x : Str} {e : Err} {t : Nat} (ht : n ≤ t) : Tr n S N (attach x e t) (fun _ _ => True) s := by
  unfold attach
  refine tr_inv fun w => tr_bind tr_get fun _ s0 h => ?_
  obtain ⟨rfl, rfl⟩ := h
  split
  · next hg => exact tr_addChild (w.map _ (Dict.mem_of_get? hg)) ht
  · exact tr_raise

theorem mem_set_set {d : Dict Nat} {a b : Str} {t : Nat} {kv : Str × Nat} (h : kv ∈ (d.set a t).set b t) : kv ∈ d ∨ kv.2 = t := by
  have key : ∀ {d : Dict Nat} {a : Str} {kv : Str × Nat}, kv ∈ d.set a t → kv ∈ d ∨ kv.2 = t := by
    intro d
    induction d with
    | nil => intro a kv h; rw [List.mem_singleton.1 h]; exact .inr rfl
    | cons e d ih =>
      intro a kv h
      obtain ⟨k, v⟩ := e
      rw [Dict.set] at h
      split at h
      · rcases List.mem_cons.1 h with rfl | h
        · exact .inr rfl
        · exact .inl (List.mem_cons_of_mem _ h)
      · rcases List.mem_cons.1 h with rfl | h
        · exact .inl List.mem_cons_self
        · rcases ih h with h | h
          · exact .inl (List.mem_cons_of_mem _ h)
          · exact .inr h
  rcases key h with h | h
  · exact key h
  · exact .inr h

theorem tr_placeTerm {t : Nat} (ht : n ≤ t) : Tr n S N (placeTerm t) (fun _ _ => True) s := by
  unfold placeTerm
  refine tr_bind tr_get fun _ _ _ => tr_ite (fun _ => ?_) fun _ => tr_ite (fun _ => tr_attach ht) fun _ => ?_
  · exact tr_bind (tr_upd (fine_new ht rfl rfl)) fun _ _ _ => tr_attach ht
  · refine tr_bind (tr_updP (fun w => w.cur) fun w kv h => ?_) fun _ _ _ => tr_attach ht
    rcases mem_set_set h with h | h
    · exact w.map kv h
    · rw [h]; exact .inl ht

theorem tr_manageDeclare {t : Nat} : Tr n S N (manageDeclare t) (fun _ _ => True) s := by
  intro w
  obtain ⟨dt, ds, e⟩ := pres_manageDeclare t s
  rw [e]
  exact ⟨⟨rfl, Nat.le_refl _, List.prefix_refl _, List.prefix_refl _, fun _ _ _ => rfl, fun _ _ _ => .refl _, fun _ _ _ => ⟨rfl, rfl⟩⟩,
    ⟨w.le, w.kids, w.sec, w.cur, w.map, w.root, w.secs, w.cls⟩, fun _ _ _ => trivial⟩

/-- A term that is yielded and is not new is a section that still has the name of a section. -/
def Opened (n t : Nat) (y : Bool) (s : St) : Prop :=
  y = true → t < n → (s.heap t).joinLc = py!"root.section" ∨ (s.heap t).joinLc = py!"root.root"

theorem tr_iterBody {t : Nat} (ht : NewOr n S t) : Tr n S False (iterBody t) (fun y s' => Opened n t y s') s := by
  unfold iterBody
  refine tr_inv fun w0 => tr_bind tr_get fun _ s0 h => ?_
  obtain ⟨rfl, rfl⟩ := h
  have hcur := w0.cur
  clear w0
  refine tr_bind tr_lift fun pr s1 _ => ?_
  obtain ⟨p, r⟩ := pr
  dsimp only
  refine tr_bind (tr_upd (fine_sect ht rfl (.inl rfl) ⟨rfl, fun _ => rfl, List.prefix_refl _, List.prefix_refl _⟩ fun h => h.elim)) fun _ s2 _ => ?_
  refine tr_bind (tr_setSection ht (fun x h => by cases h; exact hcur) fun h => by cases h) fun _ s3 _ => tr_inv fun w => tr_bind tr_obj fun o s4 h => ?_
  obtain ⟨rfl, rfl⟩ := h
  have decl : ∀ s', (t < n → (s'.heap t).joinLc = py!"root.section" ∨ (s'.heap t).joinLc = py!"root.root") →
      Tr n S False (if (s4.heap t).isDecl then do
        manageDeclare t
        return false
      else return true) (fun y s' => Opened n t y s') s' := by
    intro s' h'
    refine tr_ite (fun _ => ?_) fun _ => tr_pure fun _ => h'
    exact tr_bind tr_manageDeclare fun _ _ _ => tr_pure fun h => by cases h
  refine tr_ite (fun _ => ?_) fun _ => tr_ite (fun hj => ?_) fun _ => tr_ite (fun hj => ?_) fun _ => ?_
  · refine tr_bind (tr_updP (fun w => w.cur) fun w => w.map) fun _ s' _ => ?_
    split
    · refine tr_bind (tr_updP (fun w => w.cur) fun w => w.map) fun _ s' _ => tr_bind (tr_upd (fine_sect hcur rfl (.inl rfl) ?_ fun _ => ⟨rfl, rfl⟩)) fun _ _ _ => ?_
      · exact ⟨rfl, fun _ => rfl, List.prefix_refl _, List.prefix_refl _⟩
      · exact tr_pure fun h => by cases h
    · exact tr_raise
  · refine tr_ite (fun _ => tr_bind (Q := fun _ _ => False) tr_raise fun _ _ h => h.elim) fun hc => ?_
    refine tr_bind (tr_updP (fun _ => ht) fun w => w.map) fun _ s' h => tr_bind (tr_names (tr_setSection ht (fun _ h => by cases h) fun _ => ?_)) fun _ s'' h' => decl s'' fun hlt => ?_
    · subst h; simpa using hc
    · subst h
      obtain ⟨e1, e2⟩ := h'.2 t hlt
      left
      rw [Obj.joinLc, e1, e2]; exact hj
  · refine tr_ite (fun _ => tr_bind (Q := fun _ _ => False) tr_raise fun _ _ h => h.elim) fun hc => ?_
    refine tr_bind (tr_updP (fun _ => ht) fun w => w.map) fun _ s' h => tr_bind (tr_names (tr_setSection ht (fun _ h => by cases h) fun _ => ?_)) fun _ s'' h' => decl s'' fun hlt => ?_
    · subst h; simpa using hc
    · subst h
      obtain ⟨e1, e2⟩ := h'.2 t hlt
      right
      rw [Obj.joinLc, e1, e2]; exact hj
  · refine tr_ite (fun _ => tr_bind (Q := fun _ _ => False) tr_raise fun _ _ h => h.elim) fun hc => ?_
    have hn := new_of_class w ht (by simpa using hc)
    refine tr_bind (tr_applyDecl hn) fun _ _ _ => tr_bind (tr_placeTerm hn) fun _ _ _ => tr_bind tr_obj fun o s' _ => tr_ite (fun _ => ?_) fun _ => ?_
    · exact tr_bind (tr_sectionAddTerm hcur hn) fun _ s'' _ => decl s'' fun h => absurd hn (Nat.not_le.2 h)
    · exact decl s' fun h => absurd hn (Nat.not_le.2 h)

theorem tr_loadBody {t : Nat} (hs : n ≤ t ∨ (s.heap t).joinLc = py!"root.section" ∨ (s.heap t).joinLc = py!"root.root") :
    Tr n S N (loadBody t) (fun _ _ => True) s := by
  unfold loadBody
  refine tr_bind tr_obj fun o s' h => ?_
  obtain ⟨rfl, rfl⟩ := h
  refine tr_ite (fun _ => tr_pure trivial) fun h1 => tr_ite (fun _ => tr_bind tr_addSection fun _ _ _ => tr_pure trivial) fun h2 => ?_
  refine tr_ite (fun _ => ?_) fun _ => tr_true tr_assert
  rcases hs with h | h | h
  · exact tr_docAddTerm h
  · exact absurd h h2
  · exact absurd h h1

theorem tr_consume {load : Bool} {t : Nat} (ht : NewOr n S t) : Tr n S False (consume load t) (fun _ _ => True) s := by
  unfold consume
  refine tr_bind (tr_iterBody ht) fun y s' hy => tr_ite (fun h => tr_loadBody ?_) fun _ => tr_pure trivial
  by_cases hn : n ≤ t
  · exact .inl hn
  · exact .inr (hy (by simp at h; exact h.1) (Nat.lt_of_not_le hn))

theorem tr_rowTerm {isDecl : Bool} {row : List Str} : Tr n S N (rowTerm isDecl row) (fun t _ => n ≤ t) s := by
  unfold rowTerm
  refine tr_bind tr_lift fun _ _ _ => tr_bind tr_get fun _ _ _ => ?_
  dsimp only
  split
  · exact tr_newSectionObj
  · exact tr_raise
  · exact tr_newTermObj fun _ h => by cases h

theorem tr_argTerm {isDecl : Bool} {t col : Nat} {v : Str} : Tr n S N (argTerm isDecl t col v) (fun t _ => n ≤ t) s := by
  unfold argTerm
  refine tr_bind tr_get fun _ _ _ => ?_
  dsimp only
  split
  · exact tr_raise
  · exact tr_raise
  · exact tr_newTermObj fun _ h => by cases h

theorem tr_argLoop {load isDecl : Bool} {t : Nat} : ∀ {vs : List Str} {col : Nat} {s : St},
    Tr n S False (argLoop load isDecl t col vs) (fun _ _ => True) s
  | [], _, _ => tr_pure trivial
  | v :: vs, col, s => by
    unfold argLoop
    refine tr_ite (fun _ => ?_) fun _ => tr_argLoop
    exact tr_bind tr_argTerm fun c _ hc => tr_bind (tr_consume (.inl hc)) fun _ _ _ => tr_argLoop

theorem tr_yieldWithArgs {load isDecl : Bool} {t : Nat} (ht : NewOr n S t) : Tr n S False (yieldWithArgs load isDecl t) (fun _ _ => True) s := by
  unfold yieldWithArgs
  exact tr_bind (tr_consume ht) fun _ _ _ => tr_bind tr_obj fun _ _ _ => tr_ite (fun _ => tr_pure trivial) fun _ => tr_argLoop

theorem tr_genRows {files : Files} {sub : Str → Bool → M Unit} (hsub : ∀ x d s, Tr n S False (sub x d) (fun _ _ => True) s)
    {load isDecl : Bool} {dir ref : Str} : ∀ {rows : List (List Str)} {last : Nat} {s : St}, NewOr n S last →
    Tr n S False (genRows files sub load isDecl dir ref last rows) (fun _ _ => True) s
  | [], _, _, _ => tr_pure trivial
  | row :: rows, last, s, hl => by
    unfold genRows
    refine tr_ite (fun _ => tr_genRows hsub hl) fun _ => tr_bind tr_rowTerm fun t s1 ht => tr_bind tr_obj fun o s2 _ => ?_
    refine tr_ite (fun _ => ?_) fun _ => tr_ite (fun _ => ?_) fun _ => ?_
    · refine tr_bind tr_lift fun _ _ _ => tr_ite (fun _ => tr_raise) fun _ => ?_
      exact tr_bind (tr_consume (.inl ht)) fun _ _ _ => tr_bind tr_obj fun _ _ _ => tr_bind (hsub _ _ _) fun _ _ _ =>
        tr_bind (tr_consume hl) fun _ _ _ => tr_genRows hsub hl
    · refine tr_inv fun w => tr_bind tr_lift fun x s3 h => ?_
      obtain ⟨h, rfl⟩ := h
      have hx : NewOr n S x := by
        unfold resolveSection at h
        split at h
        · next v _ _ =>
          injection h with h
          subst h
          cases hg : Dict.get? s3.sections (lower v) with
          | none => exact .inl ht
          | some y => exact w.secs _ (Dict.mem_of_get? hg)
        · cases h
      exact tr_bind (tr_yieldWithArgs hx) fun _ _ _ => tr_genRows hsub hx
    · exact tr_bind (tr_yieldWithArgs (.inl ht)) fun _ _ _ => tr_genRows hsub hl

theorem tr_gen {files : Files} {load : Bool} : ∀ {f : Nat} {isDecl : Bool} {dir ref : Str} {rows : List (List Str)} {s : St},
    Tr n S False (gen files load f isDecl dir ref rows) (fun _ _ => True) s
  | 0, _, _, _, _, _ => tr_raise
  | f + 1, isDecl, dir, ref, rows, s => by
    unfold gen
    refine tr_inv fun w => tr_bind tr_get fun _ s' h => ?_
    obtain ⟨rfl, rfl⟩ := h
    refine tr_bind (tr_genRows (fun x d s => ?_) w.root) fun _ _ _ => tr_pure trivial
    split
    · exact tr_raise
    · exact tr_gen

/-! ## From a well-formed state -/

/-- Which objects are sections. -/
def IsSect (s : St) (j : Nat) : Prop := (s.heap j).cls.isSection = true

/-- A new parser begins at the root section. -/
theorem WF.growing {F : Prop} (w : WF F s) : Growing s.next (IsSect s) { s with p := initP s.root } where
  le := Nat.le_refl _
  kids j hj := by show ∀ c ∈ (s.heap j).children, _; rw [w.blank j hj]; intro c hc; cases hc
  sec j hj := by show ∀ x, (s.heap j).sec = some x → _; rw [w.blank j hj]; intro x hx; cases hx
  cur := .inr w.rootSec
  map kv h := by
    rcases List.mem_cons.1 h with rfl | h
    · exact .inr w.rootSec
    · rw [List.mem_singleton.1 h]; exact .inr w.rootSec
  root := .inr w.rootSec
  secs kv hkv := .inr (w.secsLt kv hkv).2.1
  cls _ _ := Iff.rfl

theorem _root_.Spec.OnlyAdds.refl (s : St) : OnlyAdds s s :=
  ⟨rfl, Nat.le_refl _, List.prefix_refl _, List.prefix_refl _, fun _ _ _ => rfl, fun _ _ _ => .refl _⟩

theorem only_adds {F : Prop} (w : WF F s) {m : M α} (h : Tr s.next (IsSect s) N m (fun _ _ => True) { s with p := initP s.root }) :
    OnlyAdds s (m { s with p := initP s.root }).st := by
  obtain ⟨h, -, -⟩ := h w.growing
  exact ⟨h.root, h.next, h.terms, h.sections, fun j hj hc => h.term j hj fun hs => absurd (hc.symm.trans hs) (by decide),
    fun j hj hc => h.sect j hj hc⟩

theorem parseRows_adds {F : Prop} (w : WF F s) (files : Files) (fuel : Nat) (path : Str) (rows : List (List Str)) :
    OnlyAdds s (parseRows files fuel path rows s).st := by
  unfold parseRows
  rw [bind_run, modify_run]
  refine only_adds w (tr_bind tr_gen fun _ _ _ => ?_)
  exact tr_true (tr_modify rfl rfl rfl (List.prefix_refl _) (List.prefix_refl _) (fun w => w.cur) (fun w => w.map) fun w => w.secs)

theorem loadDeclarations_adds {F : Prop} (w : WF F s) (files : Files) (fuel : Nat) (decls : List Str) :
    OnlyAdds s (loadDeclarations files fuel decls s).st := by
  unfold loadDeclarations
  by_cases hd : decls = []
  · rw [if_pos hd]; exact .refl s
  · rw [if_neg hd, bind_run, get_run]
    simp only []
    rw [bind_run, lift_run]
    cases find s (py!"Root.Declare") with
    | error e => exact .refl s
    | ok ts =>
      simp only []
      rw [bind_run, modify_run]
      refine only_adds w (tr_bind tr_gen fun _ _ _ => ?_)
      exact tr_true (tr_modify rfl rfl rfl (List.prefix_refl _) (List.prefix_refl _) (fun w => w.cur) (fun w => w.map) fun w => w.secs)

end Metatab
