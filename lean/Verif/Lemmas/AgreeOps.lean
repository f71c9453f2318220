import Verif.Lemmas.Agree
/-! # The document and its sections list the same terms: the operations on terms -/
namespace Metatab
open Py _root_.Spec
variable {s : St}

/-! ## Names -/

theorem rootLevel_split {name p r : Str} (h : RootLevel name) (hs : splitTermLower name = .ok (p, r)) : lower p = ROOT := by
  unfold splitTermLower splitTerm at hs
  rcases h with h | ⟨q, h⟩
  · rw [if_neg h] at hs
    cases hs; rfl
  · have hd : '.' ∈ name := by
      rw [← dot_mem_lower, h]
      simp
    rw [if_pos hd] at hs
    have hl : splitOn '.' (lower name) = [] ++ splitOn '.' (lower name) := rfl
    cases hsp : splitOn '.' name with
    | nil => exact absurd hsp (splitOn_ne_nil _ _)
    | cons a l =>
      cases l with
      | nil => rw [hsp] at hs; cases hs
      | cons b l =>
        cases l with
        | cons c l => rw [hsp] at hs; cases hs
        | nil =>
          rw [hsp] at hs
          obtain ⟨e, ha, hb⟩ := split_pair hsp
          have e2 : lower a ++ '.' :: lower b = py!"root" ++ '.' :: q := by
            have := h
            rw [e, lower_append, lower_cons] at this
            exact this
          have e3 : lower a = py!"root" := by
            have h1 := splitOn_append_sep (sep := '.') (p := lower a) (by rw [dot_mem_lower]; exact ha) (lower b)
            have h2 := splitOn_append_sep (sep := '.') (p := py!"root") (by decide) q
            rw [e2, h2] at h1
            exact (List.cons.inj h1).1.symm
          have e4 : lower (strip a) = py!"root" := by
            rw [← strip_lower, e3]; decide
          have hne : strip a ≠ [] := by
            intro h0; rw [h0] at e4; cases e4
          simp only [bind, Except.bind, pure, Except.pure, if_neg hne] at hs
          injection hs with hs
          injection hs with h1 _
          rw [← h1, lower_lower, e4]; rfl

theorem noSection_map {l : List Str} (h : NoSectionColumn l) : NoSectionColumn (l.map strip) := by
  intro a ha
  obtain ⟨b, hb, rfl⟩ := List.mem_map.1 ha
  rw [strip_strip]; exact h b hb

theorem noSection_lower {l : List Str} (h : NoSectionColumn l) : py!"section" ∉ l.map lower := by
  intro hm
  obtain ⟨a, ha, e⟩ := List.mem_map.1 hm
  refine h a ha ?_
  rw [← strip_lower, e]; decide

theorem noSection_nil : NoSectionColumn [] := fun _ h => by cases h

/-! ## Creating terms -/

/-- What creating terms below others leaves alone. -/
structure Kids (s s' : St) : Prop where
  next : s.next ≤ s'.next
  terms : s'.terms = s.terms
  sections : s'.sections = s.sections
  names : ∀ i, i < s.next → (s'.heap i).pt = (s.heap i).pt ∧ (s'.heap i).sec = (s.heap i).sec
  kids : ∀ i c, c ∈ (s'.heap i).children → c ∈ (s.heap i).children ∨ s.next ≤ c
  p : s'.p = s.p
  classes : s'.classes = s.classes

theorem Kids.refl (s : St) : Kids s s := ⟨Nat.le_refl _, rfl, rfl, fun _ _ => ⟨rfl, rfl⟩, fun _ _ h => .inl h, rfl, rfl⟩
theorem Kids.trans {a b c : St} (h : Kids a b) (k : Kids b c) : Kids a c := by
  refine ⟨Nat.le_trans h.next k.next, k.terms.trans h.terms, k.sections.trans h.sections, fun i hi => ?_, fun i d hd => ?_, k.p.trans h.p,
    k.classes.trans h.classes⟩
  · have h1 := h.names i hi
    have h2 := k.names i (Nat.lt_of_lt_of_le hi h.next)
    exact ⟨h2.1.trans h1.1, h2.2.trans h1.2⟩
  · rcases k.kids i d hd with h1 | h1
    · exact h.kids i d h1
    · exact .inr (Nat.le_trans h.next h1)

/-- Changes of an object that keep its name and section and add only new children. -/
theorem Kids.setObj {s : St} {i : Nat} {o : Obj} (h1 : o.pt = (s.heap i).pt) (h2 : o.sec = (s.heap i).sec)
    (h3 : ∀ c ∈ o.children, c ∈ (s.heap i).children) : Kids s (s.setObj i o) := by
  refine ⟨Nat.le_refl _, rfl, rfl, fun j _ => ?_, fun j c hc => ?_, rfl, rfl⟩
  · rw [heap_setObj]; split
    · next e => subst e; exact ⟨h1, h2⟩
    · exact ⟨rfl, rfl⟩
  · rw [heap_setObj] at hc; split at hc
    · next e => subst e; exact .inl (h3 c hc)
    · exact .inl hc

/-- What a fresh object looks like. -/
structure FreshT (s s' : St) (i : Nat) (cls : Cls) (term : Str) (value : Val) (args : List Str) (parent sec : Option Nat) : Prop where
  eq : i = s.next
  obj : ∃ o : Obj, s' = { s with next := s.next + 1 }.setObj s.next o ∧ o.children = [] ∧ o.terms = [] ∧ o.parent = parent ∧ o.sec = sec ∧
    o.cls = cls ∧ o.tvn = py!"@value" ∧ o.isDecl = false ∧ o.args = args.map strip ∧ o.headerArgs = [] ∧ o.value = value.mk ∧
    (parent = none → splitTermLower term = .ok (o.pt, o.rt))

namespace FreshT
variable {s' : St} {i : Nat} {cls : Cls} {term : Str} {value : Val} {args : List Str} {parent sec : Option Nat}
  (f : FreshT s s' i cls term value args parent sec)
include f
theorem next : s'.next = s.next + 1 := by obtain ⟨o, h, _⟩ := f.obj; rw [h]; rfl
theorem lt : i < s'.next := by rw [f.next, f.eq]; exact Nat.lt_succ_self _
theorem heap {j : Nat} (h : j ≠ i) : s'.heap j = s.heap j := by
  obtain ⟨o, e, _⟩ := f.obj; rw [e, heap_setObj, if_neg (by rw [← f.eq]; exact h)]
theorem at_ : (s'.heap i).children = [] ∧ (s'.heap i).terms = [] ∧ (s'.heap i).parent = parent ∧ (s'.heap i).sec = sec ∧
    (s'.heap i).cls = cls ∧ (s'.heap i).tvn = py!"@value" ∧ (s'.heap i).isDecl = false ∧ (s'.heap i).args = args.map strip ∧
    (s'.heap i).headerArgs = [] ∧ (s'.heap i).value = value.mk ∧
    (parent = none → splitTermLower term = .ok ((s'.heap i).pt, (s'.heap i).rt)) := by
  obtain ⟨o, e, h⟩ := f.obj
  have : s'.heap i = o := by rw [e, heap_setObj, f.eq, if_pos rfl]
  rw [this]; exact h
theorem rest : s'.sections = s.sections ∧ s'.terms = s.terms ∧ s'.p = s.p ∧ s'.root = s.root ∧ s'.classes = s.classes := by
  obtain ⟨o, h, _⟩ := f.obj; rw [h]; exact ⟨rfl, rfl, rfl, rfl, rfl⟩
theorem kids : Kids s s' := by
  refine ⟨by rw [f.next]; exact Nat.le_succ _, f.rest.2.1, f.rest.1, fun j hj => ?_, fun j c hc => ?_, f.rest.2.2.1, f.rest.2.2.2.2⟩
  · rw [f.heap (by rw [f.eq]; exact Nat.ne_of_lt hj)]; exact ⟨rfl, rfl⟩
  · by_cases e : j = i
    · rw [e, f.at_.1] at hc; cases hc
    · rw [f.heap e] at hc; exact .inl hc
end FreshT

theorem evo_alloc {s : St} {o : Obj} : Evo s ({ s with next := s.next + 1 }.setObj s.next o) := by
  refine ⟨Nat.le_succ _, rfl, fun j hj => ?_, fun _ h => h⟩
  rw [heap_setObj, if_neg (Nat.ne_of_lt hj)]

theorem at_alloc {o : Obj} {Q : Nat → St → Prop} (hc : o.children = []) (ht : o.terms = [])
    (hsec : o.cls.isSection = true → o.pt = py!"root" ∧ o.rt = py!"section" ∧ NoSectionColumn o.args ∧ NoSectionColumn o.headerArgs ∧
      lower o.tvn ≠ py!"section") (hsl : ∀ x, o.sec = some x → x < s.next ∧ (s.heap x).cls.isSection = true)
    (hd : o.isDecl = false) (hQ : Q s.next ({ s with next := s.next + 1 }.setObj s.next o)) : AT (alloc o) Q s :=
  fun w => ⟨w.alloc hc ht hsec hsl hd, evo_alloc, hQ⟩

theorem at_newTermObj {cls : Cls} {term : Str} {value : Val} {args : List Str} {parent sec : Option Nat} {col : Nat}
    (hc : cls.isSection = true → parent = none ∧ splitTermLower term = .ok (py!"root", py!"section") ∧ NoSectionColumn args)
    (hs : ∀ x, sec = some x → x < s.next ∧ (s.heap x).cls.isSection = true) :
    AT (newTermObj cls term value args parent sec col false) (fun i s' => FreshT s s' i cls term value args parent sec) s := by
  unfold newTermObj
  refine at_lift fun ⟨p0, r⟩ hpr => ?_
  cases parent with
  | none =>
    refine at_alloc rfl rfl (fun h => ?_) hs rfl ⟨rfl, _, rfl, rfl, rfl, rfl, rfl, rfl, rfl, rfl, rfl, rfl, rfl, fun _ => hpr⟩
    obtain ⟨_, h2, h3⟩ := hc h
    rw [hpr] at h2; cases h2
    exact ⟨rfl, rfl, noSection_map h3, noSection_nil, by show lower (py!"@value") ≠ _; decide⟩
  | some q =>
    refine at_obj (at_assert fun _ => ?_)
    refine at_alloc rfl rfl (fun h => ?_) hs rfl ⟨rfl, _, rfl, rfl, rfl, rfl, rfl, rfl, rfl, rfl, rfl, rfl, rfl, fun h => by cases h⟩
    cases (hc h).1

theorem sectionArgs_ok {value : Val} {a : List Str} (w : Inv s) (h : sectionArgs s value = .ok a) : NoSectionColumn a := by
  unfold sectionArgs at h
  cases value with
  | str n =>
    simp only at h
    cases hg : s.declSecs.get? (lower n) with
    | none => rw [hg] at h; cases h; exact noSection_nil
    | some d => rw [hg] at h; cases h; exact w.decl _ d hg
  | none => cases h
  | int n => cases h
  | fls => cases h
  | obj n => cases h

theorem at_newSectionObj {term : Str} {value : Val} {args : List Str} (ht : splitTermLower term = .ok (py!"root", py!"section"))
    (ha : NoSectionColumn args) :
    AT (newSectionObj term value args) (fun i s' => ∃ a, FreshT s s' i .section term value a none none) s := by
  unfold newSectionObj
  have fin : ∀ a : List Str, NoSectionColumn a → AT (do
      let i ← newTermObj .section term value a none none 1 false
      let o ← obj i
      M.assert (o.joinLc = py!"root.section" ∨ o.joinLc = py!"root.root")
      return i) (fun i s' => ∃ a, FreshT s s' i .section term value a none none) s := by
    intro a h
    refine at_bind (at_newTermObj (fun _ => ⟨rfl, ht, h⟩) (fun q h => by cases h)) fun i s' _ _ f => ?_
    exact at_obj (at_assert fun _ => at_pure ⟨a, f⟩)
  refine at_ite (fun _ => ?_) fun _ => ?_
  · exact at_bind (Q := fun a s' => s' = s ∧ NoSectionColumn a) (at_pure ⟨rfl, ha⟩) fun a s' _ _ ⟨e, h⟩ => by subst e; exact fin a h
  · exact at_inv fun w => at_lift fun a h => fin a (sectionArgs_ok w h)

theorem at_construct {cls : Cls} {term : Str} {value : Val} {parent sec : Option Nat} (hp : parent.isSome ∨ sec.isSome)
    (hs : ∀ x, sec = some x → x < s.next ∧ (s.heap x).cls.isSection = true) :
    AT (construct cls term value parent sec)
      (fun i s' => ∃ c, FreshT s s' i c term value [] parent sec ∧ c.isSection = false) s := by
  unfold construct
  cases cls with
  | term => exact at_mono (at_newTermObj (fun h => by cases h) hs) fun i s' _ _ f => ⟨_, f, rfl⟩
  | user n => exact at_mono (at_newTermObj (fun h => by cases h) hs) fun i s' _ _ f => ⟨_, f, rfl⟩
  | root => exact at_raise
  | «section» =>
    dsimp only
    rw [if_pos hp]
    exact at_lift fun _ _ => at_raise

theorem at_setTvn {t : Nat} {v : Str} (ht : t < s.next) (hns : (s.heap t).cls.isSection = false) :
    AT (setTvn t v) (fun _ s' => s' = s.setObj t { s.heap t with tvn := v }) s := by
  unfold setTvn
  refine at_ite (fun _ => at_raise) fun _ => ?_
  exact at_upd' rfl (fun w => w.setTerm ht hns rfl rfl rfl rfl rfl rfl) rfl

theorem at_setValue {t : Nat} {v : Val} (ht : t < s.next) (hns : (s.heap t).cls.isSection = false) :
    AT (upd t fun o => { o with value := v }) (fun _ s' => Kids s s') s :=
  at_upd' rfl (fun w => w.setTerm ht hns rfl rfl rfl rfl rfl rfl) (Kids.setObj rfl rfl fun _ h => h)

/-- Attaching a child that is no section. -/
theorem Inv.attach {s : St} (w : Inv s) {t c : Nat} (ht : t < s.next) (hc : c < s.next) (hns : (s.heap c).cls.isSection = false) :
    Inv (s.setObj t { s.heap t with children := (s.heap t).children ++ [c] }) := by
  refine w.setObj ht rfl rfl (fun h => ⟨rfl, (w.termsLt t h).2.2⟩) (fun h => ⟨rfl, rfl, rfl, w.noCol t ht h⟩) ?_ (w.secLt t ht) rfl
  intro d hd
  rcases List.mem_append.1 hd with h | h
  · exact w.kid t d h
  · rw [List.mem_singleton.1 h]; exact ⟨hc, hns⟩

/-- Attaching a new child. -/
theorem kids_attach {s s' : St} (k : Kids s s') {t c : Nat} (hc : s.next ≤ c) :
    Kids s (s'.setObj t { s'.heap t with children := (s'.heap t).children ++ [c] }) := by
  refine ⟨k.next, k.terms, k.sections, fun i hi => ?_, fun i d hd => ?_, k.p, k.classes⟩
  · rw [heap_setObj]; split
    · next e => subst e; exact k.names i hi
    · exact k.names i hi
  · rw [heap_setObj] at hd; split at hd
    · next e =>
      subst e
      rcases List.mem_append.1 hd with h | h
      · exact k.kids i d h
      · rw [List.mem_singleton.1 h]; exact .inr hc
    · exact k.kids i d hd

theorem at_newChild0 {t : Nat} {term : Str} {value : Val} (ht : t < s.next) :
    AT (newChild0 t term value) (fun c s' => Kids s s' ∧ c < s'.next ∧ (s'.heap c).cls.isSection = false) s := by
  unfold newChild0
  refine at_inv fun w => at_get ?_
  have fin : ∀ v : Val, AT (do
      let c ← construct (docTermClass s (lower term)) term v (some t) (s.heap t).sec
      let o ← obj c
      setTvn c (declProp s.declTerms o.join (py!"termvaluename") o.tvn)
      M.assert (lower o.rt ≠ py!"section")
      upd t fun o => { o with children := o.children ++ [c] }
      return c) (fun c s' => Kids s s' ∧ c < s'.next ∧ (s'.heap c).cls.isSection = false) s := by
    intro v
    refine at_bind (at_construct (.inl rfl) (w.secLt t ht)) fun c s1 w1 e1 ⟨cl, f, hcl⟩ => ?_
    refine at_obj ?_
    have hns : (s1.heap c).cls.isSection = false := by rw [f.at_.2.2.2.2.1]; exact hcl
    refine at_bind (at_setTvn f.lt hns) fun _ s2 w2 e2 h2 => ?_
    refine at_assert fun _ => ?_
    refine at_upd rfl (fun w => w.attach ((e1.trans e2).lt ht) (e2.lt f.lt) (e2.notSec f.lt hns)) (at_pure ⟨?_, e2.lt f.lt, (evo_setObj (s := s2) (i := t) (o := { s2.heap t with children := (s2.heap t).children ++ [c] }) rfl).notSec (e2.lt f.lt) (e2.notSec f.lt hns)⟩)
    refine kids_attach ?_ (by rw [f.eq]; exact Nat.le_refl _)
    rw [h2]
    exact f.kids.trans (Kids.setObj rfl rfl fun _ h => h)
  split
  · exact at_bind (Q := fun _ s' => s' = s) (at_pure rfl) fun a s' _ _ e => by subst e; exact fin a
  · split
    · exact at_bind (Q := fun _ s' => s' = s) (at_pure rfl) fun a s' _ _ e => by subst e; exact fin a
    · exact at_bind (Q := fun _ s' => False) at_raise fun a s' _ _ e => by cases e

theorem at_forKids {γ : Type} {f : γ → M Unit} {l : List γ} (h : ∀ a ∈ l, ∀ s', Evo s s' → Kids s s' → AT (f a) (fun _ s2 => Kids s' s2) s') :
    AT (forL f l) (fun _ s' => Kids s s') s :=
  at_forL (I := fun s' => Kids s s') (fun a ha s' e k => at_mono (h a ha s' e k) fun _ _ _ _ k' => k.trans k') (Kids.refl s)

theorem at_newChildren {t : Nat} {kw : List (Str × Val)} (ht : t < s.next) :
    AT (newChildren t kw) (fun _ s' => Kids s s') s := by
  unfold newChildren
  refine at_forKids fun a _ s' st _ => ?_
  exact at_bind (at_newChild0 (st.lt ht)) fun _ _ _ _ h => at_pure h.1

theorem at_newChild {t : Nat} {term : Str} {value : Val} {kw : List (Str × Val)} (ht : t < s.next) :
    AT (newChild t term value kw) (fun c s' => Kids s s' ∧ c < s'.next) s := by
  unfold newChild
  refine at_inv fun w => at_get ?_
  have fin : ∀ v : Val, AT (do
      let c ← construct (docTermClass s (lower term)) term v (some t) (s.heap t).sec
      newChildren c kw
      let o ← obj c
      setTvn c (declProp s.declTerms o.join (py!"termvaluename") o.tvn)
      M.assert (lower o.rt ≠ py!"section")
      upd t fun o => { o with children := o.children ++ [c] }
      return c) (fun c s' => Kids s s' ∧ c < s'.next) s := by
    intro v
    refine at_bind (at_construct (.inl rfl) (w.secLt t ht)) fun c s1 w1 e1 ⟨cl, f, hcl⟩ => ?_
    have hns : (s1.heap c).cls.isSection = false := by rw [f.at_.2.2.2.2.1]; exact hcl
    refine at_bind (at_newChildren f.lt) fun _ s2 w2 e2 k2 => at_obj ?_
    refine at_bind (at_setTvn (e2.lt f.lt) (e2.notSec f.lt hns)) fun _ s3 w3 e3 h3 => ?_
    refine at_assert fun _ => ?_
    refine at_upd rfl (fun w => w.attach (((e1.trans e2).trans e3).lt ht) ((e2.trans e3).lt f.lt) ((e2.trans e3).notSec f.lt hns))
      (at_pure ⟨?_, (e2.trans e3).lt f.lt⟩)
    refine kids_attach ?_ (by rw [f.eq]; exact Nat.le_refl _)
    rw [h3]
    exact (f.kids.trans k2).trans (Kids.setObj rfl rfl fun _ h => h)
  split
  · exact at_bind (Q := fun _ s' => s' = s) (at_pure rfl) fun a s' _ _ e => by subst e; exact fin a
  · split
    · exact at_bind (Q := fun _ s' => s' = s) (at_pure rfl) fun a s' _ _ e => by subst e; exact fin a
    · exact at_bind (Q := fun _ s' => False) at_raise fun a s' _ _ e => by cases e

theorem at_getOrNewChild0 {t : Nat} {term : Str} {value : Val} (ht : t < s.next) :
    AT (getOrNewChild0 t term value) (fun c s' => Kids s s' ∧ c < s'.next ∧ (s'.heap c).cls.isSection = false) s := by
  unfold getOrNewChild0
  refine at_inv fun w => at_get (at_ite (fun _ => at_raise) fun _ => at_lift fun ⟨_, rt⟩ _ => ?_)
  dsimp only
  have fin : ∀ c s', Kids s s' ∧ c < s'.next ∧ (s'.heap c).cls.isSection = false → AT (do
      let s ← M.get
      M.assert (decide (childNamed s t rt .fls = some c))
      return c) (fun c s' => Kids s s' ∧ c < s'.next ∧ (s'.heap c).cls.isSection = false) s' :=
    fun c s' h => at_get (at_assert fun _ => at_pure h)
  split
  · refine at_bind (at_construct (.inl rfl) (w.secLt t ht)) fun c s1 w1 e1 ⟨cl, f, hcl⟩ => ?_
    have hns : (s1.heap c).cls.isSection = false := by rw [f.at_.2.2.2.2.1]; exact hcl
    refine at_obj (at_assert fun _ => ?_)
    refine at_upd rfl (fun w => w.attach (e1.lt ht) f.lt hns) ?_
    refine at_bind (Q := fun a s' => Kids s s' ∧ a < s'.next ∧ (s'.heap a).cls.isSection = false)
      (at_pure ⟨kids_attach f.kids (by rw [f.eq]; exact Nat.le_refl _), f.lt, ?_⟩) fun a s' _ _ e => fin a s' e
    rw [heap_setObj, if_neg (by rw [f.eq]; exact Nat.ne_of_gt ht)]; exact hns
  · next c hc =>
    have hk := w.kid t c (childNamed_mem hc)
    refine at_ite (fun _ => ?_) fun _ => ?_
    · refine at_bind (at_setValue hk.1 hk.2) fun _ s1 _ st h => ?_
      exact at_bind (Q := fun a s' => Kids s s' ∧ a < s'.next ∧ (s'.heap a).cls.isSection = false)
        (at_pure ⟨h, st.lt hk.1, st.notSec hk.1 hk.2⟩) fun a s' _ _ e => fin a s' e
    · exact at_bind (Q := fun a s' => Kids s s' ∧ a < s'.next ∧ (s'.heap a).cls.isSection = false)
        (at_pure ⟨Kids.refl s, hk⟩) fun a s' _ _ e => fin a s' e

theorem at_getOrNewChild {t : Nat} {term : Str} {value : Val} {kw : List (Str × Val)} (ht : t < s.next) :
    AT (getOrNewChild t term value kw) (fun _ _ => True) s := by
  unfold getOrNewChild
  refine at_inv fun w => at_get (at_ite (fun _ => at_raise) fun _ => at_lift fun ⟨_, rt⟩ _ => ?_)
  dsimp only
  have fin : ∀ c s', AT (do
      let s ← M.get
      M.assert (decide (childNamed s t rt .fls = some c))
      return c) (fun _ _ => True) s' := fun c s' => at_get (at_assert fun _ => at_pure trivial)
  split
  · refine at_bind (at_construct (.inl rfl) (w.secLt t ht)) fun c s1 w1 e1 ⟨cl, f, hcl⟩ => ?_
    have hns : (s1.heap c).cls.isSection = false := by rw [f.at_.2.2.2.2.1]; exact hcl
    refine at_bind (at_newChildren f.lt) fun _ s2 w2 e2 k2 => at_obj (at_assert fun _ => ?_)
    refine at_upd rfl (fun w => w.attach ((e1.trans e2).lt ht) (e2.lt f.lt) (e2.notSec f.lt hns)) ?_
    exact at_bind (Q := fun _ _ => True) (at_pure trivial) fun a s' _ _ _ => fin a s'
  · next c hc =>
    have hk := w.kid t c (childNamed_mem hc)
    have fin2 : ∀ s1, Evo s s1 → AT (do
        forL (fun kv => do let _ ← getOrNewChild0 c kv.1 kv.2) kw
        let c ← pure c
        let s ← M.get
        M.assert (decide (childNamed s t rt .fls = some c))
        return c) (fun _ _ => True) s1 := by
      intro s1 st
      refine at_bind (at_forL (I := fun _ => True) (fun a _ s' st' _ => ?_) trivial) fun _ s2 _ st2 _ => ?_
      · exact at_bind (at_getOrNewChild0 ((st.trans st').lt hk.1)) fun _ _ _ _ _ => at_pure trivial
      · exact at_bind (Q := fun _ _ => True) (at_pure trivial) fun a s' _ _ _ => fin a s'
    refine at_ite (fun _ => ?_) fun _ => ?_
    · exact at_bind (at_setValue hk.1 hk.2) fun _ s1 _ st _ => fin2 s1 st
    · exact fin2 s (Evo.refl s)

theorem at_setItemSome {t : Nat} {item : Str} {value : Val} (ht : t < s.next) (hns : (s.heap t).cls.isSection = false) :
    AT (setItemSome t item value) (fun _ s' => Kids s s') s := by
  unfold setItemSome
  refine at_obj (at_ite (fun _ => at_setValue ht hns) fun _ => ?_)
  refine at_bind (at_getOrNewChild0 ht) fun _ s1 _ _ k => at_lift fun c _ => at_obj (at_assert' fun _ => k.1)

/-! ## Listing terms -/

theorem inDoc_known (w : Inv s) {x : Nat} (hx : HasSec s x) : addSection x s = .ok x s := by
  obtain ⟨k, hk⟩ := hx
  obtain ⟨_, hc, n, hv, e⟩ := w.secOk k x hk
  unfold addSection
  rw [← e] at hk
  simp only [bind_run, obj_run, hc, assert_run, if_true, hv, get_run, hk, pure_run]

theorem at_addSection {x : Nat} (hx : x < s.next) (h : HasSec s x ∨ (s.heap x).terms = []) :
    AT (addSection x) (fun y s' => HasSec s' y ∧ s'.heap = s.heap ∧ s'.terms = s.terms ∧ s'.p = s.p ∧ s'.classes = s.classes ∧
      ((∀ n, (s.heap x).value = .str n → s.sections.get? (lower n) = none ∨ s.sections.get? (lower n) = some x) → y = x)) s := by
  unfold addSection
  refine at_inv fun w => at_obj (at_assert fun hc => ?_)
  cases hv : (s.heap x).value with
  | str n =>
    dsimp only
    refine at_get ?_
    cases hg : s.sections.get? (lower n) with
    | some y =>
      refine at_pure ⟨⟨_, hg⟩, rfl, rfl, rfl, rfl, fun h => ?_⟩
      rcases h n rfl with h | h
      · rw [hg] at h; cases h
      · rw [hg] at h; cases h; rfl
    | none =>
      have ht : (s.heap x).terms = [] := by
        rcases h with ⟨k, hk⟩ | h
        · obtain ⟨_, _, m, hv', e⟩ := w.secOk k x hk
          rw [hv] at hv'; cases hv'
          rw [e, hk] at hg; cases hg
        · exact h
      refine at_modify (fun w => w.register hx hc hv hg ht) (evo_register hg) (at_pure ⟨⟨lower n, Dict.get?_set_self _ _ _⟩, rfl, rfl, rfl, rfl, fun _ => rfl⟩)
  | none => exact at_raise
  | int n => exact at_raise
  | fls => exact at_raise
  | obj n => exact at_raise

theorem plain_props (w : Inv s) {t x : Nat} (hns : (s.heap t).cls.isSection = false) (hs : (s.heap t).sec = some x) (ht : t < s.next) :
    py!"section" ∉ (propertyNames s t).map lower := by
  unfold propertyNames
  rw [hns, hs]
  obtain ⟨h1, h2⟩ := w.secLt t ht x hs
  obtain ⟨a, b, _⟩ := w.noCol x h1 h2
  simp only [Bool.false_eq_true, if_false, Obj.secPropertyNames]
  split
  · exact noSection_lower b
  · exact noSection_lower a

/-- Assigning its own section to a term at most changes the term's value. -/
theorem setSectionTerm_own (w : Inv s) {t x : Nat} (hns : (s.heap t).cls.isSection = false) (hs : (s.heap t).sec = some x) (ht : t < s.next) :
    ∀ l, ∃ v, setSectionTerm t x { s with terms := l } = .ok () ({ s with terms := l }.setObj t { s.heap t with value := v }) := by
  intro l
  unfold setSectionTerm
  have hp := plain_props w hns hs ht
  have hp' : py!"section" ∉ (propertyNames { s with terms := l } t).map lower := hp
  simp only [bind_run, get_run, ite_run, upd_run]
  by_cases h : lower (s.heap t).tvn = py!"section"
  · exact ⟨.obj x, by rw [if_pos h]⟩
  · refine ⟨(s.heap t).value, ?_⟩
    rw [if_neg h, if_neg hp', ← hs]

/-- Nothing but the sections and parents of unlisted objects differs. -/
structure Own (s s' : St) : Prop where
  kids : ∀ i, (s'.heap i).children = (s.heap i).children
  terms : s'.terms = s.terms
  secs : ∀ u ∈ s.terms, (s'.heap u).sec = (s.heap u).sec
  names : ∀ i, (s'.heap i).pt = (s.heap i).pt ∧ (s'.heap i).rt = (s.heap i).rt
  p : s'.p = s.p
  classes : s'.classes = s.classes
  sections : s'.sections = s.sections

theorem Own.refl (s : St) : Own s s := ⟨fun _ => rfl, rfl, fun _ _ => rfl, fun _ => ⟨rfl, rfl⟩, rfl, rfl, rfl⟩
theorem Own.trans {a b c : St} (h : Own a b) (k : Own b c) : Own a c :=
  ⟨fun i => (k.kids i).trans (h.kids i), k.terms.trans h.terms, fun u hu => (k.secs u (by rw [h.terms]; exact hu)).trans (h.secs u hu),
    fun i => ⟨(k.names i).1.trans (h.names i).1, (k.names i).2.trans (h.names i).2⟩, k.p.trans h.p, k.classes.trans h.classes,
    k.sections.trans h.sections⟩
theorem Own.below {s s' : St} (h : Own s s') {a b : Nat} (hb : Under s' a b) : Under s a b := by
  unfold Under at *
  simp only [h.kids] at hb
  exact hb

theorem at_setOwnershipF {x : Nat} : ∀ f t {s : St}, t < s.next → (s.heap t).sec = some x →
    (∀ u, Under s t u → u ∈ s.terms → (s.heap u).sec = some x) → AT (setOwnershipF f t) (fun _ s' => Own s s') s
  | 0, _, _, _, _, _ => at_raise
  | f + 1, t, s, ht, hs, hb => by
    unfold setOwnershipF
    refine at_inv fun w => at_obj (at_assert fun _ => ?_)
    have hx := w.secLt t ht x hs
    refine at_forL (I := fun s' => Own s s') (fun c hc s1 e1 o1 => ?_) (Own.refl s)
    have hk := w.kid t c hc
    have hc1 := e1.lt hk.1
    have o2 : Own s (s1.setObj c { s1.heap c with parent := some t, sec := (s.heap t).sec }) := by
      refine ⟨fun i => ?_, o1.terms, fun u hu => ?_, fun i => ?_, o1.p, o1.classes, o1.sections⟩
      · rw [heap_setObj]; split
        · next e => subst e; exact o1.kids i
        · exact o1.kids i
      · rw [heap_setObj]; split
        · next e =>
          subst e
          show (s.heap t).sec = _
          rw [hs, hb u (.single hc) hu]
        · exact o1.secs u hu
      · rw [heap_setObj]; split
        · next e => subst e; exact o1.names i
        · exact o1.names i
    refine at_upd rfl (fun w1 => ?_) ?_
    · refine w1.setObj hc1 rfl rfl (fun h => ⟨?_, (w1.termsLt c h).2.2⟩) (fun h => ?_) (w1.kid c) ?_ rfl
      · have hcs : c ∈ s.terms := by rw [← o1.terms]; exact h
        show (s.heap t).sec = _
        rw [o1.secs c hcs, hb c (.single hc) hcs, hs]
      · rw [e1.notSec hk.1 hk.2] at h; cases h
      · intro y hy
        have hy' : (s.heap t).sec = some y := hy
        rw [hs] at hy'; cases hy'
        exact ⟨e1.lt hx.1, e1.isSec hx.1 hx.2⟩
    · refine at_mono (at_setOwnershipF f c (x := x) hc1 ?_ ?_) fun _ s3 _ _ o3 => o2.trans o3
      · rw [heap_setObj, if_pos rfl]; exact hs
      · intro u hu hm
        have hu' := o2.below hu
        have hus : u ∈ s.terms := by rw [← o2.terms]; exact hm
        rw [o2.secs u hus]
        exact hb u (.head hc hu') hus

theorem at_setOwnership {t x : Nat} (ht : t < s.next) (hs : (s.heap t).sec = some x)
    (hb : ∀ u, Under s t u → u ∈ s.terms → (s.heap u).sec = some x) : AT (setOwnership t) (fun _ s' => Own s s') s := by
  unfold setOwnership
  exact at_get (at_setOwnershipF _ t ht hs hb)

theorem Own.setObj {s : St} {i : Nat} {o : Obj} (h1 : o.children = (s.heap i).children) (h2 : o.sec = (s.heap i).sec)
    (h3 : o.pt = (s.heap i).pt) (h4 : o.rt = (s.heap i).rt) : Own s (s.setObj i o) := by
  refine ⟨fun j => ?_, rfl, fun j _ => ?_, fun j => ?_, rfl, rfl, rfl⟩ <;> rw [heap_setObj] <;> split
  · next e => subst e; exact h1
  · rfl
  · next e => subst e; exact h2
  · rfl
  · next e => subst e; exact ⟨h3, h4⟩
  · exact ⟨rfl, rfl⟩

theorem at_addTermFinish {t : Nat} (ht : t < s.next) (hns : (s.heap t).cls.isSection = false) :
    AT (addTermFinish t) (fun _ s' => Own s s' ∧ (s'.heap t).sec = (s.heap t).sec) s := by
  unfold addTermFinish
  refine at_get ?_
  dsimp only
  have fin : ∀ s1, Evo s s1 → Own s s1 ∧ (s1.heap t).sec = (s.heap t).sec → AT (match (s.heap t).sec with
      | none => M.raise .attributeError
      | some x =>
        if (s.heap t).tvn = [] ∨ (s.heap t).tvn = (s.heap x).defTvn then
          setTvn t (declProp s.declTerms (s.heap t).join (py!"termvaluename") (s.heap x).defTvn)
        else pure ()) (fun _ s' => Own s s' ∧ (s'.heap t).sec = (s.heap t).sec) s1 := by
    intro s1 e1 h
    cases hsec : (s.heap t).sec with
    | none => exact at_raise
    | some x =>
      rw [hsec] at h
      refine at_ite (fun _ => at_mono (at_setTvn (e1.lt ht) (e1.notSec ht hns)) fun _ s2 _ _ e => ?_) fun _ => at_pure h
      rw [e]
      exact ⟨h.1.trans (Own.setObj rfl rfl rfl rfl), by rw [heap_setObj, if_pos rfl]; exact h.2⟩
  refine at_ite (fun _ => ?_) fun _ => fin s (Evo.refl s) ⟨Own.refl s, rfl⟩
  exact at_upd rfl (fun w => w.setTerm ht hns rfl rfl rfl rfl rfl rfl)
    (fin _ (evo_setObj rfl) ⟨Own.setObj rfl rfl rfl rfl, by rw [heap_setObj, if_pos rfl]⟩)

end Metatab
