import Verif.Lemmas.StepsParse
/-! Parsing only adds children, and every new term ends up attached. -/
namespace Metatab
open Py

/-- A term that needs no parent: a section, a header row, or a term made by assigning to a column called `Section`. -/
def Loose (o : Obj) : Prop := o.cls.isSection = true ∨ o.joinLc = py!"root.header" ∨ o.joinLc = py!"root.section"

/-- The children of old objects are kept, as are their names, and new objects are attached. -/
structure Grow (s s' : St) : Prop where
  next : s.next ≤ s'.next
  kids : ∀ i, i < s.next → ∀ c, c ∈ (s.heap i).children → c ∈ (s'.heap i).children
  pt : ∀ i, i < s.next → (s'.heap i).pt = (s.heap i).pt
  rt : ∀ i, i < s.next → (s'.heap i).rt = (s.heap i).rt
  cls : ∀ i, i < s.next → (s'.heap i).cls = (s.heap i).cls
  new : ∀ i, s.next ≤ i → i < s'.next → Loose (s'.heap i) ∨ ∃ q, q < s'.next ∧ i ∈ (s'.heap q).children

theorem Grow.refl (s : St) : Grow s s :=
  ⟨Nat.le_refl _, fun _ _ _ h => h, fun _ _ => rfl, fun _ _ => rfl, fun _ _ => rfl, fun _ h k => absurd k (Nat.not_lt.2 h)⟩

theorem Grow.loose {s s' : St} (g : Grow s s') {i : Nat} (hi : i < s.next) : Loose (s'.heap i) ↔ Loose (s.heap i) := by
  unfold Loose Obj.joinLc
  rw [g.cls i hi, g.pt i hi, g.rt i hi]

theorem Grow.trans {a b c : St} (g : Grow a b) (k : Grow b c) : Grow a c where
  next := Nat.le_trans g.next k.next
  kids i hi x h := k.kids i (Nat.lt_of_lt_of_le hi g.next) x (g.kids i hi x h)
  pt i hi := (k.pt i (Nat.lt_of_lt_of_le hi g.next)).trans (g.pt i hi)
  rt i hi := (k.rt i (Nat.lt_of_lt_of_le hi g.next)).trans (g.rt i hi)
  cls i hi := (k.cls i (Nat.lt_of_lt_of_le hi g.next)).trans (g.cls i hi)
  new i h1 h2 := by
    by_cases hb : i < b.next
    · rcases g.new i h1 hb with h | ⟨q, hq, h⟩
      · exact .inl ((k.loose hb).2 h)
      · exact .inr ⟨q, Nat.lt_of_lt_of_le hq k.next, k.kids q hq i h⟩
    · exact k.new i (Nat.le_of_not_lt hb) h2

instance : Pre Grow := ⟨Grow.refl, Grow.trans⟩

/-- Only tables and lists that no clause mentions differ. -/
theorem Grow.same {s s' : St} (hn : s'.next = s.next) (hh : ∀ i, (s'.heap i).children = (s.heap i).children ∧ (s'.heap i).pt = (s.heap i).pt ∧
    (s'.heap i).rt = (s.heap i).rt ∧ (s'.heap i).cls = (s.heap i).cls) : Grow s s' where
  next := Nat.le_of_eq hn.symm
  kids i _ c h := by rw [(hh i).1]; exact h
  pt i _ := (hh i).2.1
  rt i _ := (hh i).2.2.1
  cls i _ := (hh i).2.2.2
  new i h k := by rw [hn] at k; exact absurd k (Nat.not_lt.2 h)

theorem Grow.set {s : St} {i : Nat} {o : Obj} (h : o.children = (s.heap i).children ∧ o.pt = (s.heap i).pt ∧ o.rt = (s.heap i).rt ∧
    o.cls = (s.heap i).cls) : Grow s (s.setObj i o) := by
  refine .same rfl fun j => ?_
  rw [heap_setObj]; split
  · next e => subst e; exact h
  · exact ⟨rfl, rfl, rfl, rfl⟩

theorem Grow.attach {s : St} {t c : Nat} : Grow s (s.setObj t { s.heap t with children := (s.heap t).children ++ [c] }) := by
  refine ⟨Nat.le_refl _, ?_, ?_, ?_, ?_, fun _ h k => absurd k (Nat.not_lt.2 h)⟩
  · intro i _ d h
    rw [heap_setObj]; split
    · next e => subst e; exact List.mem_append_left _ h
    · exact h
  all_goals
    intro i _; rw [heap_setObj]; split
    · next e => subst e; rfl
    · rfl

/-- A computation that, if it returns, only grows a state with at least `n` objects. -/
def Gr {α : Type} (n : Nat) (m : M α) : Prop := ∀ s, n ≤ s.next → wp m (fun _ s' => Grow s s') (fun _ _ => True) s

namespace Gr
variable {α β : Type} {n : Nat}
theorem up {k : Nat} {m : M α} (h : Gr n m) (hk : n ≤ k) : Gr k m := fun s hs => h s (Nat.le_trans hk hs)
theorem pure (a : α) : Gr n (Pure.pure a : M α) := fun s _ => Grow.refl s
theorem mpure (a : α) : Gr n (M.pure a : M α) := fun s _ => Grow.refl s
theorem raise (e : Err) : Gr n (M.raise e : M α) := fun _ _ => trivial
theorem bind {m : M α} {f : α → M β} (hm : Gr n m) (hf : ∀ a, Gr n (f a)) : Gr n (m >>= f) := by
  intro s hs
  rw [wp_bind]
  refine wp_mono (hm s hs) ?_ (fun _ _ _ => trivial)
  intro a s' g
  exact wp_mono (hf a s' (Nat.le_trans hs g.next)) (fun _ s'' k => g.trans k) fun _ _ h => h
theorem get {f : St → M β} (hf : ∀ s, n ≤ s.next → wp (f s) (fun _ s' => Grow s s') (fun _ _ => True) s) : Gr n (M.get >>= f) := hf
theorem get' {f : St → M β} (hf : ∀ s, Gr n (f s)) : Gr n (M.get >>= f) := fun s => hf s s
theorem obj {i : Nat} {f : Obj → M β} (hf : ∀ o, Gr n (f o)) : Gr n (Metatab.obj i >>= f) := fun s => hf _ s
theorem lift (f : St → Except Err α) : Gr n (M.lift f) := by
  intro s _; rw [wp_lift]; exact ⟨fun _ _ => Grow.refl s, fun _ _ => trivial⟩
theorem assert (b : Bool) : Gr n (M.assert b) := by
  intro s _; rw [wp_assert]; exact ⟨fun _ => Grow.refl s, fun _ => trivial⟩
theorem ite {c : Prop} [Decidable c] {m k : M α} (hm : Gr n m) (hk : Gr n k) : Gr n (if c then m else k) := by split <;> assumption
theorem upd {i : Nat} {f : Obj → Obj} (h : ∀ o, (f o).children = o.children ∧ (f o).pt = o.pt ∧ (f o).rt = o.rt ∧ (f o).cls = o.cls) :
    Gr n (Metatab.upd i f) := fun _ _ => Grow.set (h _)
theorem forL {f : α → M Unit} (h : ∀ a, Gr n (f a)) (l : List α) : Gr n (forL f l) := by
  induction l with
  | nil => exact pure ()
  | cons a l ih => exact bind (h a) fun _ => ih
theorem drop {m : M α} (h : Gr n m) : Gr n (do let _ ← m) := bind h fun _ => mpure _
end Gr

variable {n : Nat}

theorem gr_setTvn (t : Nat) (v : Str) : Gr n (setTvn t v) := by
  unfold setTvn
  exact .ite (.raise _) (.upd fun _ => ⟨rfl, rfl, rfl, rfl⟩)

theorem gr_addSection (x : Nat) : Gr n (addSection x) := by
  unfold addSection
  refine .obj fun o => .bind (.assert _) fun _ => ?_
  split
  · refine .get' fun s => ?_
    split
    · exact .pure _
    · exact .bind (fun s _ => .same rfl fun _ => ⟨rfl, rfl, rfl, rfl⟩) fun _ => .pure _
  · exact .raise _

theorem gr_setOwnershipF : ∀ f t, Gr n (setOwnershipF f t)
  | 0, _ => .raise _
  | f + 1, t => by
    unfold setOwnershipF
    refine .obj fun o => .bind (.assert _) fun _ => .forL (fun c => ?_) _
    exact .bind (.upd fun _ => ⟨rfl, rfl, rfl, rfl⟩) fun _ => gr_setOwnershipF f c

theorem gr_setOwnership (t : Nat) : Gr n (setOwnership t) := .get' fun s => gr_setOwnershipF _ t

theorem gr_addTermFinish (t : Nat) : Gr n (addTermFinish t) := by
  unfold addTermFinish
  refine .get' fun s => ?_
  dsimp only
  have fin : Gr n (match (s.heap t).sec with
    | none => M.raise .attributeError
    | some x => if (s.heap t).tvn = [] ∨ (s.heap t).tvn = (s.heap x).defTvn then
        setTvn t (declProp s.declTerms (s.heap t).join (py!"termvaluename") (s.heap x).defTvn) else pure ()) := by
    split
    · exact .raise _
    · exact .ite (gr_setTvn _ _) (.pure _)
  exact .ite (.bind (.upd fun _ => ⟨rfl, rfl, rfl, rfl⟩) fun _ => fin) fin

theorem gr_docAddTermCore (t : Nat) : Gr n (docAddTermCore t) := by
  unfold docAddTermCore
  refine .get' fun s => .ite (.pure _) (.bind (.assert _) fun _ => ?_)
  exact .ite (.bind (gr_addSection t) fun _ => gr_addTermFinish t)
    (.bind (fun s _ => .same rfl fun _ => ⟨rfl, rfl, rfl, rfl⟩) fun _ => gr_addTermFinish t)

theorem gr_sectionAddTerm (x t : Nat) : Gr n (sectionAddTerm x t) := by
  unfold sectionAddTerm
  refine .get' fun s => ?_
  dsimp only
  have fin : Gr n (do let o ← obj t; M.assert (decide (o.sec.isSome = true ∨ o.joinLc = py!"root.root"))) := .obj fun _ => .assert _
  refine .ite (.ite ?_ (.raise _)) fin
  refine .bind (.upd fun _ => ⟨rfl, rfl, rfl, rfl⟩) fun _ => .bind (gr_docAddTermCore t) fun _ => .bind (gr_setOwnership t) fun _ => fin

/-- A new object, not yet attached. -/
structure NewObj (s s' : St) (i : Nat) : Prop where
  eq : i = s.next
  next : s'.next = s.next + 1
  old : ∀ j, j ≠ i → s'.heap j = s.heap j

theorem wp_newTermObj {cls : Cls} {term : Str} {value : Val} {args : List Str} {parent sec : Option Nat} {col : Nat} {isDecl : Bool} {s : St} :
    wp (newTermObj cls term value args parent sec col isDecl) (fun i s' => NewObj s s' i ∧ (s'.heap i).cls = cls ∧
      (parent = none → splitTermLower term = .ok ((s'.heap i).pt, (s'.heap i).rt))) (fun _ _ => True) s := by
  unfold newTermObj
  rw [wp_bind, wp_lift]
  refine ⟨fun ⟨p, r⟩ e => ?_, fun _ _ => trivial⟩
  have key : ∀ o, NewObj s ({ s with next := s.next + 1 }.setObj s.next o) s.next := by
    intro o
    refine ⟨rfl, rfl, fun j hj => ?_⟩
    rw [heap_setObj, if_neg hj]
  cases parent with
  | none =>
    dsimp only
    rw [wp_alloc]
    refine ⟨key _, ?_, fun _ => ?_⟩
    · rw [heap_setObj, if_pos rfl]
    · rw [heap_setObj, if_pos rfl]; exact e
  | some q =>
    dsimp only
    rw [wp_bind, wp_obj, wp_bind, wp_assert]
    refine ⟨fun _ => ?_, fun _ => trivial⟩
    rw [wp_alloc]
    refine ⟨key _, ?_, fun h => by cases h⟩
    rw [heap_setObj, if_pos rfl]

theorem wp_construct {cls : Cls} {term : Str} {value : Val} {parent sec : Option Nat} {s : St} (h : parent.isSome ∨ sec.isSome) :
    wp (construct cls term value parent sec) (fun i s' => NewObj s s' i ∧
      (parent = none → splitTermLower term = .ok ((s'.heap i).pt, (s'.heap i).rt))) (fun _ _ => True) s := by
  unfold construct
  cases cls with
  | term => exact wp_mono wp_newTermObj (fun _ _ h => ⟨h.1, h.2.2⟩) fun _ _ h => h
  | user n => exact wp_mono wp_newTermObj (fun _ _ h => ⟨h.1, h.2.2⟩) fun _ _ h => h
  | «section» =>
    dsimp only
    rw [if_pos h, wp_bind, wp_lift]
    exact ⟨fun _ _ => trivial, fun _ _ => trivial⟩
  | root => exact trivial

/-- A new object that ends up attached or needs no parent. -/
theorem NewObj.grow {s s' s'' : St} {i : Nat} (n : NewObj s s' i) (g : Grow s' s'')
    (h : Loose (s''.heap i) ∨ ∃ q, q < s''.next ∧ i ∈ (s''.heap q).children) : Grow s s'' := by
  have hlt : ∀ j, j < s.next → j < s'.next := fun j hj => by rw [n.next]; exact Nat.lt_succ_of_lt hj
  have old : ∀ j, j < s.next → s'.heap j = s.heap j := fun j hj => n.old j fun e => by rw [e, n.eq] at hj; exact Nat.lt_irrefl _ hj
  refine ⟨Nat.le_trans (by rw [n.next]; exact Nat.le_succ _) g.next, ?_, ?_, ?_, ?_, ?_⟩
  · intro j hj c hc
    exact g.kids j (hlt j hj) c (by rw [old j hj]; exact hc)
  · intro j hj; rw [g.pt j (hlt j hj), old j hj]
  · intro j hj; rw [g.rt j (hlt j hj), old j hj]
  · intro j hj; rw [g.cls j (hlt j hj), old j hj]
  · intro j h1 h2
    by_cases e : j = i
    · subst e; exact h
    · refine g.new j ?_ h2
      rw [n.next]
      have := n.eq
      omega

theorem gr_newChildren_nil (t : Nat) : Gr n (newChildren t []) := .mpure _

theorem gr_getOrNewChild0 {t : Nat} (ht : t < n) (term : Str) (value : Val) : Gr n (getOrNewChild0 t term value) := by
  unfold getOrNewChild0
  refine .get fun s hs => ?_
  rw [wp_ite]
  refine ⟨fun _ => trivial, fun _ => ?_⟩
  rw [wp_bind, wp_lift]
  refine ⟨fun ⟨_, rt⟩ _ => ?_, fun _ _ => trivial⟩
  dsimp only
  have fin : ∀ c s', Grow s s' → wp (do
        let s ← M.get
        M.assert (decide (childNamed s t rt .fls = some c))
        pure c) (fun _ s'' => Grow s s'') (fun _ _ => True) s' := by
    intro c s' g
    rw [wp_bind, wp_get, wp_bind, wp_assert]
    exact ⟨fun _ => g, fun _ => trivial⟩
  cases hc : childNamed s t rt .fls with
  | none =>
    dsimp only
    rw [wp_bind]
    refine wp_mono (wp_construct (.inl rfl)) ?_ fun _ _ _ => trivial
    intro c s' ⟨nw, _⟩
    rw [wp_bind, wp_obj, wp_bind, wp_assert]
    refine ⟨fun _ => ?_, fun _ => trivial⟩
    rw [wp_bind, wp_upd, wp_bind, wp_pure]
    refine fin c _ (nw.grow .attach (.inr ⟨t, ?_, ?_⟩))
    · show t < s'.next
      rw [nw.next]; omega
    · rw [heap_setObj, if_pos rfl]; exact List.mem_append_right _ List.mem_cons_self
  | some c =>
    dsimp only
    rw [wp_ite]
    refine ⟨fun _ => ?_, fun _ => ?_⟩
    · rw [wp_bind, wp_upd, wp_bind, wp_pure]
      exact fin c _ (.set ⟨rfl, rfl, rfl, rfl⟩)
    · rw [wp_bind, wp_pure]; exact fin c s (.refl s)

theorem gr_setItemSome {t : Nat} (ht : t < n) (item : Str) (value : Val) : Gr n (setItemSome t item value) := by
  unfold setItemSome
  refine .obj fun o => .ite (.upd fun _ => ⟨rfl, rfl, rfl, rfl⟩) ?_
  exact .bind (gr_getOrNewChild0 ht item value) fun _ => .bind (.lift _) fun _ => .obj fun _ => .assert _

theorem gr_setSectionTerm {t : Nat} (ht : t < n) (v : Nat) : Gr n (setSectionTerm t v) := by
  unfold setSectionTerm
  exact .get' fun s => .ite (.upd fun _ => ⟨rfl, rfl, rfl, rfl⟩) (.ite (gr_setItemSome ht _ _) (.upd fun _ => ⟨rfl, rfl, rfl, rfl⟩))

theorem gr_docAddTerm {t : Nat} (ht : t < n) : Gr n (docAddTerm t) := by
  unfold docAddTerm
  refine .get' fun s => .ite (.pure _) (.bind (.assert _) fun _ => ?_)
  dsimp only
  have fin : Gr n (match (s.heap t).sec with
      | some x => if lower (s.heap t).pt = ROOT then do
          let y ← addSection x
          setSectionTerm t y
          let o ← obj t
          match o.sec with
          | some z => do
            sectionAddTerm z t
            addTermFinish t
          | none => do
            M.raise .attributeError
            addTermFinish t
        else addTermFinish t
      | none => addTermFinish t) := by
    split
    · refine .ite ?_ (gr_addTermFinish t)
      refine .bind (gr_addSection _) fun y => .bind (gr_setSectionTerm ht y) fun _ => .obj fun o => ?_
      split
      · exact .bind (gr_sectionAddTerm _ _) fun _ => gr_addTermFinish t
      · exact .bind (.raise _) fun _ => gr_addTermFinish t
    · exact gr_addTermFinish t
  exact .ite (.bind (gr_addSection t) fun _ => fin) (.bind (fun s _ => .same rfl fun _ => ⟨rfl, rfl, rfl, rfl⟩) fun _ => fin)

/-- A new term called `Section`. -/
theorem gr_newTerm_section (x : Nat) (value : Val) : Gr n (newTerm x (py!"section") value []) := by
  unfold newTerm
  refine .get fun s hs => ?_
  rw [wp_bind]
  refine wp_mono (wp_construct (.inr rfl)) ?_ fun _ _ _ => trivial
  intro c s' ⟨nw, nm⟩
  rw [wp_bind]
  show wp (do docAddTerm c; pure c) _ _ s'
  rw [wp_bind]
  refine wp_mono ((gr_docAddTerm (n := c + 1) (Nat.lt_succ_self c)) s' (by rw [nw.next, nw.eq]; exact Nat.le_refl _)) ?_ fun _ _ _ => trivial
  intro _ s'' g
  rw [wp_pure]
  refine nw.grow g (.inl ?_)
  have hc : c < s'.next := by rw [nw.next, nw.eq]; exact Nat.lt_succ_self _
  rw [g.loose hc]
  have e := nm rfl
  have : splitTermLower (py!"section") = .ok (py!"root", py!"section") := by decide
  rw [this] at e
  injection e with e
  injection e with e1 e2
  right; right
  unfold Obj.joinLc
  rw [← e1, ← e2]
  decide

theorem gr_getOrNewTerm_section (x : Nat) (value : Val) : Gr n (getOrNewTerm x (py!"section") value []) := by
  unfold getOrNewTerm
  refine .bind (.lift _) fun a => ?_
  cases a with
  | none => exact gr_newTerm_section x value
  | some t =>
    dsimp only
    exact .ite (.bind (.upd fun _ => ⟨rfl, rfl, rfl, rfl⟩) fun _ => .bind (.mpure ()) fun _ => .pure _) (.bind (.mpure ()) fun _ => .pure _)

theorem gr_setSection_some {t : Nat} (ht : t < n) (v : Nat) : Gr n (setSection t (some v)) := by
  unfold setSection
  refine .get' fun s => ?_
  dsimp only
  refine .ite (.upd fun _ => ⟨rfl, rfl, rfl, rfl⟩) (.ite ?_ (.upd fun _ => ⟨rfl, rfl, rfl, rfl⟩))
  unfold setItemAny
  refine .obj fun o => .ite (.bind (gr_getOrNewTerm_section _ _) fun _ => .mpure _) ?_
  unfold setItem
  refine .obj fun o => ?_
  rw [if_neg (by rintro ⟨h, _⟩; cases h)]
  exact gr_setItemSome ht _ _

theorem gr_setSection_none {t : Nat} : ∀ s, (s.heap t).cls.isSection = true →
    wp (setSection t none) (fun _ s' => Grow s s') (fun _ _ => True) s := by
  intro s hs
  unfold setSection
  rw [wp_bind, wp_get]
  dsimp only
  rw [wp_ite]
  refine ⟨fun _ => .set ⟨rfl, rfl, rfl, rfl⟩, fun _ => ?_⟩
  rw [wp_ite]
  refine ⟨fun _ => ?_, fun _ => .set ⟨rfl, rfl, rfl, rfl⟩⟩
  unfold setItemAny
  rw [wp_bind, wp_obj, if_pos hs]
  exact (Gr.bind (n := 0) (gr_getOrNewTerm_section t .none) fun _ => .mpure ()) s (Nat.zero_le _)

/-- Every object from `m` on, except perhaps one, is attached or needs no parent. -/
def AttBut (m : Nat) (x : Option Nat) (s : St) : Prop :=
  ∀ i, m ≤ i → i < s.next → some i ≠ x → Loose (s.heap i) ∨ ∃ q, q < s.next ∧ i ∈ (s.heap q).children

theorem AttBut.grow {m : Nat} {x : Option Nat} {s s' : St} (h : AttBut m x s) (g : Grow s s') : AttBut m x s' := by
  intro i hm hi hx
  by_cases hb : i < s.next
  · rcases h i hm hb hx with h | ⟨q, hq, h⟩
    · exact .inl ((g.loose hb).2 h)
    · exact .inr ⟨q, Nat.lt_of_lt_of_le hq g.next, g.kids q hq i h⟩
  · exact g.new i (Nat.le_of_not_lt hb) hi

/-- The exception itself turns out to be attached or to need no parent. -/
theorem AttBut.full {m t : Nat} {s : St} (h : AttBut m (some t) s) (ht : Loose (s.heap t) ∨ ∃ q, q < s.next ∧ t ∈ (s.heap q).children) :
    AttBut m none s := by
  intro i hm hi _
  by_cases e : i = t
  · rw [e]; exact ht
  · exact h i hm hi fun e' => e (by injection e')

theorem AttBut.rename {m t : Nat} {s : St} {p r : Str} (h : AttBut m (some t) s) :
    AttBut m (some t) (s.setObj t { s.heap t with pt := p, rt := r }) := by
  intro i hm hi hx
  have hne : i ≠ t := fun e => hx (by rw [e])
  have kids : ∀ q, ((s.setObj t { s.heap t with pt := p, rt := r }).heap q).children = (s.heap q).children := by
    intro q; rw [heap_setObj]; split
    · next e => rw [e]
    · rfl
  rcases h i hm hi hx with h | ⟨q, hq, h⟩
  · left; rw [heap_setObj, if_neg hne]; exact h
  · exact .inr ⟨q, hq, by rw [kids]; exact h⟩

variable {m : Nat}

theorem wp_addChildP {q t : Nat} {s : St} (h : AttBut m (some t) s) (hq : q < s.next) :
    wp (addChild q t) (fun _ s' => AttBut m none s' ∧ s.next ≤ s'.next) (fun _ _ => True) s := by
  unfold addChild
  rw [wp_bind, wp_upd, wp_bind, wp_upd, wp_bind, wp_obj, wp_assert]
  refine ⟨fun _ => ?_, fun _ => trivial⟩
  have g : Grow s ((s.setObj q { s.heap q with children := (s.heap q).children ++ [t] }).setObj t
      { (s.setObj q { s.heap q with children := (s.heap q).children ++ [t] }).heap t with parent := some q }) :=
    Grow.attach.trans (.set ⟨rfl, rfl, rfl, rfl⟩)
  refine ⟨(h.grow g).full (.inr ⟨q, hq, ?_⟩), g.next⟩
  have : t ∈ ((s.setObj q { s.heap q with children := (s.heap q).children ++ [t] }).heap q).children := by
    rw [heap_setObj, if_pos rfl]; exact List.mem_append_right _ List.mem_cons_self
  rw [heap_setObj]; split
  · next e => rw [e] at this ⊢; exact this
  · exact this

theorem wp_placeTerm {t : Nat} {s : St} (w : WF False s) (ht : t < s.next) (h : AttBut m (some t) s) :
    wp (placeTerm t) (fun _ s' => AttBut m none s' ∧ s.next ≤ s'.next) (fun _ _ => True) s := by
  have att : ∀ (d : Dict Nat) name e s', s'.p.lastMap = d → (∀ kv ∈ d, kv.2 < s'.next) → AttBut m (some t) s' →
      wp (attach name e t) (fun _ s'' => AttBut m none s'' ∧ s'.next ≤ s''.next) (fun _ _ => True) s' := by
    intro d name e s' hd hlt ha
    unfold attach
    rw [wp_bind, wp_get, hd]
    split
    · next q hq => exact wp_addChildP ha (hlt _ (Dict.mem_of_get? hq))
    · exact trivial
  unfold placeTerm
  rw [wp_bind, wp_get]
  dsimp only
  rw [wp_ite]
  refine ⟨fun _ => ?_, fun _ => ?_⟩
  · rw [wp_bind, wp_upd]
    exact att s.p.lastMap _ _ _ rfl w.pMap h.rename
  · rw [wp_ite]
    refine ⟨fun _ => att s.p.lastMap _ _ _ rfl w.pMap h, fun _ => ?_⟩
    unfold updP
    rw [wp_bind, wp_modify]
    refine att ((s.p.lastMap.set ELIDED t).set (s.heap t).rt t) _ _ _ rfl ?_ h
    intro kv hkv
    have : ∀ (d : Dict Nat) k, (∀ kv ∈ d, kv.2 < s.next) → ∀ kv ∈ d.set k t, kv.2 < s.next := by
      intro d k hd kv
      induction d with
      | nil => intro h; simp [Dict.set] at h; rw [h]; exact ht
      | cons a d ih =>
        obtain ⟨a1, a2⟩ := a
        unfold Dict.set
        split
        · intro h
          rcases List.mem_cons.1 h with rfl | h
          · exact ht
          · exact hd _ (List.mem_cons_of_mem _ h)
        · intro h
          rcases List.mem_cons.1 h with rfl | h
          · exact hd _ List.mem_cons_self
          · exact ih (fun kv hk => hd kv (List.mem_cons_of_mem _ hk)) h
    exact this _ _ (this _ _ w.pMap) kv hkv

theorem gr_applyDecl (t : Nat) : Gr n (applyDecl t) := by
  unfold applyDecl
  refine .get' fun s => ?_
  dsimp only
  exact .bind (.upd fun _ => ⟨rfl, rfl, rfl, rfl⟩) fun _ => .bind (gr_setTvn _ _) fun _ => .upd fun _ => ⟨rfl, rfl, rfl, rfl⟩

theorem gr_manageDeclare (t : Nat) : Gr n (manageDeclare t) := by
  intro s _
  refine wp_mono ((pres_manageDeclare t).wp s) ?_ fun _ _ _ => trivial
  rintro _ s' ⟨dt, ds, rfl⟩
  exact .same rfl fun _ => ⟨rfl, rfl, rfl, rfl⟩

end Metatab
