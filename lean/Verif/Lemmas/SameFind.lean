import Verif.Props.Items
/-! Changes to a document that do not affect searches for root-level terms. -/
namespace Metatab
open Py Spec

/-- The second state has the same root-level terms and sections as the first, with the same names. -/
structure SameFind (s s' : St) : Prop where
  terms : s'.terms = s.terms
  derived : s'.derived = s.derived
  sections : s'.sections = s.sections
  env : s'.env = s.env
  next : s.next ≤ s'.next
  cls : ∀ x, x < s.next → (s'.heap x).cls = (s.heap x).cls
  names : ∀ t, t < s.next → (s'.heap t).pt = (s.heap t).pt ∧ (s'.heap t).rt = (s.heap t).rt ∧ (s'.heap t).sec = (s.heap t).sec
  secs : ∀ x, x < s.next → (s.heap x).cls.isSection = true → (s'.heap x).value = (s.heap x).value

theorem SameFind.refl (s : St) : SameFind s s :=
  ⟨rfl, rfl, rfl, rfl, Nat.le_refl _, fun _ _ => rfl, fun _ _ => ⟨rfl, rfl, rfl⟩, fun _ _ _ => rfl⟩

theorem SameFind.trans {a b c : St} (h : SameFind a b) (k : SameFind b c) : SameFind a c where
  terms := k.terms.trans h.terms
  derived := k.derived.trans h.derived
  sections := k.sections.trans h.sections
  env := k.env.trans h.env
  next := Nat.le_trans h.next k.next
  cls x hx := (k.cls x (Nat.lt_of_lt_of_le hx h.next)).trans (h.cls x hx)
  names t ht := by
    obtain ⟨a1, a2, a3⟩ := h.names t ht
    obtain ⟨b1, b2, b3⟩ := k.names t (Nat.lt_of_lt_of_le ht h.next)
    exact ⟨b1.trans a1, b2.trans a2, b3.trans a3⟩
  secs x hx hc := (k.secs x (Nat.lt_of_lt_of_le hx h.next) (by rw [h.cls x hx]; exact hc)).trans (h.secs x hx hc)

theorem sameFind_value {s : St} {c : Nat} (hc : (s.heap c).cls.isSection = false) (v : Val) : SameFind s (withValue s c v) := by
  refine ⟨rfl, rfl, rfl, rfl, Nat.le_refl _, fun x _ => ?_, fun t _ => ?_, fun x _ hx => ?_⟩
  · unfold withValue; simp only; split
    · next e => rw [e]
    · rfl
  · unfold withValue; simp only; split
    · next e => rw [e]; exact ⟨rfl, rfl, rfl⟩
    · exact ⟨rfl, rfl, rfl⟩
  · unfold withValue; simp only; rw [if_neg]
    intro e; rw [e, hc] at hx; cases hx

theorem sameFind_child {s : St} (t : Nat) (o : Obj) : SameFind s (withChild s t o) := by
  have key : ∀ x, x < s.next → (withChild s t o).heap x = if x = t then { s.heap t with children := (s.heap t).children ++ [s.next] } else s.heap x := by
    intro x hx; rw [withChild_heap, if_neg (by omega)]
  refine ⟨rfl, rfl, rfl, rfl, Nat.le_succ _, fun x hx => ?_, fun x hx => ?_, fun x hx _ => ?_⟩ <;> rw [key x hx] <;> split
  all_goals first
    | exact ⟨rfl, rfl, rfl⟩
    | rfl
    | (next e => rw [e]; exact ⟨rfl, rfl, rfl⟩)
    | (next e => rw [e])

theorem filterE_congr {α : Type} {p q : α → Except Err Bool} {l : List α} (h : ∀ a ∈ l, p a = q a) : filterE p l = filterE q l := by
  induction l with
  | nil => rfl
  | cons a l ih => rw [filterE, filterE, h a List.mem_cons_self, ih fun b hb => h b (List.mem_cons_of_mem _ hb)]

theorem filterE_mem {α : Type} {p : α → Except Err Bool} {l r : List α} (h : filterE p l = .ok r) : ∀ a ∈ r, a ∈ l ∧ p a = .ok true := by
  induction l generalizing r with
  | nil => cases h; simp
  | cons b l ih =>
    rw [filterE] at h
    cases hb : p b with
    | error e => rw [hb] at h; cases h
    | ok t =>
      cases hl : filterE p l with
      | error e => rw [hb, hl] at h; cases h
      | ok r' =>
        rw [hb, hl] at h
        have := ih hl
        have e : r = if t = true then b :: r' else r' := by cases h; rfl
        subst e
        intro a ha
        cases t with
        | true =>
          rcases List.mem_cons.1 ha with rfl | ha
          · exact ⟨List.mem_cons_self, hb⟩
          · exact ⟨List.mem_cons_of_mem _ (this a ha).1, (this a ha).2⟩
        | false => exact ⟨List.mem_cons_of_mem _ (this a ha).1, (this a ha).2⟩

theorem findTest_same' {s s' : St} {t : Nat} (hn : (s'.heap t).pt = (s.heap t).pt ∧ (s'.heap t).rt = (s.heap t).rt ∧ (s'.heap t).sec = (s.heap t).sec)
    (hv : ∀ x, (s.heap t).sec = some x → (s'.heap x).value = (s.heap x).value) (term : Str) (sec : Option (List Str)) :
    findTest s' term .fls sec t = findTest s term .fls sec t := by
  obtain ⟨h1, h2, h3⟩ := hn
  have hi : inSection s' t sec = inSection s t sec := by
    cases sec with
    | none => rfl
    | some l =>
      unfold inSection
      rw [h3]
      cases hs : (s.heap t).sec with
      | none => rfl
      | some x =>
        simp only [sectionNameLower, hv x hs]
  unfold findTest
  simp only [Obj.joinLc, h1, h2, h3, hi]
  rfl

theorem findTest_same {s s' : St} {F : Prop} (w : WF F s) (h : SameFind s s') {t : Nat} (ht : t < s.next) (term : Str) (sec : Option (List Str)) :
    findTest s' term .fls sec t = findTest s term .fls sec t :=
  findTest_same' (h.names t ht) (fun x hx => h.secs x (w.secLt t x hx).1 (w.secLt t x hx).2) term sec

/-- A search for a root-level name without derived names finds the same. -/
theorem find_same {s s' : St} {F : Prop} (w : WF F s) (h : SameFind s s') {term : Str} (hr : startsWith (py!"root.") (lower term) = true)
    (hd : s.derived.get? (lower term) = none) (sec : Option (List Str)) : find s' term .fls sec = find s term .fls sec := by
  have hdot : ¬ '.' ∉ lower term := by
    intro hn
    unfold startsWith at hr
    rw [List.isPrefixOf_iff_prefix] at hr
    obtain ⟨r, hr⟩ := hr
    rw [← hr] at hn
    simp at hn
  unfold find
  rw [h.derived, hd]
  simp only [findOne, if_neg hdot, hr, if_true, h.terms, bind, Except.bind]
  exact filterE_congr fun t ht => findTest_same w h (w.termsLt t ht).1 _ _

/-- What is found has the name searched for. -/
theorem find_name {s : St} {A B : Str} (hA : PlainPart A) (hB : PlainPart B) (hl : lower A = py!"root") (hb : B ≠ py!"*")
    (hd : s.derived.get? (lower (dotJoin A B)) = none) {sec : Option (List Str)} {l : List Nat}
    (h : find s (dotJoin A B) .fls sec = .ok l) : ∀ t ∈ l, t ∈ s.terms ∧ lower (s.heap t).pt = py!"root" ∧ lower (s.heap t).rt = lower B := by
  intro t ht
  have hdot : ¬ '.' ∉ lower (dotJoin A B) := by rw [not_not, dot_mem_lower]; simp [dotJoin]
  have hr := (startsWith_root (A := A) (B := B) hA.nodot).2 hl
  unfold find at h
  rw [hd] at h
  simp only [findOne, if_neg hdot, hr, if_true, bind, Except.bind] at h
  obtain ⟨m, p⟩ := filterE_mem h t ht
  refine ⟨m, ?_⟩
  unfold findTest at p
  simp only [pure, Except.pure] at p
  split at p
  · cases p
  · split at p
    · cases p
    · have hlow : lower (dotJoin A B) = lower A ++ '.' :: lower B := by simp [dotJoin]; decide
      have lowPlain : ∀ {a : Str}, PlainPart a → PlainPart (lower a) := fun h => ⟨by simpa using h.nodot, by simpa using h.nonempty, by
        rw [strip_lower, h.stripped]⟩
      rw [hlow, C02_qualified _ _ (lowPlain hA) (lowPlain hB)] at p
      simp only [bind, Except.bind] at p
      split at p
      · cases p
      · next hn =>
        have hm : PartMatches (lower A) (s.heap t).pt ∧ PartMatches (lower B) (s.heap t).rt := by
          by_contra hc
          exact hn (by simp [hc])
        unfold PartMatches at hm
        obtain ⟨h1, h2⟩ := hm
        constructor
        · rcases h1 with h1 | h1
          · rw [hl] at h1; cases h1
          · rw [lower_lower, hl] at h1; exact h1.symm
        · rcases h2 with h2 | h2
          · exact absurd (plain_star_lower.1 h2) hb
          · rw [lower_lower] at h2; exact h2.symm

theorem filterE_append {α : Type} (p : α → Except Err Bool) (l m : List α) :
    filterE p (l ++ m) = (do let a ← filterE p l; let b ← filterE p m; return a ++ b) := by
  induction l with
  | nil =>
    show filterE p m = (filterE p m >>= fun b => pure ([] ++ b))
    cases filterE p m <;> rfl
  | cons a l ih =>
    rw [List.cons_append, filterE, filterE, ih]
    cases p a with
    | error e => rfl
    | ok t =>
      cases filterE p l with
      | error e => rfl
      | ok l' =>
        cases filterE p m with
        | error e => rfl
        | ok m' => cases t <;> rfl

/-- Only values of objects that are not sections differ. -/
structure OnlyValues (s s' : St) : Prop where
  same : { s' with heap := s.heap } = s
  obj : ∀ j, s'.heap j = { s.heap j with value := (s'.heap j).value }
  secs : ∀ j, (s.heap j).cls.isSection = true → (s'.heap j).value = (s.heap j).value

theorem OnlyValues.refl (s : St) : OnlyValues s s := ⟨rfl, fun _ => rfl, fun _ _ => rfl⟩

theorem OnlyValues.trans {a b c : St} (h : OnlyValues a b) (k : OnlyValues b c) : OnlyValues a c where
  same := by rw [← h.same, ← k.same]
  obj j := by rw [k.obj j, h.obj j]
  secs j hj := by
    have : (b.heap j).cls = (a.heap j).cls := by rw [h.obj j]
    exact (k.secs j (by rw [this]; exact hj)).trans (h.secs j hj)

theorem onlyValues_value {s : St} {c : Nat} (hc : (s.heap c).cls.isSection = false) (v : Val) : OnlyValues s (withValue s c v) := by
  refine ⟨rfl, fun j => ?_, fun j hj => ?_⟩
  · unfold withValue; simp only; split
    · next e => rw [e]
    · rfl
  · unfold withValue; simp only; rw [if_neg]
    intro e; rw [e, hc] at hj; cases hj

theorem OnlyValues.field {s s' : St} (h : OnlyValues s s') : s'.terms = s.terms ∧ s'.sections = s.sections ∧ s'.derived = s.derived ∧ s'.env = s.env ∧
    s'.next = s.next ∧ s'.declTerms = s.declTerms ∧ s'.classes = s.classes ∧ s'.superTerms = s.superTerms := by
  rw [← h.same]; exact ⟨rfl, rfl, rfl, rfl, rfl, rfl, rfl, rfl⟩

theorem OnlyValues.sameFind {s s' : St} (h : OnlyValues s s') : SameFind s s' := by
  obtain ⟨h1, h2, h3, h4, h5, -, -⟩ := h.field
  refine ⟨h1, h3, h2, h4, Nat.le_of_eq h5.symm, fun x _ => by rw [h.obj x], fun t _ => by rw [h.obj t]; exact ⟨rfl, rfl, rfl⟩, fun x _ hx => h.secs x hx⟩

theorem mapM_congrE {α β : Type} {f g : α → Except Err β} : ∀ {l : List α}, (∀ a ∈ l, f a = g a) → l.mapM f = l.mapM g
  | [], _ => rfl
  | a :: l, h => by
    rw [List.mapM_cons, List.mapM_cons, h a List.mem_cons_self, mapM_congrE fun b hb => h b (List.mem_cons_of_mem _ hb)]

theorem mapM_rel {α β γ δ : Type} {f : α → Except Err β} {g : α → Except Err γ} {p : β → δ} {q : γ → δ} :
    ∀ {l : List α}, (∀ a ∈ l, (f a).map p = (g a).map q) → (l.mapM f).map (List.map p) = (l.mapM g).map (List.map q)
  | [], _ => rfl
  | a :: l, h => by
    have h1 := h a List.mem_cons_self
    have h2 := mapM_rel (l := l) fun b hb => h b (List.mem_cons_of_mem _ hb)
    rw [List.mapM_cons, List.mapM_cons]
    cases hf : f a with
    | error e =>
      rw [hf] at h1
      cases hg : g a with
      | error e' => rw [hg] at h1; cases h1; rfl
      | ok y => rw [hg] at h1; cases h1
    | ok x =>
      rw [hf] at h1
      cases hg : g a with
      | error e' => rw [hg] at h1; cases h1
      | ok y =>
        rw [hg] at h1
        have e1 : p x = q y := by simpa [Except.map] using h1
        cases hl : l.mapM f with
        | error e =>
          rw [hl] at h2
          cases hm : l.mapM g with
          | error e' => rw [hm] at h2; cases h2; rfl
          | ok ys => rw [hm] at h2; cases h2
        | ok xs =>
          rw [hl] at h2
          cases hm : l.mapM g with
          | error e' => rw [hm] at h2; cases h2
          | ok ys =>
            rw [hm] at h2
            have e2 : xs.map p = ys.map q := by simpa [Except.map] using h2
            show Except.ok ((x :: xs).map p) = Except.ok ((y :: ys).map q)
            rw [List.map_cons, List.map_cons, e1, e2]

theorem descendentsL_ids : ∀ {ks ks' : List Tree}, ks.map (fun k => (k.id, k.descendents)) = ks'.map (fun k => (k.id, k.descendents)) →
    descendentsL ks = descendentsL ks'
  | [], [], _ => rfl
  | [], _ :: _, h => by cases h
  | _ :: _, [], h => by cases h
  | k :: ks, k' :: ks', h => by
    simp only [List.map_cons, List.cons.injEq, Prod.mk.injEq] at h
    rw [descendentsL, descendentsL, h.1.1, h.1.2, descendentsL_ids h.2]

theorem treeF_same {h h' : Nat → Obj} (e : ∀ j, (h' j).children = (h j).children) :
    ∀ f t, (treeF h' f t).map (fun k => (k.id, k.descendents)) = (treeF h f t).map (fun k => (k.id, k.descendents))
  | 0, _ => rfl
  | f + 1, t => by
    have ih := mapM_rel (l := (h t).children) (fun a _ => treeF_same e f a)
    rw [treeF, treeF, e t]
    cases hx : (h t).children.mapM (treeF h' f) with
    | error x =>
      rw [hx] at ih
      cases hy : (h t).children.mapM (treeF h f) with
      | error y => rw [hy] at ih; cases ih; rfl
      | ok ys => rw [hy] at ih; cases ih
    | ok xs =>
      rw [hx] at ih
      cases hy : (h t).children.mapM (treeF h f) with
      | error y => rw [hy] at ih; cases ih
      | ok ys =>
        rw [hy] at ih
        have e2 : xs.map (fun k => (k.id, k.descendents)) = ys.map (fun k => (k.id, k.descendents)) := by simpa [Except.map] using ih
        show Except.ok (t, descendentsL xs) = Except.ok (t, descendentsL ys)
        rw [descendentsL_ids e2]

theorem allTerms_same {s s' : St} (w : WF False s) (h : OnlyValues s s') : allTerms s' = allTerms s := by
  obtain ⟨-, hs, -, -, hn, -, -⟩ := h.field
  have ht : ∀ t, (tree s' t).map Tree.descendents = (tree s t).map Tree.descendents := by
    intro t
    have := treeF_same (h := s.heap) (h' := s'.heap) (fun j => by rw [h.obj j]) (s.next + 1) t
    unfold tree
    rw [hn]
    cases ha : treeF s'.heap (s.next + 1) t with
    | error e =>
      rw [ha] at this
      cases hb : treeF s.heap (s.next + 1) t with
      | error e' => rw [hb] at this; cases this; rfl
      | ok b => rw [hb] at this; cases this
    | ok a =>
      rw [ha] at this
      cases hb : treeF s.heap (s.next + 1) t with
      | error e' => rw [hb] at this; cases this
      | ok b =>
        rw [hb] at this
        have : a.id = b.id ∧ a.descendents = b.descendents := by simpa [Except.map] using this
        show Except.ok a.descendents = Except.ok b.descendents
        rw [this.2]
  have h1 : ∀ x, sectionTerms s' x = sectionTerms s x := by
    intro x
    have hx : (s'.heap x).terms = (s.heap x).terms := by rw [h.obj x]
    unfold sectionTerms
    rw [hx]
    congr 2
    funext t
    have := ht t
    cases ha : tree s' t with
    | error e =>
      rw [ha] at this
      cases hb : tree s t with
      | error e' => rw [hb] at this; cases this; rfl
      | ok b => rw [hb] at this; cases this
    | ok a =>
      rw [ha] at this
      cases hb : tree s t with
      | error e' => rw [hb] at this; cases this
      | ok b =>
        rw [hb] at this
        have : a.descendents = b.descendents := by simpa [Except.map] using this
        show Except.ok (t :: a.descendents) = Except.ok (t :: b.descendents)
        rw [this]
  unfold allTerms
  rw [hs]
  congr 1
  refine mapM_congrE fun kv hkv => ?_
  rw [h1, h.secs kv.2 (w.secsLt kv hkv).2.1]

/-- Any search finds the same if only values of terms differ. -/
theorem find_values {s s' : St} (w : WF False s) (h : OnlyValues s s') (term : Str) (sec : Option (List Str)) :
    find s' term .fls sec = find s term .fls sec := by
  obtain ⟨h1, h2, h3, h4, -, -, -⟩ := h.field
  have ht : ∀ term t, findTest s' term .fls sec t = findTest s term .fls sec t := by
    intro term t
    refine findTest_same' (by rw [h.obj t]; exact ⟨rfl, rfl, rfl⟩) (fun x hx => ?_) term sec
    exact h.secs x (w.secLt t x hx).2
  have ho : ∀ term, findOne s' term .fls sec = findOne s term .fls sec := by
    intro term
    unfold findOne
    simp only [h1, allTerms_same w h, show ∀ term, findTest s' term .fls sec = findTest s term .fls sec from fun term => funext (ht term)]
  unfold find
  rw [h3, h4]
  split
  · unfold findList
    simp only [ho]
  · exact ho term

end Metatab
