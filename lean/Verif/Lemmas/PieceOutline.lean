import Verif.Lemmas.TreeFile
import Verif.Lemmas.PieceDoc
/-! Outlines of files made of pieces. -/
namespace Metatab
open Py _root_.Spec

/-! ## A document has one outline -/

theorem asVal_inj {v w : Option Str} (h : asVal v = asVal w) : v = w := by
  cases v <;> cases w <;> first | rfl | (injection h with h; rw [h]) | cases h

mutual
theorem item_unique {s : St} {x : Nat} : ∀ (i : Item) {j : Item} {t : Nat}, ShowsItem s x i t → ShowsItem s x j t → i = j
  | .mk n v ks, .mk n' v' ks', t, h, h' => by
    unfold ShowsItem at h h'
    have e1 : n = n' := h.1.symm.trans h'.1
    have e2 : v = v' := asVal_inj (h.2.1.symm.trans h'.2.1)
    rw [e1, e2, items_unique ks h.2.2.2.2 h'.2.2.2.2]
theorem items_unique {s : St} {x : Nat} : ∀ (l : List Item) {m : List Item} {ts : List Nat}, ShowsItems s x l ts → ShowsItems s x m ts → l = m
  | [], m, ts, h, h' => by
    unfold ShowsItems at h
    subst h
    cases m with
    | nil => rfl
    | cons j m =>
      unfold ShowsItems at h'
      obtain ⟨_, _, e, -⟩ := h'
      cases e
  | i :: l, m, ts, h, h' => by
    unfold ShowsItems at h
    obtain ⟨t, r, rfl, h1, h2⟩ := h
    cases m with
    | nil => unfold ShowsItems at h'; cases h'
    | cons j m =>
      unfold ShowsItems at h'
      obtain ⟨t', r', e, h1', h2'⟩ := h'
      injection e with e1 e2
      subst e1 e2
      rw [item_unique i h1 h1', items_unique l h2 h2']
end

theorem part_unique {s : St} {kv : Str × Nat} {d e : Part} (h : ShowsPart s kv d) (h' : ShowsPart s kv e) : d = e := by
  have e1 : d.name = e.name := by
    have := h.name.symm.trans h'.name
    injection this
  have e2 : d.cols = e.cols := h.cols.symm.trans h'.cols
  have e3 := items_unique _ h.items h'.items
  cases d
  cases e
  simp only at e1 e2 e3
  subst e1 e2 e3
  rfl

theorem outline_unique {s : St} {D E : List Part} (h : Shows s D) (h' : Shows s E) : D = E := by
  have aux : ∀ {l : List (Str × Nat)} {D E : List Part}, List.Forall₂ (ShowsPart s) l D → List.Forall₂ (ShowsPart s) l E → D = E := by
    intro l D E h1
    induction h1 generalizing E with
    | nil => intro h2; cases h2; rfl
    | cons a b ih =>
      intro h2
      cases h2 with
      | cons a' b' => rw [part_unique a a', ih b']
  exact aux h.parts h'.parts

/-! ## Documents with the same sections -/

mutual
theorem item_sections {s s' : St} {f : Nat → Nat} (h : SectionIso s s' f) {x x' : Nat}
    (hx : ∀ k, s.sections.get? k = some x → s'.sections.get? k = some x') : ∀ (i : Item) {t : Nat}, InDoc s t → ShowsItem s x i t → ShowsItem s' x' i (f t)
  | .mk n v ks, t, ht, hs => by
    unfold ShowsItem at hs ⊢
    obtain ⟨a1, a2, a3, a4, a5⟩ := hs
    obtain ⟨-, b2, b3, -⟩ := h.names t ht
    refine ⟨b2.trans a1, b3.trans a2, ?_, ?_, ?_⟩
    · obtain ⟨k, c1, c2⟩ := h.sec t ht
      rw [c2]
      exact hx k (c1.symm.trans a3)
    · intro c hc
      rw [h.children t ht] at hc
      obtain ⟨c, hcm, rfl⟩ := List.mem_map.1 hc
      have hc := hcm
      have hcd : InDoc s c := .child ht hc
      obtain ⟨d1, d2⟩ := a4 c hc
      exact ⟨by rw [h.parent c hcd, d1]; rfl, by rw [(h.names c hcd).1, d2]⟩
    · rw [h.children t ht]
      exact items_sections h hx ks (fun c hc => .child ht hc) a5
theorem items_sections {s s' : St} {f : Nat → Nat} (h : SectionIso s s' f) {x x' : Nat}
    (hx : ∀ k, s.sections.get? k = some x → s'.sections.get? k = some x') : ∀ (l : List Item) {ts : List Nat}, (∀ t ∈ ts, InDoc s t) →
      ShowsItems s x l ts → ShowsItems s' x' l (ts.map f)
  | [], ts, _, hs => by
    unfold ShowsItems at hs ⊢
    rw [hs]
    rfl
  | i :: l, ts, hi, hs => by
    unfold ShowsItems at hs ⊢
    obtain ⟨t, r, rfl, h1, h2⟩ := hs
    exact ⟨f t, r.map f, rfl, item_sections h hx i (hi t List.mem_cons_self) h1,
      items_sections h hx l (fun u hu => hi u (List.mem_cons_of_mem _ hu)) h2⟩
end

theorem zip_second {α β : Type} {R : α → β → Prop} {l : List α} {m : List β} (h : List.Forall₂ R l m) :
    (l.zip m).map (·.1) = l ∧ (l.zip m).map (·.2) = m ∧ ∀ z ∈ l.zip m, R z.1 z.2 := by
  induction h with
  | nil => exact ⟨rfl, rfl, fun z hz => by cases hz⟩
  | cons a b ih =>
    refine ⟨by rw [List.zip_cons_cons, List.map_cons, ih.1], by rw [List.zip_cons_cons, List.map_cons, ih.2.1], ?_⟩
    intro z hz
    rcases List.mem_cons.1 hz with rfl | hz
    · exact a
    · exact ih.2.2 z hz

theorem forall₂_on {α β γ : Type} {R : α → β → Prop} {f : α → γ} {g : β → γ} : ∀ (l : List α) (m : List β), l.map f = m.map g →
    (∀ a ∈ l, ∀ b ∈ m, f a = g b → R a b) → List.Forall₂ R l m
  | [], [], _, _ => .nil
  | [], _ :: _, h, _ => by cases h
  | _ :: _, [], h, _ => by cases h
  | a :: l, b :: m, h, hR => by
    rw [List.map_cons, List.map_cons] at h
    injection h with h1 h2
    exact .cons (hR a List.mem_cons_self b List.mem_cons_self h1)
      (forall₂_on l m h2 fun a' ha b' hb => hR a' (List.mem_cons_of_mem _ ha) b' (List.mem_cons_of_mem _ hb))

/-- The outline of a document with the same sections has the same parts. -/
theorem outline_sections {s s' : St} (h : SameSections s s') {D D' : List Part} (hD : Shows s D) (hD' : Shows s' D') (hn : s.sections.keys.Nodup)
    (hn' : s'.sections.keys.Nodup) (hh : NoHeaders s) (hh' : NoHeaders s') : D'.Perm D := by
  obtain ⟨f, h⟩ := h
  obtain ⟨z1, z2, z3⟩ := zip_second hD.parts
  have hkeys : ((s.sections.zip D).map fun z => z.1.1).Perm (s'.sections.map (·.1)) := by
    have : (s.sections.zip D).map (fun z => z.1.1) = s.sections.map (·.1) := by
      conv_rhs => rw [← z1]
      rw [List.map_map]
      rfl
    rw [this]
    exact h.sections.symm
  obtain ⟨Z, p1, p2⟩ := perm_lift hkeys
  have hZ : List.Forall₂ (ShowsPart s') s'.sections (Z.map (·.2)) := by
    rw [List.forall₂_map_right_iff]
    refine forall₂_on (f := (·.1)) (g := fun z => z.1.1) _ _ p2.symm ?_
    intro kv' hkv' z hz hk
    have hz' := p1.mem_iff.2 hz
    have hp := z3 z hz'
    have hzs : z.1 ∈ s.sections := by rw [← z1]; exact List.mem_map_of_mem hz'
    have g1 := Dict.get?_of_mem hn hzs
    have g2 := Dict.get?_of_mem hn' hkv'
    rw [hk] at g2
    obtain ⟨c1, c2⟩ := h.columns _ _ _ g1 g2
    have hst := h.sectionTerms _ _ _ g1 g2
    have hin : ∀ t ∈ (s.heap z.1.2).terms, InDoc s t := fun t ht => .listed g1 ht
    have hx : ∀ k, s.sections.get? k = some z.1.2 → s'.sections.get? k = some kv'.2 := by
      intro k hkx
      have : k = z.1.1 := by
        have hm := Dict.mem_of_get? hkx
        obtain ⟨i, hi, e⟩ := List.getElem_of_mem hm
        have hp' := hD.parts.get hi (by rw [← hD.parts.length_eq]; exact hi)
        simp only [List.get_eq_getElem] at hp'
        rw [e] at hp'
        have e1 := hp'.name.symm.trans hp.name
        injection e1 with e1
        rw [hp.key, ← e1]
        exact hp'.key
      rw [this]
      exact g2
    refine ⟨hk.trans hp.key, c1.trans hp.name, ?_, ?_, ?_⟩
    · rw [← hp.cols]
      unfold Obj.secPropertyNames
      rw [hh, hh', if_neg (fun h => h rfl), if_neg (fun h => h rfl), c2]
    · rw [hst]
      exact items_sections h hx _ hin hp.items
    · intro t ht
      rw [hst] at ht
      obtain ⟨t, htm, rfl⟩ := List.mem_map.1 ht
      have ht := htm
      obtain ⟨r1, r2⟩ := hp.rootLevel t ht
      refine ⟨(h.names t (hin t ht)).1.trans r1, ?_⟩
      rw [h.parent t (hin t ht)]
      rcases r2 with r2 | r2
      · exact .inl (by rw [r2]; rfl)
      · exact .inr (by rw [r2, Option.map_some, h.root])
  rw [outline_unique hD' ⟨hD'.rootName, hZ⟩, ← z2]
  exact (p1.map _).symm

/-! ## Pieces whose sections are trees of their own -/

theorem get?_more {α : Type} {k : Str} {v : α} : ∀ {A B : Dict α}, Dict.get? A k = some v → Dict.get? (A ++ B) k = some v
  | [], _, h => by cases h
  | (k', w) :: A, B, h => by
    rw [List.cons_append, Dict.get?_cons]
    rw [Dict.get?_cons] at h
    split
    · next e => rw [if_pos e] at h; exact h
    · next e => rw [if_neg e] at h; exact get?_more h

theorem tree_more : ∀ (rows : List (List Str)) {known more : List (Str × Str)} {cur : Str}, treeFrom known cur rows = true →
    treeFrom (known ++ more) cur rows = true
  | [], _, _, _, _ => rfl
  | row :: rows, known, more, cur, h => by
    unfold treeFrom at h ⊢
    cases hk : kind row <;> rw [hk] at h <;> dsimp only at h ⊢
    case special => cases h
    case header => cases h
    case noise => exact tree_more rows h
    case «section» => exact tree_more rows h
    case elided =>
      rw [Bool.and_eq_true] at h ⊢
      exact ⟨h.1, tree_more rows h.2⟩
    case named p r =>
      rw [Bool.and_eq_true, Bool.or_eq_true] at h ⊢
      refine ⟨?_, ?_⟩
      · rcases h.1 with h1 | h1
        · exact .inl h1
        · exact .inr (decide_eq_true (get?_more (of_decide_eq_true h1)))
      · exact tree_more rows (known := (r, cur) :: known) h.2

theorem tree_anywhere {rows : List (List Str)} (hs : startsSection rows = true) (h : treeFile rows = true) (known : List (Str × Str)) (cur : Str) :
    treeFrom known cur rows = true := by
  obtain ⟨row, more, n, cols, rfl, hk⟩ := startsSection_cases hs
  unfold treeFile treeFrom at h
  unfold treeFrom
  rw [hk] at h ⊢
  exact tree_more more (known := []) h

theorem tree_append : ∀ (A : List (List Str)) {B : List (List Str)} {known : List (Str × Str)} {cur : Str}, treeFrom known cur A = true →
    (∀ known cur, treeFrom known cur B = true) → treeFrom known cur (A ++ B) = true
  | [], B, known, cur, _, hB => hB known cur
  | row :: A, B, known, cur, h, hB => by
    rw [List.cons_append]
    unfold treeFrom at h ⊢
    cases hk : kind row <;> rw [hk] at h <;> dsimp only at h ⊢
    case special => cases h
    case header => cases h
    case noise => exact tree_append A h hB
    case «section» => exact tree_append A h hB
    case elided =>
      rw [Bool.and_eq_true] at h ⊢
      exact ⟨h.1, tree_append A h.2 hB⟩
    case named =>
      rw [Bool.and_eq_true] at h ⊢
      exact ⟨h.1, tree_append A h.2 hB⟩

theorem tree_flatten : ∀ {pieces : List (List (List Str))}, (∀ rows ∈ pieces, startsSection rows = true ∧ treeFile rows = true) →
    ∀ known cur, treeFrom known cur pieces.flatten = true
  | [], _, _, _ => rfl
  | rows :: pieces, h, known, cur => by
    rw [List.flatten_cons]
    exact tree_append rows (tree_anywhere (h rows List.mem_cons_self).1 (h rows List.mem_cons_self).2 known cur)
      (tree_flatten fun r hr => h r (List.mem_cons_of_mem _ hr))

end Metatab
