import Verif.Lemmas.OutlineEdit
import Verif.Props.Find
import Verif.Spec.OutlineFind
/-! # What is found is what the outline says -/
namespace Metatab
open Py _root_.Spec

/-- An object at its place in the walk. -/
def Walked (s : St) (x : Nat) (i : Str × Item) (t : Nat) : Prop := ShowsItem s x i.2 t ∧ (s.heap t).pt = i.1

mutual
theorem walk_item {s : St} {x : Nat} : ∀ (i : Item) {p : Str} {f t : Nat} {tr : Tree}, ShowsItem s x i t → (s.heap t).pt = p →
    treeF s.heap f t = .ok tr → List.Forall₂ (Walked s x) (i.walk p) (t :: tr.descendents)
  | .mk n v ks, p, f, t, tr => by
    intro h hp htr
    obtain ⟨h1, h2, h3, h4, h5⟩ := showsItem_mk.1 h
    cases f with
    | zero => cases htr
    | succ f =>
      obtain ⟨trs, hk, rfl⟩ := treeF_iff.1 htr
      rw [Item.walk]
      exact .cons ⟨h, hp⟩ (walk_items ks h5 (fun c hc => (h4 c hc).2) hk)
theorem walk_items {s : St} {x : Nat} : ∀ (ks : List Item) {p : Str} {f : Nat} {cs : List Nat} {trs : List Tree}, ShowsItems s x ks cs →
    (∀ c ∈ cs, (s.heap c).pt = p) → List.Forall₂ (fun c k => treeF s.heap f c = .ok k) cs trs →
    List.Forall₂ (Walked s x) (walkL p ks) (descendentsL trs)
  | [], p, f, cs, trs => by
    intro h _ ht
    rw [ShowsItems] at h
    subst h
    cases ht
    exact .nil
  | k :: ks, p, f, cs, trs => by
    intro h hp ht
    rw [ShowsItems] at h
    obtain ⟨c, r, rfl, h1, h2⟩ := h
    cases ht with
    | cons a b =>
      have g1 := walk_item k h1 (hp c List.mem_cons_self) a
      have g2 := walk_items ks h2 (fun c hc => hp c (List.mem_cons_of_mem _ hc)) b
      rw [walkL, descendentsL, treeF_id a]
      exact List.rel_append g1 g2
end

theorem sectionTerms_walk {s : St} (w : WF True s) {kv : Str × Nat} {d : Part} (h : ShowsPart s kv d) :
    ∃ l, sectionTerms s kv.2 = .ok l ∧ List.Forall₂ (Walked s kv.2) (walkL (py!"root") d.items) l := by
  obtain ⟨trs, ht⟩ := tree_items w d.items (f := s.next + 1) h.items (by intro c _; omega)
  refine ⟨descendentsL trs, ?_, walk_items d.items h.items (fun t ht => (h.rootLevel t ht).1) ht⟩
  unfold sectionTerms
  have : (s.heap kv.2).terms.mapM (fun t => do let tr ← tree s t; return t :: tr.descendents) = .ok (trs.map fun k => k.id :: k.descendents) := by
    rw [mapM_iff, List.forall₂_map_right_iff]
    refine ht.imp fun c k hk => ?_
    unfold tree
    rw [hk, treeF_id hk]
    rfl
  rw [this, descendentsL_flatMap, List.flatMap_def]
  rfl

/-- The lists the search runs over, section by section. -/
theorem allTerms_walk {s : St} (w : WF True s) : ∀ {secs : List (Str × Nat)} {D : List Part}, List.Forall₂ (ShowsPart s) secs D →
    ∃ ls, secs.mapM (fun kv => do
        let ts ← sectionTerms s kv.2
        return if (s.heap kv.2).value ≠ Val.str (py!"Root") then kv.2 :: ts else ts) = .ok ls ∧
      List.Forall₂ (fun d l => ∃ kv ∈ secs, ∃ pre l', ShowsPart s kv d ∧ l = pre ++ l' ∧ (∀ u ∈ pre, u = kv.2) ∧
        List.Forall₂ (Walked s kv.2) (walkL (py!"root") d.items) l') D ls
  | [], _, .nil => ⟨[], rfl, .nil⟩
  | kv :: secs, d :: D, .cons h hs => by
    obtain ⟨l, e1, h1⟩ := sectionTerms_walk w h
    obtain ⟨ls, e2, h2⟩ := allTerms_walk w hs
    refine ⟨(if (s.heap kv.2).value ≠ Val.str (py!"Root") then kv.2 :: l else l) :: ls, ?_, .cons ?_ ?_⟩
    · rw [List.mapM_cons, e1, e2]; rfl
    · by_cases hr : (s.heap kv.2).value ≠ Val.str (py!"Root")
      · exact ⟨kv, List.mem_cons_self, [kv.2], l, h, by rw [if_pos hr]; rfl, fun u hu => List.mem_singleton.1 hu, h1⟩
      · exact ⟨kv, List.mem_cons_self, [], l, h, by rw [if_neg hr]; rfl, fun u hu => (by cases hu), h1⟩
    · exact h2.imp fun d l ⟨kv', a, b⟩ => ⟨kv', List.mem_cons_of_mem _ a, b⟩

theorem forall₂_filter {α β : Type} {R : α → β → Prop} {p : α → Bool} {q : β → Bool} : ∀ {l : List α} {m : List β}, List.Forall₂ R l m →
    (∀ a b, R a b → p a = q b) → List.Forall₂ R (l.filter p) (m.filter q)
  | [], [], .nil, _ => .nil
  | a :: l, b :: m, .cons h hs, hp => by
    have ih := forall₂_filter hs hp
    rw [List.filter_cons, List.filter_cons, hp a b h]
    split
    · exact .cons h ih
    · exact ih

theorem itemAsked_iff {q : Str × Str} {value : Val} {p n : Str} {v : Option Str} {ks : List Item} : itemAsked q value (p, .mk n v ks) = true ↔
    ¬ (lower p = py!"root" ∧ lower n = py!"root") ∧ NameMatches q p n ∧ ValueIs (asVal v) value := by
  unfold itemAsked
  rw [Bool.and_eq_true, Bool.and_eq_true, Bool.not_eq_true', ← Bool.not_eq_true, Bool.and_eq_true, decide_eq_true_iff, decide_eq_true_iff,
    decide_eq_true_iff, decide_eq_true_iff, and_assoc]
  rfl

open Classical in
/-- The search looks at an item as at its object. -/
theorem meets_walked {s : St} {kv : Str × Nat} {d : Part} (h : ShowsPart s kv d) {i : Str × Item} {t : Nat} (hw : Walked s kv.2 i t)
    (q : Str × Str) (value : Val) (secs : Option (List Str)) :
    decide (Meets s.heap q value secs t) = (partAsked secs d && itemAsked q value i) := by
  obtain ⟨p, n, v, ks⟩ := i
  obtain ⟨h1, h2⟩ := hw
  obtain ⟨g1, g2, g3, -, -⟩ := showsItem_mk.1 h1
  dsimp only at h2
  have hs : SectionIs s.heap t secs ↔ partAsked secs d = true := by
    cases secs with
    | none => simp [SectionIs, partAsked]
    | some names => simp [SectionIs, partAsked, g3, h.name]
  rw [Bool.eq_iff_iff, decide_eq_true_eq, Meets, hs, g1, h2, g2, Bool.and_eq_true, itemAsked_iff]
  constructor
  · rintro ⟨a, b, c, e⟩; exact ⟨e, a, b, c⟩
  · rintro ⟨e, a, b, c⟩; exact ⟨a, b, c, e⟩

/-- Objects of the walk can be searched. -/
theorem searchable_walked {s : St} {kv : Str × Nat} {d : Part} (h : ShowsPart s kv d) {i : Str × Item} {t : Nat} (hw : Walked s kv.2 i t) :
    Searchable s.heap t := by
  obtain ⟨p, n, v, ks⟩ := i
  obtain ⟨-, -, g3, -, -⟩ := showsItem_mk.1 hw.1
  exact ⟨fun e => (by rw [g3] at e; cases e), fun x e => (by rw [g3] at e; cases e; exact ⟨_, h.name⟩)⟩

theorem forall₂_right {α β : Type} {R : α → β → Prop} : ∀ {l : List α} {m : List β}, List.Forall₂ R l m → ∀ b ∈ m, ∃ a ∈ l, R a b
  | [], [], .nil, b, hb => by cases hb
  | _ :: _, _ :: _, .cons h hs, b, hb => by
    rcases List.mem_cons.1 hb with rfl | hb
    · exact ⟨_, List.mem_cons_self, h⟩
    · obtain ⟨a, ha, r⟩ := forall₂_right hs b hb
      exact ⟨a, List.mem_cons_of_mem _ ha, r⟩

/-- Filtering the objects of a section gives what the outline says. -/
theorem part_found {s : St} {kv : Str × Nat} {d : Part} {l : List Nat} {q : Str × Str} (hl : List.Forall₂ (Walked s kv.2) (lookedAt q d) l)
    (value : Val) (secs : Option (List Str)) {P : Nat → Bool} (hP : ∀ i t, Walked s kv.2 i t → P t = (partAsked secs d && itemAsked q value i)) :
    List.Forall₂ (FoundAs s) (if partAsked secs d then ((lookedAt q d).filter (itemAsked q value)).map Prod.snd else []) (l.filter P) := by
  have hf := forall₂_filter (p := fun i => partAsked secs d && itemAsked q value i) (q := P) hl fun i t hw => (hP i t hw).symm
  by_cases hd : partAsked secs d = true
  · rw [if_pos hd]
    simp only [hd, Bool.true_and] at hf
    rw [List.forall₂_map_left_iff]
    exact hf.imp fun i t hw => ⟨_, hw.1⟩
  · simp only [hd, Bool.false_and, List.filter_false] at hf
    rw [if_neg hd]
    rw [List.forall₂_nil_left_iff.1 hf]
    exact .nil

theorem parts_found {s : St} {q : Str × Str} {value : Val} {secs : Option (List Str)} {P : Nat → Bool} : ∀ {D : List Part} {ls : List (List Nat)},
    List.Forall₂ (fun d l => ∃ kv pre l', l = pre ++ l' ∧ (∀ u ∈ pre, P u = false) ∧
        List.Forall₂ (Walked s kv) (lookedAt q d) l' ∧
        ∀ i t, Walked s kv i t → P t = (partAsked secs d && itemAsked q value i)) D ls →
    List.Forall₂ (FoundAs s) (outlineFind D q value secs) (ls.flatten.filter P)
  | [], [], .nil => .nil
  | d :: D, _ :: ls, .cons h hs => by
    obtain ⟨kv, pre, l', rfl, h3, h4, h5⟩ := h
    have ih := parts_found hs
    have hpre : pre.filter P = [] := List.filter_eq_nil_iff.2 fun u hu => by rw [h3 u hu]; exact Bool.false_ne_true
    unfold outlineFind
    rw [List.flatMap_cons, List.flatten_cons, List.filter_append, List.filter_append, hpre, List.nil_append]
    exact List.rel_append (part_found (kv := ([], kv)) h4 value secs h5) ih

open Classical in
theorem find_tested {s : St} {q : Str × Str} (hA : PlainPart q.1) (hd : s.derived.get? (lower (dotJoin q.1 q.2)) = none) {l : List Nat}
    (hl : searched s q.1 = .ok l) {value : Val} {secs : Option (List Str)}
    (ht : ∀ t ∈ l, findTest s (lower (dotJoin q.1 q.2)) value secs t = .ok (decide (Meets s.heap q value secs t))) :
    find s (dotJoin q.1 q.2) value secs = .ok (l.filter fun t => Meets s.heap q value secs t) := by
  unfold find
  rw [hd]
  have hdot : '.' ∈ lower (dotJoin q.1 q.2) := dot_mem_lower.2 (by simp [dotJoin])
  simp only [findOne, hdot, not_true_eq_false, if_false]
  unfold searched at hl
  by_cases h : lower q.1 = py!"root"
  · rw [if_pos h] at hl; cases hl
    rw [if_pos ((startsWith_root hA.nodot).2 h)]
    exact filterE_eq ht
  · rw [if_neg h] at hl
    rw [if_neg (fun e => h ((startsWith_root hA.nodot).1 e)), hl]
    exact filterE_eq ht

/-- A section is not found by a name that does not fit, whatever it belongs to. -/
theorem findTest_section {s : St} {q : Str × Str} (hA : PlainPart q.1) (hB : PlainPart q.2) {t : Nat} (hp : (s.heap t).pt = py!"root")
    (hn : (s.heap t).rt = py!"root" ∨ (s.heap t).rt = py!"section") (hm : ¬ NameMatches q (s.heap t).pt (s.heap t).rt) (value : Val)
    (secs : Option (List Str)) : findTest s (lower (dotJoin q.1 q.2)) value secs t = .ok false := by
  have lowPlain : ∀ {a : Str}, PlainPart a → PlainPart (lower a) := fun h => ⟨by simpa using h.nodot, by simpa using h.nonempty, by
    rw [strip_lower, h.stripped]⟩
  have hm' : ¬ NameMatches (lower q.1, lower q.2) (s.heap t).pt (s.heap t).rt := by
    simpa [NameMatches, PartMatches, plain_star_lower] using hm
  have ht1 : termIs (s.heap t).pt (s.heap t).rt (lower (dotJoin q.1 q.2)) = .ok false := by
    have hl : lower (dotJoin q.1 q.2) = dotJoin (lower q.1) (lower q.2) := by simp [dotJoin]; decide
    rw [hl]
    refine Eq.trans (C02_qualified (s.heap t).pt (s.heap t).rt (lowPlain hA) (lowPlain hB)) ?_
    congr 1
    exact decide_eq_false hm'
  unfold findTest
  dsimp only
  rcases hn with hn | hn
  · rw [if_pos (joinLc_root_root.2 ⟨by rw [hp]; decide, by rw [hn]; decide⟩)]
    rfl
  · have hj : (s.heap t).joinLc = py!"root.section" := joinLc_root_section.2 ⟨by rw [hp]; decide, by rw [hn]; decide⟩
    rw [hj, if_neg (by decide), if_neg (by simp), ht1]
    rfl

open Classical in
/-- A search for a name below the root level. -/
theorem find_nested {s : St} (w : WF True s) {D : List Part} (hD : Shows s D)
    (hs : ∀ kv ∈ s.sections, (s.heap kv.2).pt = py!"root" ∧ ((s.heap kv.2).rt = py!"root" ∨ (s.heap kv.2).rt = py!"section"))
    {q : Str × Str} (hA : PlainPart q.1) (hB : PlainPart q.2) (hr : lower q.1 ≠ py!"root") (hst : q.1 ≠ py!"*")
    (hd : s.derived.get? (lower (dotJoin q.1 q.2)) = none) (value : Val) (secs : Option (List Str)) :
    ∃ l, find s (dotJoin q.1 q.2) value secs = .ok l ∧ List.Forall₂ (FoundAs s) (outlineFind D q value secs) l := by
  obtain ⟨ls, e, h⟩ := allTerms_walk w hD.parts
  have hl : searched s q.1 = .ok ls.flatten := by
    unfold searched allTerms
    rw [if_neg hr, e]
    rfl
  have hlow : lower (py!"root") = py!"root" := by decide
  have hroot : ∀ kv ∈ s.sections, ¬ NameMatches q (s.heap kv.2).pt (s.heap kv.2).rt := by
    rintro kv hkv ⟨hn, -⟩
    rw [(hs kv hkv).1] at hn
    rcases hn with hn | hn
    · exact hst hn
    · exact hr (hn.trans hlow)
  have hlook : ∀ d, lookedAt q d = walkL (py!"root") d.items := fun d => by unfold lookedAt; rw [if_neg hr]
  refine ⟨_, find_tested hA hd hl (fun t ht => ?_), parts_found (h.imp ?_)⟩
  · obtain ⟨l, hl1, hl2⟩ := List.mem_flatten.1 ht
    obtain ⟨d, -, kv, hkv, pre, l', h1, rfl, h3, h4⟩ := forall₂_right h l hl1
    rcases List.mem_append.1 hl2 with hp | hp
    · rw [h3 t hp, findTest_section hA hB (hs kv hkv).1 (hs kv hkv).2 (hroot kv hkv)]
      exact congrArg _ (decide_eq_false fun hM => hroot kv hkv hM.2.1).symm
    · obtain ⟨i, -, hi⟩ := forall₂_right h4 t hp
      exact findTest_eq (searchable_walked h1 hi) hA hB value secs
  · rintro d l ⟨kv, hkv, pre, l', h1, rfl, h3, h4⟩
    refine ⟨kv.2, pre, l', rfl, fun u hu => ?_, by rw [hlook]; exact h4, fun i t hw => meets_walked h1 hw q value secs⟩
    rw [h3 u hu]
    exact decide_eq_false fun hM => hroot kv hkv hM.2.1

/-! ## Names at root level -/

theorem showsItems_forall₂ {s : St} {x : Nat} : ∀ {is : List Item} {ts : List Nat}, ShowsItems s x is ts → List.Forall₂ (ShowsItem s x) is ts
  | [], ts, h => by rw [ShowsItems] at h; subst h; exact .nil
  | i :: is, ts, h => by
    rw [ShowsItems] at h
    obtain ⟨t, r, rfl, h1, h2⟩ := h
    exact .cons h1 (showsItems_forall₂ h2)

theorem forall₂_zip {α β : Type} {R : α → β → Prop} {P : β → Prop} : ∀ {l : List α} {m : List β}, List.Forall₂ R l m → (∀ b ∈ m, P b) →
    List.Forall₂ (fun a b => R a b ∧ P b) l m
  | [], [], .nil, _ => .nil
  | _ :: _, _ :: _, .cons h hs, hp => .cons ⟨h, hp _ List.mem_cons_self⟩ (forall₂_zip hs fun b hb => hp b (List.mem_cons_of_mem _ hb))

/-- The document's list of root-level terms, up to order. -/
theorem terms_perm {s : St} (w : WF True s) {D : List Part} (hD : Shows s D) (hl : ListsAgree s) :
    s.terms.Perm (s.sections.map fun kv => (s.heap kv.2).terms).flatten := by
  have hsec : ∀ kv ∈ s.sections, ∀ t ∈ (s.heap kv.2).terms, (s.heap t).sec = some kv.2 := by
    intro kv hkv t ht
    obtain ⟨i, hi⟩ := List.getElem?_of_mem hkv
    obtain ⟨d, -, h1⟩ := forall₂_get? hD.parts hi
    obtain ⟨⟨n, v, ks⟩, -, hs⟩ := forall₂_right (showsItems_forall₂ h1.items) t ht
    exact (showsItem_mk.1 hs).2.2.1
  refine (List.perm_ext_iff_of_nodup w.termsNodup ?_).2 fun t => ?_
  · rw [List.nodup_flatten]
    refine ⟨fun l hm => ?_, ?_⟩
    · obtain ⟨kv, -, rfl⟩ := List.mem_map.1 hm
      exact w.secTermsNodup _
    · rw [List.pairwise_map, List.pairwise_iff_getElem]
      intro i j hi hj hij t h1 h2
      have e1 := hsec _ (List.getElem_mem hi) t h1
      have e2 := hsec _ (List.getElem_mem hj) t h2
      rw [e1] at e2
      have := secs_inj w hD (List.getElem?_eq_getElem hi) (List.getElem?_eq_getElem hj) (by injection e2)
      omega
  · rw [hl t]
    constructor
    · rintro ⟨x, -, ⟨k, hk⟩, ht⟩
      exact List.mem_flatten.2 ⟨_, List.mem_map.2 ⟨(k, x), Dict.mem_of_get? hk, rfl⟩, ht⟩
    · intro h
      obtain ⟨l, h1, ht⟩ := List.mem_flatten.1 h
      obtain ⟨kv, hkv, rfl⟩ := List.mem_map.1 h1
      exact ⟨kv.2, hsec kv hkv t ht, ⟨kv.1, Dict.get?_of_mem w.secsNodup hkv⟩, ht⟩

open Classical in
/-- A search for a name at root level. -/
theorem find_root {s : St} (w : WF True s) {D : List Part} (hD : Shows s D) (hl : ListsAgree s)
    {q : Str × Str} (hr : lower q.1 = py!"root") (value : Val) (secs : Option (List Str)) :
    (∀ t ∈ s.terms, Searchable s.heap t) ∧
    ∃ l, l.Perm (s.terms.filter fun t => Meets s.heap q value secs t) ∧ List.Forall₂ (FoundAs s) (outlineFind D q value secs) l := by
  have hp := terms_perm w hD hl
  have hpart : ∀ {kv d}, ShowsPart s kv d → List.Forall₂ (Walked s kv.2) (lookedAt q d) (s.heap kv.2).terms := by
    intro kv d h
    unfold lookedAt
    rw [if_pos hr, List.forall₂_map_left_iff]
    exact (forall₂_zip (showsItems_forall₂ h.items) h.rootLevel).imp fun i t ⟨a, b, _⟩ => ⟨a, b⟩
  refine ⟨fun t ht => ?_, _, (hp.filter fun t => decide (Meets s.heap q value secs t)).symm, parts_found ?_⟩
  · have := hp.mem_iff.1 ht
    obtain ⟨l, h1, ht⟩ := List.mem_flatten.1 this
    obtain ⟨kv, hkv, rfl⟩ := List.mem_map.1 h1
    obtain ⟨i, hi⟩ := List.getElem?_of_mem hkv
    obtain ⟨d, -, h1⟩ := forall₂_get? hD.parts hi
    obtain ⟨i, -, hw⟩ := forall₂_right (hpart h1) t ht
    exact searchable_walked h1 hw
  · rw [List.forall₂_map_right_iff]
    exact hD.parts.flip.imp fun d kv h => ⟨kv.2, [], _, rfl, fun u hu => (by cases hu), hpart h, fun i t hw => meets_walked h hw q value secs⟩

end Metatab
