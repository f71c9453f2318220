import Verif.Lemmas.OutlineFind
import Verif.Props.EditDoc
import Verif.Props.Agree
import Verif.Lemmas.StreamFile
/-! # C98: what a search finds is told by the outline

`find` returns objects. The theorems say which items of the outline these objects are, for names below the root level in the order of the
outline, and for names at root level up to order (the document lists root-level terms in the order they were added, whatever their section). -/
namespace Metatab
open Py _root_.Spec

/-- **C98** (below root level). A search for `A.B`, with or without value and sections, finds exactly the items of the outline that are
asked for, in the order of the outline. -/
theorem C98_nested {s : St} (h : Reach Op.noAddChild s) {D : List Part} (hD : Shows s D) (hi : Indexed s) {A B : Str} (hA : PlainPart A)
    (hB : PlainPart B) (hr : lower A ≠ py!"root") (hst : A ≠ py!"*") (value : Val) (secs : Option (List Str)) :
    ∃ l, find s (dotJoin A B) value secs = .ok l ∧ List.Forall₂ (FoundAs s) (outlineFind D (A, B) value secs) l :=
  find_nested (h.wf fun _ _ ha => ha) hD hi.secNames (q := (A, B)) hA hB hr hst (hi.derived _) value secs

/-- **C98** (root level). A search for `Root.B` finds exactly the root-level items of the outline that are asked for. -/
theorem C98_root {s : St} (h : Reach Op.noAddChild s) {D : List Part} (hD : Shows s D) (hi : Indexed s) {A B : Str} (hA : PlainPart A)
    (hB : PlainPart B) (hr : lower A = py!"root") (value : Val) (secs : Option (List Str)) :
    ∃ l m, find s (dotJoin A B) value secs = .ok l ∧ m.Perm l ∧ List.Forall₂ (FoundAs s) (outlineFind D (A, B) value secs) m := by
  obtain ⟨h1, m, h2, h3⟩ := find_root (h.wf fun _ _ ha => ha) hD hi.agree (q := (A, B)) hr value secs
  refine ⟨_, m, ?_, h2, h3⟩
  exact C11_qualified (q := (A, B)) hA hB (hi.derived _) (by unfold searched; rw [if_pos hr]) h1 value secs

/-- **C98** (names without a parent). A search for `B` finds exactly the root-level items of the outline that are asked for. -/
theorem C98_unqualified {s : St} (h : Reach Op.noAddChild s) {D : List Part} (hD : Shows s D) (hi : Indexed s) {B : Str}
    (hB : PlainPart B) (value : Val) (secs : Option (List Str)) :
    ∃ l m, find s B value secs = .ok l ∧ m.Perm l ∧ List.Forall₂ (FoundAs s) (outlineFind D (py!"root", B) value secs) m := by
  obtain ⟨h1, m, h2, h3⟩ := find_root (h.wf fun _ _ ha => ha) hD hi.agree (q := (py!"root", B)) (show lower (py!"root") = _ by decide) value secs
  exact ⟨_, m, C11_unqualified hB (hi.derived _) h1 value secs, h2, h3⟩

/-- Any name. -/
theorem find_outline {s : St} (h : Reach Op.noAddChild s) {D : List Part} (hD : Shows s D) (hi : Indexed s) {A B : Str} (hA : PlainPart A)
    (hB : PlainPart B) (hst : A ≠ py!"*") (value : Val) (secs : Option (List Str)) :
    ∃ l m, find s (dotJoin A B) value secs = .ok l ∧ m.Perm l ∧ List.Forall₂ (FoundAs s) (outlineFind D (A, B) value secs) m := by
  by_cases hr : lower A = py!"root"
  · exact C98_root h hD hi hA hB hr value secs
  · obtain ⟨l, h1, h2⟩ := C98_nested h hD hi hA hB hr hst value secs
    exact ⟨l, l, h1, .refl _, h2⟩

/-! ## Documents whose lists are in order -/

theorem indexed_inv {s : St} (h : Inv s) : Indexed s := by
  refine ⟨fun kv hkv => ?_, h.agree, fun n => by rw [h.noDerived]; rfl⟩
  obtain ⟨h1, h2, -⟩ := h.secOk kv.1 kv.2 (Dict.get?_of_mem h.keysNodup hkv)
  obtain ⟨h3, h4⟩ := h.secName kv.2 h1 h2
  refine ⟨h3, ?_⟩
  rw [h4]
  split
  · exact .inl rfl
  · exact .inr rfl

/-- **C98.** Documents made by orderly calls have their lists in order. -/
theorem C98_orderly {s : St} (h : OrderlyHistory s) : Indexed s := indexed_inv (orderly_inv h)

theorem agree_sim {s : St} {a : Reader} {ids : List Nat} (h : Sim s a ids) : ListsAgree s := by
  have hmem : ∀ {f : Node → Bool} {t}, t ∈ pick a.nodes ids f ↔ ∃ n, (n, t) ∈ a.nodes.zip ids ∧ f n = true := by
    intro f t
    unfold pick
    constructor
    · intro ht
      obtain ⟨nt, h5, rfl⟩ := List.mem_map.1 ht
      exact ⟨nt.1, List.mem_filter.1 h5⟩
    · rintro ⟨n, h1, h2⟩
      exact List.mem_map.2 ⟨(n, t), List.mem_filter.2 ⟨h1, h2⟩, rfl⟩
  intro t
  rw [h.terms, hmem]
  constructor
  · rintro ⟨n, h1, h2⟩
    obtain ⟨x, hx⟩ := Option.isSome_iff_exists.1 (h.secKnown n (List.of_mem_zip h1).1)
    refine ⟨x, by rw [(h.term n t h1).2.2.2.2.2.2]; exact hx, ⟨_, hx⟩, ?_⟩
    rw [h.sectionTerms _ x hx, hmem]
    exact ⟨n, h1, by simpa using h2⟩
  · rintro ⟨x, -, ⟨k, hk⟩, ht⟩
    rw [h.sectionTerms k x hk, hmem] at ht
    obtain ⟨n, h1, h2⟩ := ht
    exact ⟨n, h1, by simp only [Bool.and_eq_true] at h2; exact h2.1⟩

/-- **C98.** Documents read from plain rows have their lists in order. -/
theorem C98_read {rows : List (List Str)} (hr : plainFile rows = true) {env : Env} {classes : Dict Cls} (hcl : PlainClasses classes) (files : Files)
    (fuel : Nat) (path : Str) {s : St} (hs : parseRows files (fuel + 1) path rows (newDoc env classes) = .ok () s) : Indexed s := by
  obtain ⟨s1, h1⟩ := plainFile_rows (env := env) hcl hr
  have i0 := pinv_new (F := True) (env := env) hcl
  obtain ⟨ids, hsim⟩ := sim_rows i0 (sim_start env classes) h1 hr
  have hinv := h1.inv i0
  have hroot := rootOk_rows i0 (rootOk_new env classes) h1
  have k := plainRows_tables h1
  have hsup : s1.superTerms.update (parserSuperTerms s1) = [] := by
    have h2 : s1.superTerms = [] := k.super
    have h3 : parserSuperTerms s1 = [] := by
      unfold parserSuperTerms
      rw [h2, if_neg (fun h => h rfl), (plainRows_declTerms h1).2]
      show Dict.update [] (initDeclTerms.filterMap _) = []
      decide
    rw [h2, h3]
    rfl
  have hp := parse_plain hcl h1 files fuel path
  rw [hs] at hp
  injection hp with _ es
  have e1 : s.sections = s1.sections := by rw [es]; rfl
  have e2 : s.heap = s1.heap := by rw [es]; rfl
  have e3 : s.terms = s1.terms := by rw [es]; rfl
  refine ⟨fun kv hkv => ?_, ?_, fun n => ?_⟩
  · rw [e1] at hkv
    rw [e2]
    have hk := Dict.get?_of_mem hinv.wf.secsNodup hkv
    by_cases he : kv.1 = ROOT
    · rw [he, hroot.key] at hk
      injection hk with hk
      rw [← hk]
      exact ⟨hroot.pt, .inl hinv.rootName⟩
    · have := hinv.secs kv.1 kv.2 hk he
      exact ⟨this.pt, .inr this.rt⟩
  · intro t
    have := agree_sim hsim t
    unfold HasSec at this ⊢
    rw [e1, e2, e3]
    exact this
  · have : s.derived = [] := by
      rw [es]
      show derivedOf (s1.superTerms.update (parserSuperTerms s1)) = []
      rw [hsup]
      rfl
    rw [this]
    rfl

/-! ## Writing and reading -/

theorem walkL_flatMap (p : Str) : ∀ ks : List Item, walkL p ks = ks.flatMap (Item.walk p)
  | [] => rfl
  | k :: ks => by rw [walkL, List.flatMap_cons, walkL_flatMap p ks]

/-- The same place, the same item apart from the order of children. -/
def WalkAlike (a b : Str × Item) : Prop := a.1 = b.1 ∧ Reordered a.2 b.2

mutual
theorem walk_reordered : ∀ (i : Item) {j : Item} (p : Str), Reordered i j → ∃ w, w.Perm (j.walk p) ∧ List.Forall₂ WalkAlike (i.walk p) w
  | .mk n v ks, j, p => by
    intro h
    cases h with
    | @mk _ _ _ l ks' h hp =>
      obtain ⟨w, h1, h2⟩ := walkL_reordered ks n h
      rw [Item.walk, Item.walk]
      refine ⟨(p, .mk n v ks') :: w, .cons _ (h1.trans ?_), .cons ⟨rfl, .mk h hp⟩ h2⟩
      rw [walkL_flatMap, walkL_flatMap]
      exact hp.flatMap_right _
theorem walkL_reordered : ∀ (ks : List Item) {l : List Item} (p : Str), List.Forall₂ Reordered ks l →
    ∃ w, w.Perm (walkL p l) ∧ List.Forall₂ WalkAlike (walkL p ks) w
  | [], l, p => by
    intro h
    cases h
    exact ⟨[], .refl _, .nil⟩
  | k :: ks, l, p => by
    intro h
    cases h with
    | cons h hs =>
      obtain ⟨w1, a1, b1⟩ := walk_reordered k p h
      obtain ⟨w2, a2, b2⟩ := walkL_reordered ks p hs
      rw [walkL, walkL]
      exact ⟨w1 ++ w2, a1.append a2, List.rel_append b1 b2⟩
end

theorem itemAsked_alike {q : Str × Str} {value : Val} {a b : Str × Item} (h : WalkAlike a b) : itemAsked q value a = itemAsked q value b := by
  obtain ⟨p, i⟩ := a
  obtain ⟨p', j⟩ := b
  obtain ⟨h1, h2⟩ := h
  dsimp only at h1 h2
  subst h1
  cases h2
  rfl

/-- What is found in an outline does not depend on the order of children. -/
theorem outlineFind_reordered (q : Str × Str) (value : Val) (secs : Option (List Str)) : ∀ {D D' : List Part}, List.Forall₂ PartReordered D D' →
    ∃ m, m.Perm (outlineFind D' q value secs) ∧ List.Forall₂ Reordered (outlineFind D q value secs) m
  | [], [], .nil => ⟨[], .refl _, .nil⟩
  | d :: D, d' :: D', .cons h hs => by
    obtain ⟨m, h1, h2⟩ := outlineFind_reordered q value secs hs
    have hpa : partAsked secs d' = partAsked secs d := by unfold partAsked; rw [h.name]
    obtain ⟨w, g1, g2⟩ : ∃ w, w.Perm (lookedAt q d') ∧ List.Forall₂ WalkAlike (lookedAt q d) w := by
      unfold lookedAt
      split
      · refine ⟨_, .refl _, ?_⟩
        rw [List.forall₂_map_left_iff, List.forall₂_map_right_iff]
        exact h.items.imp fun i j hij => ⟨rfl, hij⟩
      · exact walkL_reordered d.items _ h.items
    unfold outlineFind at h1 h2 ⊢
    rw [List.flatMap_cons, List.flatMap_cons, hpa]
    refine ⟨(if partAsked secs d then (w.filter (itemAsked q value)).map Prod.snd else []) ++ m, .append ?_ h1, List.rel_append ?_ h2⟩
    · split
      · exact (g1.filter _).map _
      · exact .refl _
    · split
      · rw [List.forall₂_map_left_iff, List.forall₂_map_right_iff]
        exact (forall₂_filter g2 fun a b => itemAsked_alike).imp fun a b h => h.2
      · exact .nil

theorem perm_forall₂ {α β : Type} {R : α → β → Prop} {l : List α} {m m' : List β} (h : List.Forall₂ R l m) (hp : m.Perm m') :
    ∃ l', l'.Perm l ∧ List.Forall₂ R l' m' := by
  induction hp generalizing l with
  | nil => exact ⟨l, .refl _, h⟩
  | cons x _ ih =>
    cases h with
    | cons a b =>
      obtain ⟨l', h1, h2⟩ := ih b
      exact ⟨_ :: l', h1.cons _, .cons a h2⟩
  | swap x y r =>
    cases h with
    | cons a b => cases b with
      | cons b c => exact ⟨_, .swap _ _ _, .cons b (.cons a c)⟩
  | trans _ _ ih1 ih2 =>
    obtain ⟨l1, h1, h2⟩ := ih1 h
    obtain ⟨l2, h3, h4⟩ := ih2 h2
    exact ⟨l2, h3.trans h1, h4⟩

theorem forall₂_comp {α β γ : Type} {R : α → β → Prop} {S : β → γ → Prop} : ∀ {l : List α} {m : List β} {r : List γ}, List.Forall₂ R l m →
    List.Forall₂ S m r → List.Forall₂ (fun a c => ∃ b, R a b ∧ S b c) l r
  | [], [], [], .nil, .nil => .nil
  | _ :: _, _ :: _, _ :: _, .cons a as, .cons b bs => .cons ⟨_, a, b⟩ (forall₂_comp as bs)

/-- Searching two documents with outlines that differ in the order of children. -/
theorem found_same {s s' : St} (h : Reach Op.noAddChild s) (h' : Reach Op.noAddChild s') {D D' : List Part} (hD : Shows s D) (hD' : Shows s' D')
    (hi : Indexed s) (hi' : Indexed s') (hr : List.Forall₂ PartReordered D D') {A B : Str} (hA : PlainPart A)
    (hB : PlainPart B) (hst : A ≠ py!"*") (value : Val) (secs : Option (List Str)) :
    ∃ l l', find s (dotJoin A B) value secs = .ok l ∧ find s' (dotJoin A B) value secs = .ok l' ∧ FoundSame s s' l l' := by
  obtain ⟨l, m, e1, p1, f1⟩ := find_outline h hD hi hA hB hst value secs
  obtain ⟨l', m', e2, p2, f2⟩ := find_outline h' hD' hi' hA hB hst value secs
  obtain ⟨k, p3, f3⟩ := outlineFind_reordered (A, B) value secs hr
  obtain ⟨k', p4, f4⟩ := perm_forall₂ f2.flip p3.symm
  refine ⟨l, l', e1, e2, m, k', p1, p4.trans p2, ?_⟩
  exact (forall₂_comp (forall₂_comp f1.flip f3) f4.flip).imp fun t t' ⟨i', ⟨i, a, b⟩, c⟩ => ⟨i, i', a, c, b⟩

/-- **C98** (files). Every search in the document read from the CSV text of a document finds the same as in the document itself, apart
from the order. Documents that are not writable need not be read back as they are (see the witnesses of C50); names `*.B` also find
sections (`C98_star_witness`). -/
theorem C98_saved {s : St} (h : Reach Op.noAddChild s) {D : List Part} (hD : Shows s D) (hi : Indexed s) (hw : writable D = true)
    (hv : NamedValues s D) {env : Env} {classes : Dict Cls} (hcl : PlainClasses classes) (files : Files) (fuel : Nat) (path : Str) :
    ∃ text s', docCsv s = .ok text ∧ parseRows files (fuel + 1) path (readCsv text) (newDoc env classes) = .ok () s' ∧
      ∀ A B, PlainPart A → PlainPart B → A ≠ py!"*" → ∀ value secs, ∃ l l', find s (dotJoin A B) value secs = .ok l ∧
        find s' (dotJoin A B) value secs = .ok l' ∧ FoundSame s s' l l' := by
  have w : WF True s := h.wf fun _ op ha => ha
  obtain ⟨rows, s1, h1, h2, h3, h4, -⟩ := roundtrip w hD hw hv hcl files fuel path (env := env)
  refine ⟨asCsv (D.flatMap partRows), s1, ?_, ?_, fun A B hA hB hst value secs => ?_⟩
  · unfold docCsv
    rw [h1]
    show (cellRows rows >>= _) = _
    rw [h2]
    rfl
  · rw [C07_roundtrip]
    exact h3
  · exact found_same h (reach_read h3) hD h4 hi (C98_read (writable_plain hw) hcl files fuel path h3) (norm_reordered hw) hA hB hst value secs

end Metatab
