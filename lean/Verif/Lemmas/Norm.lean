import Verif.Lemmas.ReadDoc
import Mathlib.Data.List.Perm.Basic
import Mathlib.Data.List.Nodup
/-! The order in which children are read back. -/
namespace Metatab
open Py _root_.Spec

theorem leaf_unique {ks : List Item} (hn : ((ks.filter Item.leaf).map Item.name).Nodup) {k k' : Item} (h : k ∈ ks) (h' : k' ∈ ks) (hl : k.leaf = true)
    (hl' : k'.leaf = true) (he : k.name = k'.name) : k = k' :=
  List.inj_on_of_nodup_map hn (List.mem_filter.2 ⟨h, hl⟩) (List.mem_filter.2 ⟨h', hl'⟩) he

theorem colKid_iff {ks : List Item} (hn : ((ks.filter Item.leaf).map Item.name).Nodup) {c : Str} {k : Item} :
    colKid ks c = some k ↔ k ∈ ks ∧ k.leaf = true ∧ k.name = lower c := by
  constructor
  · exact colKid_some
  · rintro ⟨h1, h2, h3⟩
    cases hk : colKid ks c with
    | none =>
      unfold colKid at hk
      rw [List.find?_eq_none] at hk
      exact absurd (by simp [h2, h3]) (hk k h1)
    | some k' =>
      obtain ⟨g1, g2, g3⟩ := colKid_some hk
      rw [leaf_unique hn g1 h1 g2 h2 (g3.trans h3.symm)]

theorem colKids_perm {cols n} {ks : List Item} (hc : ColsOk cols) (hn : ((ks.filter Item.leaf).map Item.name).Nodup) (hk : okKids cols n ks = true) :
    (cols.filterMap (colKid ks)).Perm (ks.filter (inCols cols)) := by
  rw [List.perm_ext_iff_of_nodup]
  · intro k
    rw [List.mem_filterMap, List.mem_filter]
    constructor
    · rintro ⟨c, h1, h2⟩
      obtain ⟨g1, g2, g3⟩ := colKid_some h2
      exact ⟨g1, inCols_iff.2 ⟨g2, g3 ▸ List.mem_map.2 ⟨c, h1, rfl⟩⟩⟩
    · rintro ⟨h1, h2⟩
      obtain ⟨g1, g2⟩ := inCols_iff.1 h2
      obtain ⟨c, h3, h4⟩ := List.mem_map.1 g2
      exact ⟨c, h3, (colKid_iff hn).2 ⟨h1, g1, h4.symm⟩⟩
  · unfold ColsOk List.Nodup at hc
    rw [List.pairwise_map, List.pairwise_filter] at hc
    unfold List.Nodup
    rw [List.pairwise_filterMap]
    refine hc.imp ?_
    intro a a' h b hb b' hb' e
    subst e
    obtain ⟨g1, g2, g3⟩ := colKid_some hb
    obtain ⟨-, -, g3'⟩ := colKid_some hb'
    have hne := (okKids_name hk g1).2.1
    have h1 : a ≠ [] := by rintro rfl; exact hne g3
    have h2 : a' ≠ [] := by rintro rfl; exact hne g3'
    exact h (by simpa using h1) (by simpa using h2) (g3.symm.trans g3')
  · have h1 : (ks.filter Item.leaf).Nodup := List.Nodup.of_map _ hn
    have h2 : ks.filter (inCols cols) = (ks.filter Item.leaf).filter (inCols cols) := by
      rw [List.filter_filter]
      refine List.filter_congr ?_
      intro k _
      cases hin : inCols cols k with
      | false => simp
      | true => simp [(inCols_iff.1 hin).1]
    rw [h2]
    exact h1.filter _

theorem normL_eq (cols : List Str) (ks : List Item) : normL cols ks = (ks.filter fun k => !k.leaf).map (Item.norm cols) := by
  induction ks with
  | nil => rfl
  | cons k ks ih =>
    rw [normL, ih]
    cases hl : k.leaf with
    | true => simp [hl]
    | false => simp [hl]

theorem filter_perm_append {α : Type} (p : α → Bool) (l : List α) : (l.filter p ++ l.filter fun x => !p x).Perm l :=
  List.filter_append_perm p l

/-- The children of a normalised item. -/
def normKids (cols : List Str) (ks : List Item) : List Item :=
  cols.filterMap (colKid ks) ++ (ks.filter fun k => k.leaf && !inCols cols k) ++ normL cols ks

theorem norm_mk (cols : List Str) (n : Str) (v : Option Str) (ks : List Item) : (Item.mk n v ks).norm cols = .mk n v (normKids cols ks) := by
  rw [Item.norm]; rfl

theorem norm_leaf {cols : List Str} {k : Item} (h : k.leaf = true) : k.norm cols = k := by
  cases k with
  | mk n v ks =>
    have : ks = [] := by simpa [Item.leaf, Item.kids] using h
    subst this
    rw [norm_mk]
    have hc : ∀ c, colKid [] c = none := fun c => rfl
    have : cols.filterMap (colKid []) = [] := by rw [List.filterMap_eq_nil_iff]; exact fun c _ => hc c
    unfold normKids
    rw [this]
    rfl

theorem normKids_perm {cols n} {ks : List Item} (hc : ColsOk cols) (hn : ((ks.filter Item.leaf).map Item.name).Nodup) (hk : okKids cols n ks = true) :
    (normKids cols ks).Perm (ks.map (Item.norm cols)) := by
  have h1 : (cols.filterMap (colKid ks) ++ ks.filter fun k => k.leaf && !inCols cols k).Perm (ks.filter Item.leaf) := by
    have e1 : ks.filter (inCols cols) = (ks.filter Item.leaf).filter (inCols cols) := by
      rw [List.filter_filter]
      refine List.filter_congr ?_
      intro k _
      cases hin : inCols cols k with
      | false => simp
      | true => simp [(inCols_iff.1 hin).1]
    have e2 : (ks.filter fun k => k.leaf && !inCols cols k) = (ks.filter Item.leaf).filter fun k => !inCols cols k := by
      rw [List.filter_filter]
      refine List.filter_congr ?_
      intro k _
      rw [Bool.and_comm]
    rw [e2]
    refine List.Perm.trans (List.Perm.append_right _ (colKids_perm hc hn hk)) ?_
    rw [e1]
    exact List.filter_append_perm _ _
  have h2 : ks.filter Item.leaf = (ks.filter Item.leaf).map (Item.norm cols) := by
    conv_lhs => rw [← List.map_id (ks.filter Item.leaf)]
    refine List.map_congr_left ?_
    intro k hk
    exact (norm_leaf (List.mem_filter.1 hk).2).symm
  unfold normKids
  rw [normL_eq]
  refine (List.Perm.append_right _ h1).trans ?_
  rw [h2, ← List.map_append]
  exact (List.filter_append_perm Item.leaf ks).map _

theorem mem_rowNamesL {cols : List Str} {m : Str} {ks : List Item} : m ∈ rowNamesL cols ks ↔ ∃ k ∈ ks, inCols cols k = false ∧ m ∈ k.rowNames cols := by
  induction ks with
  | nil => rw [rowNamesL]; simp
  | cons k ks ih =>
    rw [rowNamesL, List.mem_append, ih]
    cases h : inCols cols k <;> simp [h]

theorem okKids_iff {cols : List Str} {n : Str} {ks : List Item} : okKids cols n ks = true ↔ ∀ k ∈ ks,
    (inCols cols k = true ∧ k.name ≠ [] ∧ k.value.isSome = true ∧ cleanValue k.value = true) ∨
    (inCols cols k = false ∧ k.ok cols n = true ∧ (py!"root").isSuffixOf n = false) := by
  constructor
  · exact fun h k hk => okKids_mem h hk
  · intro h
    induction ks with
    | nil => rfl
    | cons k ks ih =>
      unfold okKids
      rw [ih fun k hk => h k (List.mem_cons_of_mem _ hk), Bool.and_true]
      rcases h k List.mem_cons_self with ⟨h1, h2, h3, h4⟩ | ⟨h1, h2, h3⟩
      · simp [h1, h2, h3, h4]
      · rw [h1, h2, h3]; rfl

theorem colKid_congr {ks ks' : List Item} (hp : (ks'.filter Item.leaf).Perm (ks.filter Item.leaf)) (hn : ((ks.filter Item.leaf).map Item.name).Nodup)
    (c : Str) : colKid ks' c = colKid ks c := by
  have hn' : ((ks'.filter Item.leaf).map Item.name).Nodup := (hp.map _).nodup_iff.2 hn
  apply Option.ext
  intro k
  have hm : ∀ k : Item, k ∈ ks' ∧ k.leaf = true ↔ k ∈ ks ∧ k.leaf = true := by
    intro k
    rw [← List.mem_filter, ← List.mem_filter]
    exact hp.mem_iff
  rw [colKid_iff hn, colKid_iff hn', ← and_assoc, hm, and_assoc]

/-- What normalising keeps. -/
structure NormOk (cols : List Str) (k : Item) : Prop where
  ok : ∀ n, k.ok cols n = true → (k.norm cols).ok cols n = true
  leaf : (k.norm cols).leaf = k.leaf
  name : (k.norm cols).name = k.name
  value : (k.norm cols).value = k.value
  rowNames : ∀ m, m ∈ (k.norm cols).rowNames cols ↔ m ∈ k.rowNames cols
  reordered : Reordered k (k.norm cols)
  again : (k.norm cols).norm cols = k.norm cols

theorem reordered_leaf {k : Item} (h : k.leaf = true) : Reordered k k := by
  cases k with
  | mk n v ks =>
    have : ks = [] := by simpa [Item.leaf, Item.kids] using h
    subst this
    exact .mk .nil (.refl _)

theorem normOk_leaf {cols : List Str} {k : Item} (h : k.leaf = true) : NormOk cols k := by
  refine ⟨?_, ?_, ?_, ?_, ?_, ?_, ?_⟩ <;> rw [norm_leaf h]
  · exact fun _ h => h
  · exact fun _ => Iff.rfl
  · exact reordered_leaf h
  · rw [norm_leaf h]

theorem inCols_norm {cols : List Str} {k : Item} (h : NormOk cols k) : inCols cols (k.norm cols) = inCols cols k := by
  unfold inCols; rw [h.leaf, h.name]

mutual
theorem normOk_item {cols : List Str} (hc : ColsOk cols) : ∀ (i : Item) {p : Str}, i.ok cols p = true → NormOk cols i
  | .mk n v ks, p => by
    intro h
    have ok := okItem_iff.1 h
    have hp := normKids_perm hc ok.nodup ok.kids
    have hk := normOk_items hc ks ok.kids
    have hm : ∀ k, k ∈ normKids cols ks ↔ ∃ k0 ∈ ks, k0.norm cols = k := by
      intro k; rw [hp.mem_iff, List.mem_map]
    have hleaf : (normKids cols ks).filter Item.leaf |>.Perm (ks.filter Item.leaf) := by
      refine (hp.filter _).trans ?_
      have : (ks.map (Item.norm cols)).filter Item.leaf = ks.filter Item.leaf := by
        rw [List.filter_map]
        have e1 : ks.filter (Item.leaf ∘ Item.norm cols) = ks.filter Item.leaf :=
          List.filter_congr fun k hkm => (hk k hkm).leaf
        rw [e1]
        conv_rhs => rw [← List.map_id (ks.filter Item.leaf)]
        exact List.map_congr_left fun k hkm => norm_leaf (List.mem_filter.1 hkm).2
      rw [this]
    have hrows : ∀ m, m ∈ rowNamesL cols (normKids cols ks) ↔ m ∈ rowNamesL cols ks := by
      intro m
      rw [mem_rowNamesL, mem_rowNamesL]
      constructor
      · rintro ⟨k, h1, h2, h3⟩
        obtain ⟨k0, h4, rfl⟩ := (hm k).1 h1
        rw [inCols_norm (hk k0 h4)] at h2
        exact ⟨k0, h4, h2, ((hk k0 h4).rowNames m).1 h3⟩
      · rintro ⟨k0, h1, h2, h3⟩
        exact ⟨_, (hm _).2 ⟨k0, h1, rfl⟩, by rw [inCols_norm (hk k0 h1)]; exact h2, ((hk k0 h1).rowNames m).2 h3⟩
    refine ⟨?_, ?_, ?_, ?_, ?_, ?_, ?_⟩
    · intro q hq
      have ok' := okItem_iff.1 hq
      rw [norm_mk, okItem_iff]
      refine ⟨ok'.clean, ok'.ne, ok'.value, (hleaf.map _).nodup_iff.2 ok'.nodup, ?_, ?_, ?_⟩
      · rw [(hleaf.map _).mem_iff]; exact ok'.noValue
      · rw [hrows]; exact ok'.rows
      · rw [okKids_iff]
        intro k hkm
        obtain ⟨k0, h1, rfl⟩ := (hm k).1 hkm
        have nk := hk k0 h1
        rw [inCols_norm nk, nk.name, nk.value]
        rcases okKids_mem ok'.kids h1 with g | ⟨g1, g2, g3⟩
        · exact .inl g
        · exact .inr ⟨g1, nk.ok _ g2, g3⟩
    · rw [norm_mk]
      have := hp.length_eq
      rw [List.length_map] at this
      unfold Item.leaf Item.kids
      simp only
      cases hks : ks with
      | nil =>
        rw [hks] at this
        rw [List.length_nil] at this
        rw [List.length_eq_zero_iff.1 this]
      | cons a l =>
        rw [hks, List.length_cons] at this
        cases hnk : normKids cols (a :: l) with
        | nil => rw [hnk] at this; cases this
        | cons _ _ => rfl
    · rw [norm_mk]; rfl
    · rw [norm_mk]; rfl
    · intro m
      rw [norm_mk, Item.rowNames, Item.rowNames, List.mem_cons, List.mem_cons, hrows]
    · rw [norm_mk]
      refine .mk (l := ks.map (Item.norm cols)) ?_ hp.symm
      rw [List.forall₂_map_right_iff, List.forall₂_same]
      exact fun k hkm => (hk k hkm).reordered
    · rw [norm_mk, norm_mk]
      congr 1
      have h1 : cols.filterMap (colKid (normKids cols ks)) = cols.filterMap (colKid ks) :=
        List.filterMap_congr fun c _ => colKid_congr hleaf ok.nodup c
      have hA : ∀ k ∈ cols.filterMap (colKid ks), k.leaf = true ∧ inCols cols k = true := by
        intro k hkm
        have := (colKids_perm hc ok.nodup ok.kids).mem_iff.1 hkm
        have := (List.mem_filter.1 this).2
        exact ⟨(inCols_iff.1 this).1, this⟩
      have hC : ∀ k ∈ normL cols ks, k.leaf = false ∧ k.norm cols = k := by
        intro k hkm
        rw [normL_eq] at hkm
        obtain ⟨k0, h1, rfl⟩ := List.mem_map.1 hkm
        obtain ⟨h1, h2⟩ := List.mem_filter.1 h1
        exact ⟨by rw [(hk k0 h1).leaf]; simpa using h2, (hk k0 h1).again⟩
      have h2 : ((normKids cols ks).filter fun k => k.leaf && !inCols cols k) = ks.filter fun k => k.leaf && !inCols cols k := by
        unfold normKids
        rw [List.filter_append, List.filter_append, List.filter_filter]
        have e1 : ((cols.filterMap (colKid ks)).filter fun k => k.leaf && !inCols cols k) = [] := by
          rw [List.filter_eq_nil_iff]
          intro k hkm
          simp [hA k hkm]
        have e2 : ((normL cols ks).filter fun k => k.leaf && !inCols cols k) = [] := by
          rw [List.filter_eq_nil_iff]
          intro k hkm
          simp [(hC k hkm).1]
        rw [e1, e2, List.nil_append, List.append_nil]
        exact List.filter_congr fun k _ => by simp
      have h3 : normL cols (normKids cols ks) = normL cols ks := by
        rw [normL_eq cols (normKids cols ks)]
        unfold normKids
        rw [List.filter_append, List.filter_append]
        have e1 : ((cols.filterMap (colKid ks)).filter fun k => !k.leaf) = [] := by
          rw [List.filter_eq_nil_iff]
          intro k hkm
          simp [hA k hkm]
        have e2 : ((ks.filter fun k => k.leaf && !inCols cols k).filter fun k => !k.leaf) = [] := by
          rw [List.filter_eq_nil_iff]
          intro k hkm
          have := (List.mem_filter.1 hkm).2
          rw [Bool.and_eq_true] at this
          simp [this.1]
        have e3 : ((normL cols ks).filter fun k => !k.leaf) = normL cols ks := by
          rw [List.filter_eq_self]
          intro k hkm
          simp [(hC k hkm).1]
        rw [e1, e2, e3, List.nil_append, List.nil_append]
        conv_rhs => rw [← List.map_id (normL cols ks)]
        exact List.map_congr_left fun k hkm => (hC k hkm).2
      show cols.filterMap (colKid (normKids cols ks)) ++ ((normKids cols ks).filter fun k => k.leaf && !inCols cols k) ++ normL cols (normKids cols ks) = _
      rw [h1, h2, h3]
      rfl
theorem normOk_items {cols : List Str} (hc : ColsOk cols) : ∀ (ks : List Item) {n : Str}, okKids cols n ks = true → ∀ k ∈ ks, NormOk cols k
  | [], n => by
    intro _ k hk
    cases hk
  | k :: ks, n => by
    intro h k' hk'
    have h1 := okKids_mem h (k := k) List.mem_cons_self
    have h' : okKids cols n ks = true := by unfold okKids at h; rw [Bool.and_eq_true] at h; exact h.2
    rcases List.mem_cons.1 hk' with e | hk'
    · rw [e]
      rcases h1 with ⟨g, -⟩ | ⟨-, g, -⟩
      · exact normOk_leaf (inCols_iff.1 g).1
      · exact normOk_item hc k g
    · exact normOk_items hc ks h' k' hk'
end

theorem colsOk_nil : ColsOk [] := by unfold ColsOk; simp

theorem normOk_all {cols : List Str} (hc : ColsOk cols) {is : List Item} (h : is.all (Item.ok cols (py!"root")) = true) : ∀ i ∈ is, NormOk cols i :=
  fun i hi => normOk_item hc i (List.all_eq_true.1 h i hi)

theorem items_norm_ok {cols : List Str} (hc : ColsOk cols) {is : List Item} (h : is.all (Item.ok cols (py!"root")) = true) :
    (is.map (Item.norm cols)).all (Item.ok cols (py!"root")) = true := by
  rw [List.all_map, List.all_eq_true]
  intro i hi
  exact (normOk_all hc h i hi).ok _ (List.all_eq_true.1 h i hi)

theorem partOk_norm {d : Part} (h : PartOk d) : PartOk d.norm :=
  ⟨h.ne, h.strip, h.notRoot, h.free, h.cols, h.nodup, items_norm_ok h.nodup h.items⟩

/-- Outlines read back can be written again. -/
theorem writable_norm {D : List Part} (h : writable D = true) : writable (D.map Part.norm) = true := by
  obtain ⟨r, ds, rfl, w⟩ := writable_iff.1 h
  rw [List.map_cons, writable_iff]
  refine ⟨_, _, rfl, w.name, w.cols, ?_, ?_, ?_⟩
  · show (r.items.map (Item.norm r.cols)).all _ = true
    rw [w.cols]
    exact items_norm_ok colsOk_nil w.items
  · intro d hd
    obtain ⟨d0, hd0, rfl⟩ := List.mem_map.1 hd
    exact partOk_norm (w.parts d0 hd0)
  · rw [List.map_map]
    exact w.nodup

theorem writable_part {D : List Part} (h : writable D = true) : ∀ d ∈ D, PartWritable d := by
  obtain ⟨r, ds, rfl, w⟩ := writable_iff.1 h
  intro d hd
  rcases List.mem_cons.1 hd with rfl | hd
  · unfold PartWritable
    rw [w.cols]
    exact ⟨colsOk_nil, w.items⟩
  · exact ⟨(w.parts d hd).nodup, (w.parts d hd).items⟩

theorem writable_nodup {D : List Part} (h : writable D = true) : (D.map fun d => lower d.name).Nodup := by
  obtain ⟨r, ds, rfl, w⟩ := writable_iff.1 h
  rw [List.map_cons, List.nodup_cons]
  refine ⟨?_, w.nodup⟩
  have : lower r.name = py!"root" := by rw [w.name]; decide +kernel
  rw [this]
  intro hm
  obtain ⟨d, hd, e⟩ := List.mem_map.1 hm
  exact (w.parts d hd).notRoot e

/-- Normalising only reorders. -/
theorem norm_reordered {D : List Part} (h : writable D = true) : List.Forall₂ PartReordered D (D.map Part.norm) := by
  rw [List.forall₂_map_right_iff, List.forall₂_same]
  intro d hd
  obtain ⟨h1, h2⟩ := writable_part h d hd
  refine ⟨rfl, rfl, ?_⟩
  show List.Forall₂ Reordered d.items (d.items.map (Item.norm d.cols))
  rw [List.forall₂_map_right_iff, List.forall₂_same]
  exact fun i hi => (normOk_all h1 h2 i hi).reordered

theorem norm_again {D : List Part} (h : writable D = true) : (D.map Part.norm).map Part.norm = D.map Part.norm := by
  rw [List.map_map]
  refine List.map_congr_left ?_
  intro d hd
  obtain ⟨h1, h2⟩ := writable_part h d hd
  show ({ d with items := (d.items.map (Item.norm d.cols)).map (Item.norm d.cols) } : Part) = { d with items := d.items.map (Item.norm d.cols) }
  congr 1
  rw [List.map_map]
  refine List.map_congr_left ?_
  exact fun i hi => (normOk_all h1 h2 i hi).again

/-! ## The order does not show in the rows -/

theorem itemRowsL_eq (cols : List Str) (p : Str) (ks : List Item) : itemRowsL cols p ks = (ks.filter fun k => !k.leaf).flatMap (itemRows cols p) := by
  induction ks with
  | nil => rw [itemRowsL]; rfl
  | cons k ks ih =>
    rw [itemRowsL, ih]
    cases hl : k.leaf with
    | true => simp [hl]
    | false => simp [hl]

mutual
theorem itemRows_norm {cols : List Str} (hc : ColsOk cols) : ∀ (i : Item) {p : Str}, i.ok cols p = true → itemRows cols p (i.norm cols) = itemRows cols p i
  | .mk n v ks, p => by
    intro h
    have ok := okItem_iff.1 h
    have hk := normOk_items hc ks ok.kids
    have hleaf : (normKids cols ks).filter Item.leaf |>.Perm (ks.filter Item.leaf) := by
      refine ((normKids_perm hc ok.nodup ok.kids).filter _).trans ?_
      have : (ks.map (Item.norm cols)).filter Item.leaf = ks.filter Item.leaf := by
        rw [List.filter_map]
        have e1 : ks.filter (Item.leaf ∘ Item.norm cols) = ks.filter Item.leaf :=
          List.filter_congr fun k hkm => (hk k hkm).leaf
        rw [e1]
        conv_rhs => rw [← List.map_id (ks.filter Item.leaf)]
        exact List.map_congr_left fun k hkm => norm_leaf (List.mem_filter.1 hkm).2
      rw [this]
    have hA : ∀ k ∈ cols.filterMap (colKid ks), k.leaf = true ∧ inCols cols k = true := by
      intro k hkm
      have := (colKids_perm hc ok.nodup ok.kids).mem_iff.1 hkm
      have := (List.mem_filter.1 this).2
      exact ⟨(inCols_iff.1 this).1, this⟩
    have hC : ∀ k ∈ normL cols ks, k.leaf = false := by
      intro k hkm
      rw [normL_eq] at hkm
      obtain ⟨k0, h1, rfl⟩ := List.mem_map.1 hkm
      obtain ⟨h1, h2⟩ := List.mem_filter.1 h1
      rw [(hk k0 h1).leaf]; simpa using h2
    have h2 : otherLeaves cols (normKids cols ks) = otherLeaves cols ks := by
      unfold otherLeaves normKids
      rw [List.filter_append, List.filter_append, List.filter_filter]
      have e1 : ((cols.filterMap (colKid ks)).filter fun k => k.leaf && !inCols cols k) = [] := by
        rw [List.filter_eq_nil_iff]
        intro k hkm
        simp [hA k hkm]
      have e2 : ((normL cols ks).filter fun k => k.leaf && !inCols cols k) = [] := by
        rw [List.filter_eq_nil_iff]
        intro k hkm
        simp [hC k hkm]
      rw [e1, e2, List.nil_append, List.append_nil]
      exact List.filter_congr fun k _ => by simp
    have h3 : itemRowsL cols n (normKids cols ks) = itemRowsL cols n ks := by
      rw [itemRowsL_eq cols n (normKids cols ks)]
      unfold normKids
      rw [List.filter_append, List.filter_append]
      have e1 : ((cols.filterMap (colKid ks)).filter fun k => !k.leaf) = [] := by
        rw [List.filter_eq_nil_iff]
        intro k hkm
        simp [hA k hkm]
      have e2 : ((ks.filter fun k => k.leaf && !inCols cols k).filter fun k => !k.leaf) = [] := by
        rw [List.filter_eq_nil_iff]
        intro k hkm
        have := (List.mem_filter.1 hkm).2
        rw [Bool.and_eq_true] at this
        simp [this.1]
      have e3 : ((normL cols ks).filter fun k => !k.leaf) = normL cols ks := by
        rw [List.filter_eq_self]
        intro k hkm
        simp [hC k hkm]
      rw [e1, e2, e3, List.nil_append, List.nil_append]
      exact itemRowsL_norm hc ks ok.kids
    rw [norm_mk, itemRows, itemRows, h2, h3]
    have h1 : cols.map (leafCell (normKids cols ks)) = cols.map (leafCell ks) := by
      refine List.map_congr_left fun c _ => ?_
      unfold leafCell
      rw [colKid_congr hleaf ok.nodup]
    rw [h1]
theorem itemRowsL_norm {cols : List Str} (hc : ColsOk cols) : ∀ (ks : List Item) {n : Str}, okKids cols n ks = true →
    (normL cols ks).flatMap (itemRows cols n) = itemRowsL cols n ks
  | [], n => by
    intro _
    rw [normL, itemRowsL]
    rfl
  | k :: ks, n => by
    intro h
    have h1 := okKids_mem h (k := k) List.mem_cons_self
    have h' : okKids cols n ks = true := by unfold okKids at h; rw [Bool.and_eq_true] at h; exact h.2
    have ih := itemRowsL_norm hc ks h'
    rw [normL, itemRowsL]
    cases hl : k.leaf with
    | true => simpa using ih
    | false =>
      simp only [Bool.false_eq_true, if_false, List.flatMap_cons]
      rw [ih]
      congr 1
      rcases h1 with ⟨g, -⟩ | ⟨-, g, -⟩
      · rw [(inCols_iff.1 g).1] at hl; cases hl
      · exact itemRows_norm hc k g
end

theorem flatMap_ext {α β : Type} {f g : α → List β} {l : List α} (h : ∀ a ∈ l, f a = g a) : l.flatMap f = l.flatMap g := by
  induction l with
  | nil => rfl
  | cons a l ih => rw [List.flatMap_cons, List.flatMap_cons, h a List.mem_cons_self, ih fun a ha => h a (List.mem_cons_of_mem _ ha)]

/-- The rows of an outline do not show the order. -/
theorem rows_norm {D : List Part} (h : writable D = true) : (D.map Part.norm).flatMap partRows = D.flatMap partRows := by
  rw [List.flatMap_map]
  refine flatMap_ext ?_
  intro d hd
  obtain ⟨h1, h2⟩ := writable_part h d hd
  unfold partRows
  congr 1
  show (d.items.map (Item.norm d.cols)).flatMap (itemRows d.cols (py!"root")) = _
  rw [List.flatMap_map]
  refine flatMap_ext ?_
  intro i hi
  exact itemRows_norm h1 i (List.all_eq_true.1 h2 i hi)

end Metatab
