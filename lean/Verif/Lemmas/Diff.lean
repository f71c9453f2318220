import Verif.Spec.Diff
import Verif.Lemmas.Norm
import Verif.Spec.OutlineEdit
/-! How the rows of an outline change with the outline. -/
namespace Metatab
open Py _root_.Spec

theorem replaces_self {α : Type} (X Y : List α) : Replaces X Y X Y := ⟨[], [], by simp, by simp⟩

theorem replaces_ctx {α : Type} {X Y R R' : List α} (h : Replaces X Y R R') (A B : List α) : Replaces X Y (A ++ R ++ B) (A ++ R' ++ B) := by
  obtain ⟨C, D, rfl, rfl⟩ := h
  exact ⟨A ++ C, D ++ B, by simp, by simp⟩

theorem modify_split {α : Type} {l : List α} {m : Nat} {a : α} (h : l[m]? = some a) :
    ∃ pre post, l = pre ++ a :: post ∧ pre.length = m ∧ ∀ f : α → α, l.modify m f = pre ++ f a :: post := by
  induction l generalizing m with
  | nil => cases h
  | cons b l ih =>
    cases m with
    | zero =>
      cases h
      exact ⟨[], l, rfl, rfl, fun f => rfl⟩
    | succ m =>
      obtain ⟨pre, post, h1, h2, h3⟩ := ih (by simpa using h)
      refine ⟨b :: pre, post, by rw [h1]; rfl, by simp [h2], fun f => ?_⟩
      show b :: l.modify m f = _
      rw [h3]
      rfl

theorem itemRowsL_append {cols : List Str} {p : Str} : ∀ {a b : List Item}, itemRowsL cols p (a ++ b) = itemRowsL cols p a ++ itemRowsL cols p b
  | [], b => by rw [List.nil_append, itemRowsL, List.nil_append]
  | k :: a, b => by rw [List.cons_append, itemRowsL, itemRowsL, itemRowsL_append, List.append_assoc]

/-- Two lists of children that look the same in columns and rows of terminal children. -/
theorem leaves_same {cols : List Str} {pre post : List Item} {k k' : Item} (h : k.leaf = false) (h' : k'.leaf = false) :
    (∀ c, leafCell (pre ++ k :: post) c = leafCell (pre ++ k' :: post) c) ∧
      otherLeaves cols (pre ++ k :: post) = otherLeaves cols (pre ++ k' :: post) := by
  constructor
  · intro c
    unfold leafCell colKid
    rw [List.find?_append, List.find?_append, List.find?_cons_of_neg (by simp [h]), List.find?_cons_of_neg (by simp [h'])]
  · unfold otherLeaves
    rw [List.filter_append, List.filter_append, List.filter_cons_of_neg (by simp [h]), List.filter_cons_of_neg (by simp [h'])]

/-- A change inside a child with children is a change inside the rows of the term. -/
theorem rows_kid {cols : List Str} {P n : Str} {w : Option Str} {pre post : List Item} {k k' : Item} {X Y : List (List Str)}
    (h : k.leaf = false) (h' : k'.leaf = false) (hr : Replaces X Y (itemRows cols n k) (itemRows cols n k')) :
    Replaces X Y (itemRows cols P (.mk n w (pre ++ k :: post))) (itemRows cols P (.mk n w (pre ++ k' :: post))) := by
  obtain ⟨e1, e2⟩ := leaves_same (cols := cols) (pre := pre) (post := post) h h'
  have hl : ∀ j : Item, j.leaf = false → itemRowsL cols n (pre ++ j :: post) = itemRowsL cols n pre ++ itemRows cols n j ++ itemRowsL cols n post := by
    intro j hj
    rw [itemRowsL_append, itemRowsL, hj]
    simp
  rw [itemRows, itemRows, hl k h, hl k' h', funext e1, e2]
  have := replaces_ctx hr ((rowName (dotJoin P n) :: valCell w :: cols.map (leafCell (pre ++ k' :: post))) ::
    ((otherLeaves cols (pre ++ k' :: post)).map (fun k => [rowName (dotJoin n k.name), valCell k.value]) ++ itemRowsL cols n pre)) (itemRowsL cols n post)
  simpa using this

/-- Two versions of a row that differ in one cell, which is the value or that of a column. -/
def CellAt (cols : List Str) (u v : Str) (X Y : List (List Str)) : Prop :=
  (∃ c y, X = [c :: u :: y] ∧ Y = [c :: v :: y]) ∨
    ∃ c w a b c1 cc c2, cols = c1 ++ cc :: c2 ∧ a.length = c1.length ∧ X = [c :: w :: (a ++ u :: b)] ∧ Y = [c :: w :: (a ++ v :: b)]

theorem CellAt.cell {cols : List Str} {u v : Str} {X Y : List (List Str)} (h : CellAt cols u v X Y) : ∃ x y, X = [x ++ u :: y] ∧ Y = [x ++ v :: y] := by
  rcases h with ⟨c, y, rfl, rfl⟩ | ⟨c, w, a, b, -, -, -, -, -, rfl, rfl⟩
  · exact ⟨[c], y, rfl, rfl⟩
  · exact ⟨c :: w :: a, b, rfl, rfl⟩

/-- Setting the value of a term changes the second cell of its first row. -/
theorem rows_value {cols : List Str} {P n : Str} {u v : Option Str} {ks : List Item} :
    ∃ X Y, CellAt cols (valCell u) (valCell v) X Y ∧ Replaces X Y (itemRows cols P (.mk n u ks)) (itemRows cols P (.mk n v ks)) := by
  rw [itemRows, itemRows]
  exact ⟨_, _, .inl ⟨rowName (dotJoin P n), cols.map (leafCell ks), rfl, rfl⟩, [], _, rfl, rfl⟩

/-! ## Terminal children -/

theorem leafCell_other {pre post : List Item} {k k' : Item} {c : Str} (h : lower c ≠ k.name) (h' : lower c ≠ k'.name) :
    leafCell (pre ++ k :: post) c = leafCell (pre ++ k' :: post) c := by
  unfold leafCell colKid
  rw [List.find?_append, List.find?_append, List.find?_cons_of_neg (by simp [h.symm]), List.find?_cons_of_neg (by simp [h'.symm])]

theorem leafCell_own {pre post : List Item} {k : Item} {c : Str} (hl : k.leaf = true) (hc : lower c = k.name)
    (hn : (((pre ++ k :: post).filter Item.leaf).map Item.name).Nodup) : leafCell (pre ++ k :: post) c = valCell k.value := by
  unfold leafCell colKid
  have hp : pre.find? (fun k => k.leaf && decide (k.name = lower c)) = none := by
    rw [List.find?_eq_none]
    intro j hj hh
    simp only [Bool.and_eq_true, decide_eq_true_eq] at hh
    rw [List.filter_append, List.map_append, List.filter_cons_of_pos hl, List.map_cons] at hn
    exact (List.nodup_append.1 hn).2.2 j.name (List.mem_map_of_mem (List.mem_filter.2 ⟨hj, hh.1⟩)) k.name List.mem_cons_self (by rw [hh.2, hc])
  rw [List.find?_append, hp, List.find?_cons_of_pos (by simp [hl, hc])]
  rfl

/-- The one column with the name. -/
theorem cols_split {cols : List Str} (hc : ColsOk cols) {n : Str} (hn : n ≠ []) (hm : n ∈ cols.map lower) :
    ∃ c1 c c2, cols = c1 ++ c :: c2 ∧ lower c = n ∧ (∀ c' ∈ c1, lower c' ≠ n) ∧ ∀ c' ∈ c2, lower c' ≠ n := by
  obtain ⟨c, h1, h2⟩ := List.mem_map.1 hm
  obtain ⟨c1, c2, rfl⟩ := List.append_of_mem h1
  have ne : ∀ c', lower c' = n → c' ≠ [] := by
    rintro c' h rfl
    exact hn h.symm
  unfold ColsOk at hc
  rw [List.filter_append, List.map_append, List.filter_cons_of_pos (by simpa using ne c h2), List.map_cons, List.nodup_append, List.nodup_cons] at hc
  refine ⟨c1, c, c2, rfl, h2, fun c' hc' e => ?_, fun c' hc' e => ?_⟩
  · exact hc.2.2 _ (List.mem_map_of_mem (List.mem_filter.2 ⟨hc', by simpa using ne c' e⟩)) _ List.mem_cons_self (by rw [e, h2])
  · exact hc.2.1.1 (List.mem_map.2 ⟨c', List.mem_filter.2 ⟨hc', by simpa using ne c' e⟩, by rw [e, h2]⟩)

/-- Another value for a terminal child is another cell. -/
theorem rows_leaf {cols : List Str} (hcols : ColsOk cols) {P n m : Str} {w u v : Option Str} {pre post : List Item} (hm : m ≠ [])
    (hn : (((pre ++ Item.mk m u [] :: post).filter Item.leaf).map Item.name).Nodup) :
    ∃ X Y, CellAt cols (valCell u) (valCell v) X Y ∧
      Replaces X Y (itemRows cols P (.mk n w (pre ++ Item.mk m u [] :: post))) (itemRows cols P (.mk n w (pre ++ Item.mk m v [] :: post))) := by
  have hn' : (((pre ++ Item.mk m v [] :: post).filter Item.leaf).map Item.name).Nodup := by
    rw [List.filter_append, List.map_append, List.filter_cons_of_pos rfl, List.map_cons] at hn ⊢
    exact hn
  have hL : ∀ u, itemRowsL cols n (pre ++ Item.mk m u [] :: post) = itemRowsL cols n pre ++ itemRowsL cols n post := by
    intro u
    rw [itemRowsL_append, itemRowsL]
    rfl
  rw [itemRows, itemRows, hL, hL]
  by_cases hi : m ∈ cols.map lower
  · have ho : ∀ u, otherLeaves cols (pre ++ Item.mk m u [] :: post) = otherLeaves cols pre ++ otherLeaves cols post := by
      intro u
      unfold otherLeaves
      rw [List.filter_append, List.filter_cons_of_neg]
      have : inCols cols (.mk m u []) = true := inCols_iff.2 ⟨rfl, hi⟩
      simp [this]
    rw [ho, ho]
    obtain ⟨c1, c, c2, rfl, e2, e3, e4⟩ := cols_split hcols hm hi
    have hcell : ∀ u, (((pre ++ Item.mk m u [] :: post).filter Item.leaf).map Item.name).Nodup →
        (c1 ++ c :: c2).map (leafCell (pre ++ Item.mk m u [] :: post)) = c1.map (leafCell (pre ++ Item.mk m none [] :: post)) ++
          valCell u :: c2.map (leafCell (pre ++ Item.mk m none [] :: post)) := by
      intro u hu
      rw [List.map_append, List.map_cons, leafCell_own (c := c) (k := .mk m u []) rfl e2 hu]
      congr 1
      · exact List.map_congr_left fun c' hc' => leafCell_other (e3 c' hc') (e3 c' hc')
      · congr 1
        exact List.map_congr_left fun c' hc' => leafCell_other (e4 c' hc') (e4 c' hc')
    rw [hcell u hn, hcell v hn']
    exact ⟨_, _, .inr ⟨rowName (dotJoin P n), valCell w, c1.map (leafCell (pre ++ Item.mk m none [] :: post)),
      c2.map (leafCell (pre ++ Item.mk m none [] :: post)), c1, c, c2, rfl, by simp, rfl, rfl⟩, [], _, rfl, rfl⟩
  · have ho : ∀ u, otherLeaves cols (pre ++ Item.mk m u [] :: post) = otherLeaves cols pre ++ Item.mk m u [] :: otherLeaves cols post := by
      intro u
      unfold otherLeaves
      rw [List.filter_append, List.filter_cons_of_pos]
      have : inCols cols (.mk m u []) = false := by
        cases h : inCols cols (.mk m u []) with
        | false => rfl
        | true => exact absurd (inCols_iff.1 h).2 hi
      simp only [this]
      rfl
    have hcell : cols.map (leafCell (pre ++ Item.mk m u [] :: post)) = cols.map (leafCell (pre ++ Item.mk m v [] :: post)) :=
      List.map_congr_left fun c hc => leafCell_other (fun e => hi (List.mem_map.2 ⟨c, hc, e⟩)) (fun e => hi (List.mem_map.2 ⟨c, hc, e⟩))
    rw [ho, ho, hcell, List.map_append, List.map_append, List.map_cons, List.map_cons]
    refine ⟨_, _, .inl ⟨rowName (dotJoin n m), [], rfl, rfl⟩, (rowName (dotJoin P n) :: valCell w :: cols.map (leafCell (pre ++ Item.mk m v [] :: post))) ::
      (otherLeaves cols pre).map (fun k => [rowName (dotJoin n k.name), valCell k.value]),
      (otherLeaves cols post).map (fun k => [rowName (dotJoin n k.name), valCell k.value]) ++ (itemRowsL cols n pre ++ itemRowsL cols n post), ?_, ?_⟩
    · simp [Item.name, Item.value]
    · simp [Item.name, Item.value]

/-- A new terminal child with a column is a cell that was empty. -/
theorem rows_newCell {cols : List Str} (hcols : ColsOk cols) {P n m : Str} {w v : Option Str} {ks : List Item} (hm : m ≠ []) (hi : m ∈ cols.map lower)
    (hn : (((ks ++ [Item.mk m v []]).filter Item.leaf).map Item.name).Nodup) :
    ∃ X Y c w' a b c1 cc c2, (cols = c1 ++ cc :: c2 ∧ lower cc = m ∧ a.length = c1.length ∧ X = [c :: w' :: (a ++ [] :: b)] ∧ Y = [c :: w' :: (a ++ valCell v :: b)]) ∧
      Replaces X Y (itemRows cols P (.mk n w ks)) (itemRows cols P (.mk n w (ks ++ [Item.mk m v []]))) := by
  have hL : itemRowsL cols n (ks ++ [Item.mk m v []]) = itemRowsL cols n ks := by
    rw [itemRowsL_append, itemRowsL, itemRowsL]
    simp [Item.leaf, Item.kids]
  have ho : otherLeaves cols (ks ++ [Item.mk m v []]) = otherLeaves cols ks := by
    unfold otherLeaves
    rw [List.filter_append, List.filter_cons_of_neg, List.filter_nil, List.append_nil]
    have : inCols cols (.mk m v []) = true := inCols_iff.2 ⟨rfl, hi⟩
    simp [this]
  rw [itemRows, itemRows, hL, ho]
  obtain ⟨c1, c, c2, rfl, e2, e3, e4⟩ := cols_split hcols hm hi
  have hoth : ∀ c', lower c' ≠ m → leafCell (ks ++ [Item.mk m v []]) c' = leafCell ks c' := by
    intro c' h
    unfold leafCell colKid
    rw [List.find?_append, List.find?_cons_of_neg (by simp [Item.name, h.symm])]
    simp
  have hown : leafCell ks c = [] := by
    unfold leafCell colKid
    rw [List.find?_eq_none.2]
    · rfl
    · intro j hj hh
      simp only [Bool.and_eq_true, decide_eq_true_eq] at hh
      rw [List.filter_append, List.map_append] at hn
      exact (List.nodup_append.1 hn).2.2 j.name (List.mem_map_of_mem (List.mem_filter.2 ⟨hj, hh.1⟩)) m
        (List.mem_map.2 ⟨.mk m v [], List.mem_filter.2 ⟨List.mem_singleton.2 rfl, rfl⟩, rfl⟩) (by rw [hh.2, e2])
  rw [List.map_append, List.map_cons, List.map_append, List.map_cons, leafCell_own (c := c) (k := .mk m v []) (post := []) rfl e2 hn, hown,
    List.map_congr_left fun c' hc' => hoth c' (e3 c' hc'), List.map_congr_left fun c' hc' => hoth c' (e4 c' hc')]
  exact ⟨_, _, rowName (dotJoin P n), valCell w, c1.map (leafCell ks), c2.map (leafCell ks), c1, c, c2, ⟨rfl, e2, by simp, rfl, rfl⟩, [], _, rfl, rfl⟩

/-- A new terminal child without a column is a row. -/
theorem rows_newRow {cols : List Str} {P n m : Str} {w v : Option Str} {ks : List Item} (hi : m ∉ cols.map lower) :
    Gains [[rowName (dotJoin n m), valCell v]] (itemRows cols P (.mk n w ks)) (itemRows cols P (.mk n w (ks ++ [Item.mk m v []]))) := by
  have hL : itemRowsL cols n (ks ++ [Item.mk m v []]) = itemRowsL cols n ks := by
    rw [itemRowsL_append, itemRowsL, itemRowsL]
    simp [Item.leaf, Item.kids]
  have ho : otherLeaves cols (ks ++ [Item.mk m v []]) = otherLeaves cols ks ++ [Item.mk m v []] := by
    unfold otherLeaves
    rw [List.filter_append, List.filter_cons_of_pos, List.filter_nil]
    have : inCols cols (.mk m v []) = false := by
      cases h : inCols cols (.mk m v []) with
      | false => rfl
      | true => exact absurd (inCols_iff.1 h).2 hi
    simp only [this]
    rfl
  have hcell : cols.map (leafCell (ks ++ [Item.mk m v []])) = cols.map (leafCell ks) := List.map_congr_left fun c hc => by
    have h : lower c ≠ m := fun e => hi (e ▸ List.mem_map_of_mem hc)
    unfold leafCell colKid
    rw [List.find?_append, List.find?_cons_of_neg (by simp [Item.name, h.symm])]
    simp
  rw [itemRows, itemRows, hL, ho, hcell, List.map_append]
  refine ⟨(rowName (dotJoin P n) :: valCell w :: cols.map (leafCell ks)) ::
      (otherLeaves cols ks).map (fun k => [rowName (dotJoin n k.name), valCell k.value]), itemRowsL cols n ks, ?_, ?_⟩
  · simp
  · simp [Item.name, Item.value]

/-- A new child with children is a block of rows. -/
theorem rows_newBlock {cols : List Str} {P n : Str} {w : Option Str} {ks : List Item} {k : Item} (hl : k.leaf = false) :
    Gains (itemRows cols n k) (itemRows cols P (.mk n w ks)) (itemRows cols P (.mk n w (ks ++ [k]))) := by
  have hL : itemRowsL cols n (ks ++ [k]) = itemRowsL cols n ks ++ itemRows cols n k := by
    rw [itemRowsL_append, itemRowsL, itemRowsL]
    simp [hl]
  have ho : otherLeaves cols (ks ++ [k]) = otherLeaves cols ks := by
    unfold otherLeaves
    rw [List.filter_append, List.filter_cons_of_neg (by simp [hl]), List.filter_nil, List.append_nil]
  have hcell : cols.map (leafCell (ks ++ [k])) = cols.map (leafCell ks) := List.map_congr_left fun c hc => by
    unfold leafCell colKid
    rw [List.find?_append, List.find?_cons_of_neg (by simp [hl])]
    simp
  rw [itemRows, itemRows, hL, ho, hcell]
  refine ⟨(rowName (dotJoin P n) :: valCell w :: cols.map (leafCell ks)) ::
      ((otherLeaves cols ks).map (fun k => [rowName (dotJoin n k.name), valCell k.value]) ++ itemRowsL cols n ks), [], ?_, ?_⟩
  · simp
  · simp

/-! ## Children that are removed -/

theorem leafCell_without {pre post : List Item} {k : Item} {c : Str} (h : k.leaf = true → lower c ≠ k.name) :
    leafCell (pre ++ k :: post) c = leafCell (pre ++ post) c := by
  unfold leafCell colKid
  rw [List.find?_append, List.find?_append, List.find?_cons_of_neg]
  intro e
  simp only [Bool.and_eq_true, decide_eq_true_eq] at e
  exact h e.1 e.2.symm

/-- A child with a column that is removed leaves an empty cell. -/
theorem rows_dropCell {cols : List Str} (hcols : ColsOk cols) {P n : Str} {w : Option Str} {pre post : List Item} {k : Item} (hm : k.name ≠ [])
    (hi : inCols cols k = true) (hn : (((pre ++ k :: post).filter Item.leaf).map Item.name).Nodup) :
    ∃ X Y c w' a b c1 cc c2, (cols = c1 ++ cc :: c2 ∧ lower cc = k.name ∧ a.length = c1.length ∧
        X = [c :: w' :: (a ++ valCell k.value :: b)] ∧ Y = [c :: w' :: (a ++ [] :: b)]) ∧
      Replaces X Y (itemRows cols P (.mk n w (pre ++ k :: post))) (itemRows cols P (.mk n w (pre ++ post))) := by
  obtain ⟨hl, hc⟩ := inCols_iff.1 hi
  have hL : itemRowsL cols n (pre ++ k :: post) = itemRowsL cols n (pre ++ post) := by
    rw [itemRowsL_append, itemRowsL, itemRowsL_append, hl]
    rfl
  have ho : otherLeaves cols (pre ++ k :: post) = otherLeaves cols (pre ++ post) := by
    unfold otherLeaves
    rw [List.filter_append, List.filter_append, List.filter_cons_of_neg]
    simp [hi]
  rw [itemRows, itemRows, hL, ho]
  obtain ⟨c1, c, c2, rfl, e2, e3, e4⟩ := cols_split hcols hm hc
  have hown : leafCell (pre ++ post) c = [] := by
    unfold leafCell colKid
    rw [List.find?_eq_none.2]
    · rfl
    · intro j hj hh
      simp only [Bool.and_eq_true, decide_eq_true_eq] at hh
      rw [List.filter_append, List.map_append, List.filter_cons_of_pos hl, List.map_cons, List.nodup_middle, List.nodup_cons] at hn
      refine hn.1 ?_
      rw [← List.map_append, ← List.filter_append]
      exact List.mem_map.2 ⟨j, List.mem_filter.2 ⟨hj, hh.1⟩, by rw [hh.2, e2]⟩
  rw [List.map_append, List.map_cons, List.map_append, List.map_cons, leafCell_own (c := c) hl e2 hn, hown,
    List.map_congr_left fun c' hc' => leafCell_without fun _ => e3 c' hc', List.map_congr_left fun c' hc' => leafCell_without fun _ => e4 c' hc']
  exact ⟨_, _, rowName (dotJoin P n), valCell w, c1.map (leafCell (pre ++ post)), c2.map (leafCell (pre ++ post)), c1, c, c2, ⟨rfl, e2, by simp, rfl, rfl⟩, [], _, rfl, rfl⟩

/-- A child without a column that is removed takes its rows with it. -/
theorem rows_dropRows {cols : List Str} {P n : Str} {w : Option Str} {pre post : List Item} {k : Item} (hi : inCols cols k = false) :
    Replaces (if k.leaf = true then [[rowName (dotJoin n k.name), valCell k.value]] else itemRows cols n k) []
      (itemRows cols P (.mk n w (pre ++ k :: post))) (itemRows cols P (.mk n w (pre ++ post))) := by
  have hcell : cols.map (leafCell (pre ++ k :: post)) = cols.map (leafCell (pre ++ post)) := List.map_congr_left fun c hc =>
    leafCell_without fun hl e => by
      rw [inCols_iff.2 ⟨hl, e ▸ List.mem_map_of_mem hc⟩] at hi
      cases hi
  rw [itemRows, itemRows, hcell, itemRowsL_append, itemRowsL, itemRowsL_append]
  unfold otherLeaves
  cases hl : k.leaf with
  | true =>
    rw [List.filter_append, List.filter_cons_of_pos (by simp [hl, hi]), List.filter_append]
    refine ⟨(rowName (dotJoin P n) :: valCell w :: cols.map (leafCell (pre ++ post))) ::
      (otherLeaves cols pre).map (fun k => [rowName (dotJoin n k.name), valCell k.value]),
      (otherLeaves cols post).map (fun k => [rowName (dotJoin n k.name), valCell k.value]) ++ (itemRowsL cols n pre ++ itemRowsL cols n post), ?_, ?_⟩
    · simp [otherLeaves]
    · simp [otherLeaves]
  | false =>
    rw [List.filter_append, List.filter_cons_of_neg (by simp [hl]), List.filter_append]
    refine ⟨(rowName (dotJoin P n) :: valCell w :: cols.map (leafCell (pre ++ post))) ::
      ((otherLeaves cols (pre ++ post)).map (fun k => [rowName (dotJoin n k.name), valCell k.value]) ++ itemRowsL cols n pre), itemRowsL cols n post, ?_, ?_⟩
    · simp [otherLeaves]
    · simp [otherLeaves]

/-! ## Anywhere in the outline -/

theorem editIn_ne {f : Item → Item} : ∀ {q : List Nat} {ks : List Item} {m : Nat}, ks ≠ [] → editIn f ks m q ≠ []
  | [], ks, m, h => by
    rw [editIn]
    intro e
    have := congrArg List.length e
    rw [List.length_modify] at this
    exact h (List.length_eq_zero_iff.1 this)
  | k :: q, ks, m, h => by
    rw [editIn]
    intro e
    have := congrArg List.length e
    rw [List.length_modify] at this
    exact h (List.length_eq_zero_iff.1 this)

theorem itemAt_ne {ks : List Item} {m : Nat} {q : List Nat} {k : Item} (h : itemAt ks m q = some k) : ks ≠ [] := by
  rintro rfl
  cases q <;> simp [itemAt] at h

/-- What changes in the rows when a child is changed changes in the rows of the terms above it. -/
theorem rows_below {cols : List Str} {f : Item → Item} {k : Item} {Good : List (List Str) → List (List Str) → Prop}
    (base : ∀ {P n w pre post}, (Item.mk n w (pre ++ k :: post)).ok cols P = true →
      ∃ X Y, Good X Y ∧ Replaces X Y (itemRows cols P (.mk n w (pre ++ k :: post))) (itemRows cols P (.mk n w (pre ++ f k :: post)))) :
    ∀ {q : List Nat} {ks : List Item} {m : Nat} {P n : Str} {w : Option Str}, itemAt ks m q = some k → (Item.mk n w ks).ok cols P = true →
      ∃ X Y, Good X Y ∧ Replaces X Y (itemRows cols P (.mk n w ks)) (itemRows cols P (.mk n w (editIn f ks m q)))
  | [], ks, m, P, n, w, h, hok => by
    unfold itemAt at h
    obtain ⟨pre, post, rfl, h2, h3⟩ := modify_split h
    rw [editIn, h3]
    exact base hok
  | m' :: q, ks, m, P, n, w, h, hok => by
    rw [itemAt] at h
    split at h
    · next n' v' kks hk =>
      obtain ⟨pre, post, rfl, h2, h3⟩ := modify_split hk
      rw [editIn, h3]
      have ok := okItem_iff.1 hok
      have hl : (Item.mk n' v' kks).leaf = false := by
        cases kks with
        | nil => exact absurd rfl (itemAt_ne h)
        | cons _ _ => rfl
      have hok' : (Item.mk n' v' kks).ok cols n = true := by
        rcases okKids_mem ok.kids (k := .mk n' v' kks) (List.mem_append_right _ List.mem_cons_self) with ⟨g, -⟩ | ⟨-, g, -⟩
        · rw [(inCols_iff.1 g).1] at hl; cases hl
        · exact g
      obtain ⟨X, Y, g1, g2⟩ := rows_below base h hok'
      refine ⟨X, Y, g1, rows_kid hl ?_ g2⟩
      show (editIn f kks m' q).isEmpty = false
      have := editIn_ne (f := f) (q := q) (m := m') (itemAt_ne h)
      cases he : editIn f kks m' q with
      | nil => exact absurd he this
      | cons _ _ => rfl
    · cases h

theorem rows_items_at {cols : List Str} {P : Str} {X Y : List (List Str)} {is : List Item} {j : Nat} {k : Item} (h : is[j]? = some k) {g : Item → Item}
    (hr : Replaces X Y (itemRows cols P k) (itemRows cols P (g k))) :
    Replaces X Y (is.flatMap (itemRows cols P)) ((is.modify j g).flatMap (itemRows cols P)) := by
  obtain ⟨pre, post, rfl, -, h3⟩ := modify_split h
  rw [h3, List.flatMap_append, List.flatMap_cons, List.flatMap_append, List.flatMap_cons, ← List.append_assoc, ← List.append_assoc]
  exact replaces_ctx hr _ _

theorem rows_part_at {X Y : List (List Str)} {D : List Part} {i : Nat} {d : Part} (h : D[i]? = some d) {g : List Item → List Item}
    (hr : Replaces X Y (d.items.flatMap (itemRows d.cols (py!"root"))) ((g d.items).flatMap (itemRows d.cols (py!"root")))) :
    Replaces X Y (D.flatMap partRows) ((D.modify i (onItems g)).flatMap partRows) := by
  obtain ⟨pre, post, rfl, -, h3⟩ := modify_split h
  rw [h3, List.flatMap_append, List.flatMap_cons, List.flatMap_append, List.flatMap_cons, ← List.append_assoc, ← List.append_assoc]
  refine replaces_ctx ?_ _ _
  unfold partRows onItems
  dsimp only
  have := replaces_ctx hr (if d.name ≠ py!"Root" then [[[]], py!"Section" :: d.name :: d.cols] else []) []
  rw [List.append_nil, List.append_nil] at this
  exact this

/-- The same for a section. -/
theorem rows_section {D : List Part} (hw : writable D = true) {f : Item → Item} {k : Item} {Good : List (List Str) → List (List Str) → Prop}
    {i j : Nat} {p : List Nat} {d : Part} (hd : D[i]? = some d) (hk : outlineAt D i j p = some k)
    (top : ColsOk d.cols → p = [] → k.ok d.cols (py!"root") = true →
      ∃ X Y, Good X Y ∧ Replaces X Y (itemRows d.cols (py!"root") k) (itemRows d.cols (py!"root") (f k)))
    (base : ∀ {P n w pre post}, ColsOk d.cols → (Item.mk n w (pre ++ k :: post)).ok d.cols P = true →
      ∃ X Y, Good X Y ∧ Replaces X Y (itemRows d.cols P (.mk n w (pre ++ k :: post))) (itemRows d.cols P (.mk n w (pre ++ f k :: post)))) :
    ∃ X Y, Good X Y ∧ Replaces X Y (d.items.flatMap (itemRows d.cols (py!"root"))) ((editIn f d.items j p).flatMap (itemRows d.cols (py!"root"))) := by
  unfold outlineAt at hk
  rw [hd] at hk
  dsimp only at hk
  obtain ⟨hcols, hit⟩ := writable_part hw d (List.mem_of_getElem? hd)
  cases p with
  | nil =>
    unfold itemAt at hk
    obtain ⟨X, Y, g1, g2⟩ := top hcols rfl (List.all_eq_true.1 hit k (List.mem_of_getElem? hk))
    rw [editIn]
    exact ⟨X, Y, g1, rows_items_at hk g2⟩
  | cons m q =>
    rw [itemAt] at hk
    split at hk
    · next n v ks hj =>
      obtain ⟨X, Y, g1, g2⟩ := rows_below (base hcols) hk (List.all_eq_true.1 hit _ (List.mem_of_getElem? hj))
      rw [editIn]
      exact ⟨X, Y, g1, rows_items_at (g := Item.onKids fun ks => editIn f ks m q) hj g2⟩
    · cases hk

end Metatab
