import Verif.Lemmas.Diff
import Verif.Props.EditDoc
/-! # C99: small edits make small differences in the file -/
namespace Metatab
open Py _root_.Spec

theorem csv_rows {s : St} (h : Editable s) {D : List Part} (hD : Shows s D) (hp : PlainTvn s) (hw : writable D = true) :
    docCsv s = .ok (asCsv (D.flatMap partRows)) := by
  obtain ⟨rows, h1, h2⟩ := docRows_shows h.wf (hp.named fun d hd => (writable_part hw d hd).2) hD fun d hd => (writable_part hw d hd).entries
  unfold docCsv
  rw [h1]
  show (cellRows rows >>= _) = _
  rw [h2]
  rfl

/-- An edit, and the files before and after it. -/
theorem edit_files {s : St} (h : Editable s) {D : List Part} (hD : Shows s D) (hp : PlainTvn s) (hw : writable D = true) {e : Edit} (hok : e.ok D)
    (hw' : writable (e.apply D) = true) :
    ∃ s', e.run s = .ok () s' ∧ docCsv s = .ok (asCsv (D.flatMap partRows)) ∧ docCsv s' = .ok (asCsv ((e.apply D).flatMap partRows)) := by
  obtain ⟨s', e1, h1, h2, h3⟩ := edit_step h hD hok
  have hp1 : PlainTvn s' := fun p n a b => by
    have := hp p n a b
    unfold writtenTvn at this ⊢
    rw [h3]
    exact this
  exact ⟨s', e1, csv_rows h hD hp hw, csv_rows h2 h1 hp1 hw'⟩

theorem valCell_getD (v : Option Str) : valCell v = v.getD [] := by cases v <;> rfl

theorem outlineAt_part {D : List Part} {i j : Nat} {p : List Nat} {k : Item} (h : outlineAt D i j p = some k) : ∃ d, D[i]? = some d := by
  unfold outlineAt at h
  split at h
  · exact ⟨_, by assumption⟩
  · cases h

theorem editIn_kids {g g' : List Item → List Item} {n : Str} {v : Option Str} {ks : List Item} (hg : g ks = g' ks) :
    ∀ {p : List Nat} {is : List Item} {j : Nat}, itemAt is j p = some (.mk n v ks) → editIn (Item.onKids g) is j p = editIn (Item.onKids g') is j p
  | [], is, j, h => by
    unfold itemAt at h
    rw [editIn, editIn]
    refine modify_congr_at fun a ha => ?_
    rw [h] at ha
    cases ha
    show Item.mk n v (g ks) = Item.mk n v (g' ks)
    rw [hg]
  | k :: p, is, j, h => by
    rw [itemAt] at h
    rw [editIn, editIn]
    refine modify_congr_at fun a ha => ?_
    rw [ha] at h
    obtain ⟨n', v', ks'⟩ := a
    show Item.mk n' v' (editIn (Item.onKids g) ks' k p) = Item.mk n' v' (editIn (Item.onKids g') ks' k p)
    rw [editIn_kids hg h]

/-- Another value for an item is another cell in the rows of its section. -/
theorem value_section {D : List Part} (hw : writable D = true) {i j : Nat} {p : List Nat} {n : Str} {u v : Option Str} {ks : List Item} {d : Part}
    (hd : D[i]? = some d) (hk : outlineAt D i j p = some (.mk n u ks)) :
    ∃ X Y, CellAt d.cols (valCell u) (valCell v) X Y ∧ Replaces X Y (d.items.flatMap (itemRows d.cols (py!"root")))
      ((editIn (fun | .mk n _ ks => .mk n v ks) d.items j p).flatMap (itemRows d.cols (py!"root"))) := by
  refine rows_section hw (f := fun | .mk n _ ks => .mk n v ks) hd hk (fun _ _ _ => rows_value) fun {P n' w pre post} hc hok => ?_
  cases ks with
  | nil =>
    have ok := okItem_iff.1 hok
    have hne : n ≠ [] := (okKids_name ok.kids (k := .mk n u []) (List.mem_append_right _ List.mem_cons_self)).2.1
    exact rows_leaf (P := P) (n := n') (w := w) (v := v) hc hne ok.nodup
  | cons k ks =>
    obtain ⟨X, Y, g1, g2⟩ := rows_value (cols := d.cols) (P := n') (u := u) (v := v) (n := n) (ks := k :: ks)
    exact ⟨X, Y, g1, rows_kid rfl rfl g2⟩

theorem value_cell {D : List Part} (hw : writable D = true) {i j : Nat} {p : List Nat} {n : Str} {u v : Option Str} {ks : List Item}
    (hk : outlineAt D i j p = some (.mk n u ks)) :
    OneCell (u.getD []) (v.getD []) (D.flatMap partRows) (((Edit.value i j p v).apply D).flatMap partRows) := by
  rw [← valCell_getD, ← valCell_getD]
  obtain ⟨d, hd⟩ := outlineAt_part hk
  obtain ⟨X, Y, g1, g2⟩ := value_section hw (v := v) hd hk
  obtain ⟨x, y, rfl, rfl⟩ := g1.cell
  exact ⟨x, y, rows_part_at hd g2⟩

/-- **C99** (values). Another value for a term, at any depth, is one other cell in the CSV file: the one with the old value, which has the
new one. All other rows, and all other cells of this row, are the same. -/
theorem C99_value {s : St} (h : Editable s) {D : List Part} (hD : Shows s D) (hp : PlainTvn s) (hw : writable D = true) {i j : Nat} {p : List Nat}
    {n : Str} {u v : Option Str} {ks : List Item} (hk : outlineAt D i j p = some (.mk n u ks)) (hw' : writable ((Edit.value i j p v).apply D) = true) :
    ∃ s' R R', (Edit.value i j p v).run s = .ok () s' ∧ docCsv s = .ok (asCsv R) ∧ docCsv s' = .ok (asCsv R') ∧
      OneCell (u.getD []) (v.getD []) R R' := by
  obtain ⟨s', e1, e2, e3⟩ := edit_files h hD hp hw (e := .value i j p v) (by show (outlineAt D i j p).isSome = true; rw [hk]; rfl) hw'
  exact ⟨s', _, _, e1, e2, e3, value_cell hw hk⟩

/-- The children of a term change. -/
theorem kids_rows {D : List Part} (hw : writable D = true) {i j : Nat} {p : List Nat} {n : Str} {w : Option Str} {ks : List Item} {d : Part}
    (hd : D[i]? = some d) (hk : outlineAt D i j p = some (.mk n w ks)) {g : List Item → List Item} (hpos : p = [] ∨ ks ≠ [] ∧ g ks ≠ [])
    {Good : List (List Str) → List (List Str) → Prop}
    (hr : ∀ P, (Item.mk n w ks).ok d.cols P = true → ColsOk d.cols →
      ∃ X Y, Good X Y ∧ Replaces X Y (itemRows d.cols P (.mk n w ks)) (itemRows d.cols P (.mk n w (g ks)))) :
    ∃ X Y, Good X Y ∧ Replaces X Y (d.items.flatMap (itemRows d.cols (py!"root")))
      ((editIn (Item.onKids g) d.items j p).flatMap (itemRows d.cols (py!"root"))) := by
  rcases hpos with rfl | ⟨h1, h2⟩
  · unfold outlineAt at hk
    rw [hd] at hk
    unfold itemAt at hk
    dsimp only at hk
    obtain ⟨hcols, hit⟩ := writable_part hw d (List.mem_of_getElem? hd)
    obtain ⟨X, Y, g1, g2⟩ := hr (py!"root") (List.all_eq_true.1 hit _ (List.mem_of_getElem? hk)) hcols
    refine ⟨X, Y, g1, ?_⟩
    rw [editIn]
    exact rows_items_at (g := Item.onKids g) hk g2
  · have leaf : ∀ {l : List Item}, l ≠ [] → (Item.mk n w l).leaf = false := by
      intro l hl
      cases l with
      | nil => exact absurd rfl hl
      | cons _ _ => rfl
    refine rows_section hw hd hk (fun hc _ hok => hr _ hok hc) fun {P n' w' pre post} hc hok => ?_
    have ok := okItem_iff.1 hok
    have hok' : (Item.mk n w ks).ok d.cols n' = true := by
      rcases okKids_mem ok.kids (k := .mk n w ks) (List.mem_append_right _ List.mem_cons_self) with ⟨g, -⟩ | ⟨-, g, -⟩
      · have := (inCols_iff.1 g).1
        rw [leaf h1] at this
        cases this
      · exact g
    obtain ⟨X, Y, g1, g2⟩ := hr n' hok' hc
    exact ⟨X, Y, g1, rows_kid (leaf h1) (leaf h2) g2⟩

theorem leaf_nodup {ks : List Item} {m : Str} {v : Option Str} (hfree : ∀ c ∈ ks, c.leaf = true → c.name ≠ m)
    (hn : ((ks.filter Item.leaf).map Item.name).Nodup) : (((ks ++ [Item.mk m v []]).filter Item.leaf).map Item.name).Nodup := by
  rw [List.filter_append, List.map_append]
  refine List.nodup_append.2 ⟨hn, List.nodup_singleton _, ?_⟩
  intro a ha b hb
  obtain ⟨c, hc, rfl⟩ := List.mem_map.1 ha
  rw [List.mem_filter] at hc
  rw [show b = m from List.mem_singleton.1 hb]
  exact hfree c hc.1 hc.2

/-- A new property is another cell or a row in the rows of its section. -/
theorem property_section {D : List Part} (hw : writable D = true) {i j : Nat} {p : List Nat} {n : Str} {w : Option Str} {ks : List Item} {d : Part}
    (hd : D[i]? = some d) (hk : outlineAt D i j p = some (.mk n w ks)) (hpos : p = [] ∨ ks ≠ []) {m : Str} {v : Option Str} (hm : m ≠ [])
    (hfree : ∀ c ∈ ks, c.leaf = true → c.name ≠ lower m) :
    ∃ X Y, (if lower m ∈ d.cols.map lower then ∃ c w' a b c1 cc c2, d.cols = c1 ++ cc :: c2 ∧ lower cc = lower m ∧ a.length = c1.length ∧
        X = [c :: w' :: (a ++ [] :: b)] ∧ Y = [c :: w' :: (a ++ valCell v :: b)]
      else X = [] ∧ Y = [[rowName (dotJoin n (lower m)), valCell v]]) ∧
      Replaces X Y (d.items.flatMap (itemRows d.cols (py!"root")))
        ((editIn (Item.onKids fun ks => ks ++ [Item.mk (lower m) v []]) d.items j p).flatMap (itemRows d.cols (py!"root"))) := by
  have hm : lower m ≠ [] := fun e => hm (lower_eq_nil.1 e)
  refine kids_rows hw hd hk (g := fun ks => ks ++ [Item.mk (lower m) v []]) (hpos.imp id fun h => ⟨h, by simp⟩) fun P hok hc => ?_
  have hn := (okItem_iff.1 hok).nodup
  split
  · next hi =>
    obtain ⟨X, Y, c, w', a, b, c1, cc, c2, g1, g2⟩ := rows_newCell (P := P) (n := n) (w := w) hc hm hi (leaf_nodup hfree hn)
    exact ⟨X, Y, ⟨c, w', a, b, c1, cc, c2, g1⟩, g2⟩
  · next hi => exact ⟨_, _, ⟨rfl, rfl⟩, rows_newRow hi⟩

theorem property_rows {D : List Part} (hw : writable D = true) {i j : Nat} {p : List Nat} {n : Str} {w : Option Str} {ks : List Item} {d : Part}
    (hd : D[i]? = some d) (hk : outlineAt D i j p = some (.mk n w ks)) (hpos : p = [] ∨ ks ≠ []) {m : Str} {v : Option Str} (hm : m ≠ [])
    (hfree : ∀ c ∈ ks, c.leaf = true → c.name ≠ lower m) :
    if lower m ∈ d.cols.map lower then OneCell [] (v.getD []) (D.flatMap partRows) (((Edit.child i j p (.mk m v [])).apply D).flatMap partRows)
    else Gains [[rowName (dotJoin n (lower m)), v.getD []]] (D.flatMap partRows) (((Edit.child i j p (.mk m v [])).apply D).flatMap partRows) := by
  obtain ⟨X, Y, g1, g2⟩ := property_section hw hd hk hpos (v := v) hm hfree
  have g := rows_part_at (g := fun is => editIn (Item.onKids fun ks => ks ++ [Item.mk (lower m) v []]) is j p) hd g2
  split
  · next hi =>
    rw [if_pos hi] at g1
    obtain ⟨c, w', a, b, c1, cc, c2, -, -, -, rfl, rfl⟩ := g1
    rw [← valCell_getD]
    exact ⟨c :: w' :: a, b, g⟩
  · next hi =>
    rw [if_neg hi] at g1
    obtain ⟨rfl, rfl⟩ := g1
    rw [← valCell_getD]
    exact g

/-- **C99** (new properties). A new property of a root-level term, or of a term that has children, is one row more in the CSV file; if the
section has a column for it, it is instead one cell that was empty before. Nothing else is different. -/
theorem C99_property {s : St} (h : Editable s) {D : List Part} (hD : Shows s D) (hp : PlainTvn s) (hw : writable D = true) {i j : Nat} {p : List Nat}
    {n : Str} {w : Option Str} {ks : List Item} {d : Part} (hd : D[i]? = some d) (hk : outlineAt D i j p = some (.mk n w ks)) (hpos : p = [] ∨ ks ≠ [])
    {m : Str} {v : Option Str} (hg : (Item.mk m v []).given) (hfree : ∀ c ∈ ks, c.leaf = true → c.name ≠ lower m)
    (hw' : writable ((Edit.child i j p (.mk m v [])).apply D) = true) :
    ∃ s' R R', (Edit.child i j p (.mk m v [])).run s = .ok () s' ∧ docCsv s = .ok (asCsv R) ∧ docCsv s' = .ok (asCsv R') ∧
      if lower m ∈ d.cols.map lower then OneCell [] (v.getD []) R R' else Gains [[rowName (dotJoin n (lower m)), v.getD []]] R R' := by
  obtain ⟨s', e1, e2, e3⟩ := edit_files h hD hp hw (e := .child i j p (.mk m v [])) ⟨by rw [hk]; rfl, hg⟩ hw'
  unfold Item.given at hg
  exact ⟨s', _, _, e1, e2, e3, property_rows hw hd hk hpos hg.1.nonempty hfree⟩

/-- What is missing in the rows of a section when a child is removed. -/
theorem dropChild_section {D : List Part} (hw : writable D = true) {i j : Nat} {p : List Nat} {n : Str} {w : Option Str} {pre post : List Item} {k : Item} {d : Part}
    (hd : D[i]? = some d) (hk : outlineAt D i j p = some (.mk n w (pre ++ k :: post))) (hpos : p = [] ∨ pre ++ post ≠ []) :
    ∃ X Y, (if inCols d.cols k = true then ∃ c w' a b c1 cc c2, strip (valCell k.value) ≠ [] ∧ d.cols = c1 ++ cc :: c2 ∧ lower cc = k.name ∧
        a.length = c1.length ∧ X = [c :: w' :: (a ++ valCell k.value :: b)] ∧ Y = [c :: w' :: (a ++ [] :: b)]
      else X = (if k.leaf = true then [[rowName (dotJoin n k.name), valCell k.value]] else itemRows d.cols n k) ∧ Y = []) ∧
      Replaces X Y (d.items.flatMap (itemRows d.cols (py!"root")))
        ((editIn (Item.onKids fun ks => ks.eraseIdx pre.length) d.items j p).flatMap (itemRows d.cols (py!"root"))) := by
  have he : (pre ++ k :: post).eraseIdx pre.length = pre ++ post := by
    rw [List.eraseIdx_append_of_length_le (Nat.le_refl _)]
    simp
  refine kids_rows hw hd hk (g := fun ks => ks.eraseIdx pre.length) (hpos.imp id fun h => ⟨by simp, by rw [he]; exact h⟩) fun P hok hc => ?_
  have ok := okItem_iff.1 hok
  rw [he]
  split
  · next hi =>
    have hne : k.name ≠ [] := by
      obtain ⟨m, v, l⟩ := k
      exact (okKids_name ok.kids (List.mem_append_right _ List.mem_cons_self)).2.1
    obtain ⟨X, Y, c, w', a, b, c1, cc, c2, g1, g2⟩ := rows_dropCell (P := P) (n := n) (w := w) hc hne hi ok.nodup
    refine ⟨X, Y, ⟨c, w', a, b, c1, cc, c2, ?_, g1⟩, g2⟩
    rcases okKids_mem ok.kids (List.mem_append_right _ (List.mem_cons_self (a := k))) with ⟨-, -, f1, f2⟩ | ⟨f, -⟩
    · obtain ⟨x, hx⟩ := Option.isSome_iff_exists.1 f1
      rw [hx] at f2 ⊢
      unfold cleanValue at f2
      simp only [Bool.and_eq_true, decide_eq_true_eq] at f2
      show strip x ≠ []
      rw [f2.2]
      exact f2.1
    · rw [hi] at f
      cases f
  · next hi => exact ⟨_, _, ⟨rfl, rfl⟩, rows_dropRows (by simpa using hi)⟩

/-- **C99** (removed children). When a child of a term is removed, and the term is root-level or has other children, the cell of the child is
empty, or, if it had no column, its row or rows are missing. Nothing else is different. -/
theorem C99_dropChild {s : St} (h : Editable s) {D : List Part} (hD : Shows s D) (hp : PlainTvn s) (hw : writable D = true) {i j : Nat} {p : List Nat}
    {n : Str} {w : Option Str} {pre post : List Item} {k : Item} {d : Part} (hd : D[i]? = some d)
    (hk : outlineAt D i j p = some (.mk n w (pre ++ k :: post))) (hpos : p = [] ∨ pre ++ post ≠ []) (hn : n ≠ py!"root")
    (hw' : writable ((Edit.dropChild i j p pre.length).apply D) = true) :
    ∃ s' R R', (Edit.dropChild i j p pre.length).run s = .ok () s' ∧ docCsv s = .ok (asCsv R) ∧ docCsv s' = .ok (asCsv R') ∧
      if inCols d.cols k = true then OneCell (k.value.getD []) [] R R'
      else Gains (if k.leaf = true then [[rowName (dotJoin n k.name), k.value.getD []]] else itemRows d.cols n k) R' R := by
  obtain ⟨s', e1, e2, e3⟩ := edit_files h hD hp hw (e := .dropChild i j p pre.length) ⟨n, w, _, hk, hn, by simp⟩ hw'
  refine ⟨s', _, _, e1, e2, e3, ?_⟩
  obtain ⟨X, Y, g1, g2⟩ := dropChild_section hw hd hk hpos
  have g := rows_part_at (g := fun is => editIn (Item.onKids fun ks => ks.eraseIdx pre.length) is j p) hd g2
  rw [← valCell_getD]
  split
  · next hi =>
    rw [if_pos hi] at g1
    obtain ⟨c, w', a, b, c1, cc, c2, -, -, -, -, rfl, rfl⟩ := g1
    exact ⟨c :: w' :: a, b, g⟩
  · next hi =>
    rw [if_neg hi] at g1
    obtain ⟨rfl, rfl⟩ := g1
    obtain ⟨A, B, f1, f2⟩ := g
    exact ⟨A, B, f2, f1⟩

/-- **C99** (`get_or_new_child`, found). If the term has children of the name, the value of the first is one other cell. -/
theorem C99_set {s : St} (h : Editable s) {D : List Part} (hD : Shows s D) (hp : PlainTvn s) (hw : writable D = true) {i j : Nat} {p : List Nat}
    {n m : Str} {w u v : Option Str} {pre post kks : List Item} (hk : outlineAt D i j p = some (.mk n w (pre ++ .mk (lower m) u kks :: post)))
    (hpre : ∀ c ∈ pre, c.name ≠ lower m) (hok : Edit.ok D (.setChild i j p m v)) (hw' : writable ((Edit.setChild i j p m v).apply D) = true) :
    ∃ s' R R', (Edit.setChild i j p m v).run s = .ok () s' ∧ docCsv s = .ok (asCsv R) ∧ docCsv s' = .ok (asCsv R') ∧
      OneCell (u.getD []) (v.getD []) R R' := by
  obtain ⟨s', e1, e2, e3⟩ := edit_files h hD hp hw hok hw'
  refine ⟨s', _, _, e1, e2, e3, ?_⟩
  obtain ⟨d, hd⟩ := outlineAt_part hk
  have hk' := hk
  unfold outlineAt at hk
  rw [hd] at hk
  have e : (Edit.setChild i j p m v).apply D = (Edit.value i j (p ++ [pre.length]) v).apply D := by
    show D.modify i _ = D.modify i _
    refine modify_congr_at fun a ha => ?_
    rw [hd] at ha
    cases ha
    show Part.mk d.name d.cols (editIn (Item.onKids fun ks => setKid (lower m) v ks) d.items j p) = _
    rw [editIn_snoc (g := fun ks => setKid (lower m) v ks) (setKid_first hpre rfl) hk]
    rfl
  rw [e]
  refine value_cell hw (n := lower m) (ks := kks) ?_
  unfold outlineAt
  rw [hd]
  dsimp only
  rw [itemAt_snoc hk]
  simp

/-- **C99** (`get_or_new_child`, new). If the term has no child of the name, there is one row more, or another value in a cell that was
empty. -/
theorem C99_set_new {s : St} (h : Editable s) {D : List Part} (hD : Shows s D) (hp : PlainTvn s) (hw : writable D = true) {i j : Nat} {p : List Nat}
    {n m : Str} {w v : Option Str} {ks : List Item} {d : Part} (hd : D[i]? = some d) (hk : outlineAt D i j p = some (.mk n w ks)) (hpos : p = [] ∨ ks ≠ [])
    (hfree : ∀ c ∈ ks, c.name ≠ lower m) (hok : Edit.ok D (.setChild i j p m v)) (hw' : writable ((Edit.setChild i j p m v).apply D) = true) :
    ∃ s' R R', (Edit.setChild i j p m v).run s = .ok () s' ∧ docCsv s = .ok (asCsv R) ∧ docCsv s' = .ok (asCsv R') ∧
      if lower m ∈ d.cols.map lower then OneCell [] (v.getD []) R R' else Gains [[rowName (dotJoin n (lower m)), v.getD []]] R R' := by
  obtain ⟨s', e1, e2, e3⟩ := edit_files h hD hp hw hok hw'
  refine ⟨s', _, _, e1, e2, e3, ?_⟩
  obtain ⟨-, -, -, -, -, -, hm, -, -⟩ := hok
  have hk' := hk
  unfold outlineAt at hk
  rw [hd] at hk
  have e : (Edit.setChild i j p m v).apply D = (Edit.child i j p (.mk m v [])).apply D := by
    show D.modify i _ = D.modify i _
    refine modify_congr_at fun a ha => ?_
    rw [hd] at ha
    cases ha
    show Part.mk d.name d.cols (editIn (Item.onKids fun ks => setKid (lower m) v ks) d.items j p) =
      Part.mk d.name d.cols (editIn (Item.onKids fun ks => ks ++ [(Item.mk m v []).low]) d.items j p)
    rw [editIn_kids (g := fun ks => setKid (lower m) v ks) (g' := fun ks => ks ++ [(Item.mk m v []).low]) (setKid_none hfree) hk]
  rw [e]
  exact property_rows hw hd hk' hpos hm.nonempty fun c hc _ => hfree c hc

/-- The rows of the sections up to number `i`. -/
def upTo (D : List Part) (i : Nat) : List (List Str) := (D.take (i + 1)).flatMap partRows

/-- **C99** (new terms). The rows of a new term come after those of the other terms of its section. All other rows are the same. -/
theorem C99_term {s : St} (h : Editable s) {D : List Part} (hD : Shows s D) (hp : PlainTvn s) (hw : writable D = true) {i : Nat} {it : Item} {d : Part}
    (hd : D[i]? = some d) (hok : Edit.ok D (.term i it)) (hw' : writable ((Edit.term i it).apply D) = true) :
    ∃ s' R, (Edit.term i it).run s = .ok () s' ∧ docCsv s = .ok (asCsv (upTo D i ++ R)) ∧
      docCsv s' = .ok (asCsv (upTo D i ++ itemRows d.cols (py!"root") it.low ++ R)) := by
  obtain ⟨s', e1, e2, e3⟩ := edit_files h hD hp hw hok hw'
  obtain ⟨pre, post, rfl, h2, h3⟩ := modify_split hd
  have hu : upTo (pre ++ d :: post) i = pre.flatMap partRows ++ partRows d := by
    unfold upTo
    subst h2
    rw [List.take_append, List.take_of_length_le (by omega)]
    simp
  refine ⟨s', post.flatMap partRows, e1, ?_, ?_⟩
  · rw [e2, hu]
    simp
  · rw [e3]
    show Except.ok (asCsv (((pre ++ d :: post).modify i _).flatMap partRows)) = _
    rw [h3, hu]
    simp [partRows, onItems]

/-- **C99** (removed terms). When a term is removed, its rows disappear from the file. All other rows are the same. -/
theorem C99_dropTerm {s : St} (h : Editable s) {D : List Part} (hD : Shows s D) (hp : PlainTvn s) (hw : writable D = true) {i j : Nat} {d : Part} {k : Item}
    (hd : D[i]? = some d) (hk : d.items[j]? = some k) (hok : Edit.ok D (.dropTerm i j)) (hw' : writable ((Edit.dropTerm i j).apply D) = true) :
    ∃ s' R R', (Edit.dropTerm i j).run s = .ok () s' ∧ docCsv s = .ok (asCsv R) ∧ docCsv s' = .ok (asCsv R') ∧
      Gains (itemRows d.cols (py!"root") k) R' R := by
  obtain ⟨s', e1, e2, e3⟩ := edit_files h hD hp hw hok hw'
  refine ⟨s', _, _, e1, e2, e3, ?_⟩
  suffices Replaces (itemRows d.cols (py!"root") k) [] (D.flatMap partRows) ((D.modify i (onItems fun is => is.eraseIdx j)).flatMap partRows) by
    obtain ⟨A, B, g1, g2⟩ := this
    exact ⟨A, B, g2, g1⟩
  refine rows_part_at hd ?_
  obtain ⟨pre, post, g1, g2, -⟩ := modify_split hk
  rw [g1, ← g2]
  refine ⟨pre.flatMap (itemRows d.cols (py!"root")), post.flatMap (itemRows d.cols (py!"root")), by simp, ?_⟩
  rw [List.eraseIdx_append_of_length_le (Nat.le_refl _)]
  simp

/-- **C99** (new sections). A new section comes at the end of the file, after an empty row. -/
theorem C99_section {s : St} (h : Editable s) {D : List Part} (hD : Shows s D) (hp : PlainTvn s) (hw : writable D = true) {d : Part}
    (hok : Edit.ok D (.part d)) (hw' : writable ((Edit.part d).apply D) = true) :
    ∃ s' text, (Edit.part d).run s = .ok () s' ∧ docCsv s = .ok text ∧ docCsv s' = .ok (text ++ asCsv (partRows d.low)) := by
  obtain ⟨s', e1, e2, e3⟩ := edit_files h hD hp hw hok hw'
  refine ⟨s', _, e1, e2, ?_⟩
  rw [e3]
  show Except.ok (asCsv ((D ++ [d.low]).flatMap partRows)) = _
  unfold asCsv
  simp

/-- **C99** (deleted sections). When a section is deleted, its rows disappear from the file. All other rows are the same. -/
theorem C99_dropPart {s : St} (h : Editable s) {D : List Part} (hD : Shows s D) (hp : PlainTvn s) (hw : writable D = true) {i : Nat} {d : Part}
    (hd : D[i]? = some d) (hw' : writable ((Edit.dropPart i).apply D) = true) :
    ∃ s' R R', (Edit.dropPart i).run s = .ok () s' ∧ docCsv s = .ok (asCsv R) ∧ docCsv s' = .ok (asCsv R') ∧ Gains (partRows d) R' R := by
  have hlt : i < D.length := by
    by_contra hc
    rw [List.getElem?_eq_none (by omega)] at hd
    cases hd
  obtain ⟨s', e1, e2, e3⟩ := edit_files h hD hp hw (e := .dropPart i) hlt hw'
  refine ⟨s', _, _, e1, e2, e3, ?_⟩
  obtain ⟨pre, post, g1, g2, -⟩ := modify_split hd
  show Gains _ ((D.eraseIdx i).flatMap partRows) _
  rw [g1, ← g2]
  refine ⟨pre.flatMap partRows, post.flatMap partRows, ?_, by simp⟩
  rw [List.eraseIdx_append_of_length_le (Nat.le_refl _)]
  simp

/-! ## A concrete case -/

/-- The document made by `edSteps` can be edited. -/
theorem ed_doc : ∃ s, Editable s ∧ Shows s (applyEdits blank edSteps) ∧ PlainTvn s := by
  obtain ⟨s, h1, h2, h3, h4⟩ := C97_edits edSteps (editable_new (env := exEnv) plainClasses_init) (shows_new _ _) ed_ok
  exact ⟨s, h3, h2, plainTvn_of (.inl (by rw [h4]; rfl))⟩

/-- The value of a grandchild, a new property with and one without a column, and a term that is removed. -/
example : ∃ s, Editable s ∧ (∃ s' R R', (Edit.value 1 0 [0, 0] (some (py!"home"))).run s = .ok () s' ∧ docCsv s = .ok (asCsv R) ∧
    docCsv s' = .ok (asCsv R') ∧ OneCell (py!"work") (py!"home") R R') ∧
    (∃ s' R R', (Edit.child 0 0 [] (.mk (py!"Lang") (some (py!"en")) [])).run s = .ok () s' ∧ docCsv s = .ok (asCsv R) ∧
      docCsv s' = .ok (asCsv R') ∧ Gains [[py!"Title.Lang", py!"en"]] R R') ∧
    (∃ s' R R', (Edit.dropTerm 1 0).run s = .ok () s' ∧ docCsv s = .ok (asCsv R) ∧ docCsv s' = .ok (asCsv R') ∧
      Gains [[py!"Person", py!"Ann", []], [py!"Person.Email", py!"a@b", []], [py!"Email.Kind", py!"work"]] R' R) := by
  obtain ⟨s, h, hD, hp⟩ := ed_doc
  have hw : writable (applyEdits blank edSteps) = true := by decide +kernel
  refine ⟨s, h, ?_, ?_, ?_⟩
  · exact C99_value h hD hp hw (i := 1) (j := 0) (p := [0, 0]) (v := some (py!"home")) rfl (by decide +kernel)
  · obtain ⟨s', R, R', g1, g2, g3, g4⟩ := C99_property h hD hp hw (i := 0) (j := 0) (p := []) (m := py!"Lang") (v := some (py!"en")) rfl rfl (.inl rfl)
      (by unfold Item.given; exact ⟨⟨by decide, by decide, by decide⟩, by decide, by decide, trivial⟩) (fun _ h => by cases h) (by decide +kernel)
    have e : rowName (dotJoin (py!"title") (lower (py!"Lang"))) = py!"Title.Lang" := by decide +kernel
    rw [← e]
    exact ⟨s', R, R', g1, g2, g3, g4⟩
  · obtain ⟨s', R, R', g1, g2, g3, g4⟩ := C99_dropTerm h hD hp hw (i := 1) (j := 0) rfl rfl ⟨⟨_, rfl, by decide⟩, _, _, _, rfl, by decide⟩ (by decide +kernel)
    have e : itemRows [py!"Email"] (py!"root") (.mk (py!"person") (some (py!"Ann")) [.mk (py!"email") (some (py!"a@b")) [.mk (py!"kind") (some (py!"work")) []]]) =
      [[py!"Person", py!"Ann", []], [py!"Person.Email", py!"a@b", []], [py!"Email.Kind", py!"work"]] := by decide +kernel
    rw [← e]
    exact ⟨s', R, R', g1, g2, g3, g4⟩

/-- A child with children is removed. -/
example : ∃ s, Editable s ∧ (∃ s' R R', (Edit.dropChild 1 0 [] 0).run s = .ok () s' ∧ docCsv s = .ok (asCsv R) ∧ docCsv s' = .ok (asCsv R') ∧
      Gains [[py!"Person.Email", py!"a@b", []], [py!"Email.Kind", py!"work"]] R' R) := by
  obtain ⟨s, h, hD, hp⟩ := ed_doc
  refine ⟨s, h, ?_⟩
  obtain ⟨s', R, R', g1, g2, g3, g4⟩ := C99_dropChild h hD hp (by decide +kernel) (i := 1) (j := 0) (p := []) (pre := []) (post := [])
    (k := .mk (py!"email") (some (py!"a@b")) [.mk (py!"kind") (some (py!"work")) []]) rfl rfl (.inl rfl) (by decide) (by decide +kernel)
  rw [if_neg (by decide), if_neg (by decide)] at g4
  have e : itemRows [py!"Email"] (py!"person") (.mk (py!"email") (some (py!"a@b")) [.mk (py!"kind") (some (py!"work")) []]) =
      [[py!"Person.Email", py!"a@b", []], [py!"Email.Kind", py!"work"]] := by decide +kernel
  rw [← e]
  exact ⟨s', R, R', g1, g2, g3, g4⟩

/-- With a column for it, a new property is a cell, and another value for it is the same cell once more. -/
example : ∃ s, Editable s ∧ ∃ s' R R', (Edit.setChild 1 0 [] (py!"EMAIL") (some (py!"a@b"))).run s = .ok () s' ∧ docCsv s = .ok (asCsv R) ∧
    docCsv s' = .ok (asCsv R') ∧ OneCell [] (py!"a@b") R R' := by
  have p : ∀ {n : Str}, '.' ∉ n → n ≠ [] → strip n = n → PlainPart n := fun a b c => ⟨a, b, c⟩
  obtain ⟨s, h1, h2, h3, h4⟩ := C97_edits [.part ⟨py!"Contacts", [py!"Email"], [.mk (py!"Person") (some (py!"Ann")) []]⟩]
    (editable_new (env := exEnv) plainClasses_init) (shows_new _ _) ⟨ed_ok.1, trivial⟩
  refine ⟨s, h3, ?_⟩
  have hp : PlainTvn s := plainTvn_of (.inl (by rw [h4]; rfl))
  have := C99_set_new h3 h2 hp (by decide +kernel) (i := 1) (j := 0) (p := []) (m := py!"EMAIL") (v := some (py!"a@b")) rfl rfl (.inl rfl)
    (fun _ h => by cases h) ⟨_, _, _, rfl, by refine ⟨p ?_ ?_ ?_, ?_, p ?_ ?_ ?_, ?_, ?_⟩ <;> decide⟩ (by decide +kernel)
  obtain ⟨s', R, R', g1, g2, g3, g4⟩ := this
  rw [if_pos (by decide)] at g4
  exact ⟨s', R, R', g1, g2, g3, g4⟩

/-- A child of a property moves the property out of its cell, into rows of its own. -/
theorem C99_moved_witness : let s := after (runEdits [.part ⟨py!"Contacts", [py!"Email"], [.mk (py!"Person") (some (py!"Ann")) [.mk (py!"Email") (some (py!"a@b")) []]]⟩]) (newDoc exEnv)
    docCsv s = .ok (asCsv [[[]], [py!"Section", py!"Contacts", py!"Email"], [py!"Person", py!"Ann", py!"a@b"]]) ∧
      docCsv (after (Edit.child 1 0 [0] (.mk (py!"Kind") (some (py!"work")) [])).run s) =
        .ok (asCsv [[[]], [py!"Section", py!"Contacts", py!"Email"], [py!"Person", py!"Ann", []], [py!"Person.Email", py!"a@b", []], [py!"Email.Kind", py!"work"]]) := by
  decide +kernel

end Metatab
