import Verif.Props.Diff
import Verif.Props.LineFile
/-! # C99 for the Lines format -/
namespace Metatab
open Py _root_.Spec

theorem lineWritable_writable {D : List Part} (h : lineWritable D = true) : writable D = true := by
  unfold lineWritable at h
  exact (Bool.and_eq_true _ _ ▸ h).1

/-- The lines of a document with a known outline. -/
theorem doc_lines {s : St} (h : Editable s) {D : List Part} (hD : Shows s D) (hp : PlainTvn s) (hw : lineWritable D = true) :
    ∃ t, docText s = .ok t ∧ splitlines t = D.flatMap partTexts := by
  have hwr := lineWritable_writable hw
  obtain ⟨r, ds, rfl, hl⟩ := lineWritable_iff hw
  exact ⟨_, docText_shows h.wf (hp.named fun d hd => (writable_part hwr d hd).2) hD (fun d hd => (writable_part hwr d hd).entries)
    fun d hd => (hl.parts d hd).fits.rows, splitlines_join' _ (breaks_lines (lineIs_parts fun d hd => (hl.parts d hd).fits)) (noBlankEnd_parts _)⟩

/-- An edit, and the lines before and after it. -/
theorem edit_lines {s : St} (h : Editable s) {D : List Part} (hD : Shows s D) (hp : PlainTvn s) (hw : lineWritable D = true) {e : Edit} (hok : e.ok D)
    (hw' : lineWritable (e.apply D) = true) :
    ∃ s' t t', e.run s = .ok () s' ∧ docText s = .ok t ∧ docText s' = .ok t' ∧ splitlines t = D.flatMap partTexts ∧
      splitlines t' = (e.apply D).flatMap partTexts := by
  obtain ⟨s', e1, h1, h2, h3⟩ := edit_step h hD hok
  have hp1 : PlainTvn s' := fun p n a b => by
    have := hp p n a b
    unfold writtenTvn at this ⊢
    rw [h3]
    exact this
  obtain ⟨t, g1, g2⟩ := doc_lines h hD hp hw
  obtain ⟨t', g3, g4⟩ := doc_lines h2 h1 hp1 hw'
  exact ⟨s', t, t', e1, g1, g3, g2, g4⟩

theorem lines_flatMap {α β : Type} {X Y R R' : List α} (f : α → List β) (h : Replaces X Y R R') : Replaces (X.flatMap f) (Y.flatMap f) (R.flatMap f) (R'.flatMap f) := by
  obtain ⟨A, B, rfl, rfl⟩ := h
  exact ⟨A.flatMap f, B.flatMap f, by simp, by simp⟩

theorem lines_part_at {X Y : List Str} {D : List Part} {i : Nat} {d : Part} (h : D[i]? = some d) {g : List Item → List Item}
    (hr : Replaces X Y ((d.items.flatMap (itemRows d.cols (py!"root"))).flatMap (lineTexts d.cols))
      (((g d.items).flatMap (itemRows d.cols (py!"root"))).flatMap (lineTexts d.cols))) :
    Replaces X Y (D.flatMap partTexts) ((D.modify i (onItems g)).flatMap partTexts) := by
  obtain ⟨pre, post, rfl, -, h3⟩ := modify_split h
  rw [h3, List.flatMap_append, List.flatMap_cons, List.flatMap_append, List.flatMap_cons, ← List.append_assoc, ← List.append_assoc]
  refine replaces_ctx ?_ _ _
  unfold partTexts onItems
  dsimp only
  have := replaces_ctx hr (if d.name ≠ py!"Root" then [[], py!"Section: " ++ join ['|'] (d.name :: d.cols)] else []) []
  rw [List.append_nil, List.append_nil] at this
  exact this

theorem replaces_trans {α : Type} {X Y R R' S S' : List α} (h : Replaces X Y R R') (h' : Replaces R R' S S') : Replaces X Y S S' := by
  obtain ⟨A, B, rfl, rfl⟩ := h'
  exact replaces_ctx h A B

/-- The line of an argument. -/
def argLine (cv : Str × Str) : Str := py!"    ." ++ title cv.1 ++ py!": " ++ cv.2

theorem filled_split {c1 c2 a b : List Str} {c u : Str} (h : a.length = c1.length) :
    filledCells (c1 ++ c :: c2) (a ++ u :: b) = filledCells c1 a ++ (if strip u ≠ [] then [(c, u)] else []) ++ filledCells c2 b := by
  unfold filledCells
  rw [List.zip_append h.symm, List.zip_cons_cons, List.filter_append, List.filter_cons]
  split <;> rename_i hc <;> simp only [decide_eq_true_eq] at hc
  · rw [if_pos hc]; simp
  · rw [if_neg hc]; simp

theorem lineTexts_col {c1 c2 a b : List Str} {cc u c w : Str} (h : a.length = c1.length) :
    lineTexts (c1 ++ cc :: c2) (c :: w :: (a ++ u :: b)) = ((c ++ py!": " ++ w) :: (filledCells c1 a).map argLine) ++
      (if strip u ≠ [] then [argLine (cc, u)] else []) ++ (filledCells c2 b).map argLine := by
  rw [lineTexts, filled_split h]
  show _ :: List.map argLine _ = _
  split <;> simp

/-- Another value in a row is another value in a line. -/
theorem lines_cell {cols : List Str} {u v : Str} {X Y : List (List Str)} (h : CellAt cols u v X Y) (hu : strip u ≠ []) (hv : strip v ≠ []) :
    ∃ x, Replaces [x ++ py!": " ++ u] [x ++ py!": " ++ v] (X.flatMap (lineTexts cols)) (Y.flatMap (lineTexts cols)) := by
  rcases h with ⟨c, y, rfl, rfl⟩ | ⟨c, w, a, b, c1, cc, c2, rfl, hl, rfl, rfl⟩
  · refine ⟨c, [], (filledCells cols y).map argLine, ?_, ?_⟩
    · rw [List.flatMap_singleton]; rfl
    · rw [List.flatMap_singleton]; rfl
  · refine ⟨py!"    ." ++ title cc, (c ++ py!": " ++ w) :: (filledCells c1 a).map argLine, (filledCells c2 b).map argLine, ?_, ?_⟩
    · rw [List.flatMap_singleton, lineTexts_col hl, if_pos hu]; rfl
    · rw [List.flatMap_singleton, lineTexts_col hl, if_pos hv]; rfl

theorem clean_some {a : Str} (h : cleanValue (some a) = true) : strip a ≠ [] := by
  unfold cleanValue at h
  simp only [Bool.and_eq_true, decide_eq_true_eq] at h
  rw [h.2]
  exact h.1

theorem value_line {D : List Part} (hw : writable D = true) {i j : Nat} {p : List Nat} {n a b : Str} {ks : List Item}
    (hk : outlineAt D i j p = some (.mk n (some a) ks)) (ha : cleanValue (some a) = true) (hb : cleanValue (some b) = true) :
    ∃ x, Replaces [x ++ py!": " ++ a] [x ++ py!": " ++ b] (D.flatMap partTexts) (((Edit.value i j p (some b)).apply D).flatMap partTexts) := by
  obtain ⟨d, hd⟩ := outlineAt_part hk
  obtain ⟨X, Y, g1, g2⟩ := value_section hw (v := some b) hd hk
  obtain ⟨x, g3⟩ := lines_cell g1 (clean_some ha) (clean_some hb)
  exact ⟨x, lines_part_at hd (replaces_trans g3 (lines_flatMap _ g2))⟩

/-- **C99** (values, lines). Another value for a term, at any depth, is one other line in the Lines format, which has the same name before
the colon and the new value after it. -/
theorem C99_value_lines {s : St} (h : Editable s) {D : List Part} (hD : Shows s D) (hp : PlainTvn s) (hw : lineWritable D = true) {i j : Nat} {p : List Nat}
    {n a b : Str} {ks : List Item} (hk : outlineAt D i j p = some (.mk n (some a) ks)) (ha : cleanValue (some a) = true) (hb : cleanValue (some b) = true)
    (hw' : lineWritable ((Edit.value i j p (some b)).apply D) = true) :
    ∃ s' t t', (Edit.value i j p (some b)).run s = .ok () s' ∧ docText s = .ok t ∧ docText s' = .ok t' ∧
      ∃ x, Replaces [x ++ py!": " ++ a] [x ++ py!": " ++ b] (splitlines t) (splitlines t') := by
  obtain ⟨s', t, t', e1, e2, e3, e4, e5⟩ := edit_lines h hD hp hw (e := .value i j p (some b)) (by show (outlineAt D i j p).isSome = true; rw [hk]; rfl) hw'
  exact ⟨s', t, t', e1, e2, e3, by rw [e4, e5]; exact value_line (lineWritable_writable hw) hk ha hb⟩

theorem property_line {D : List Part} (hw : writable D = true) {i j : Nat} {p : List Nat} {n : Str} {w : Option Str} {ks : List Item} {d : Part}
    (hd : D[i]? = some d) (hk : outlineAt D i j p = some (.mk n w ks)) (hpos : p = [] ∨ ks ≠ []) {m v : Str} (hm : m ≠ []) (hv : cleanValue (some v) = true)
    (hfree : ∀ c ∈ ks, c.leaf = true → c.name ≠ lower m) :
    ∃ x, (if lower m ∈ d.cols.map lower then ∃ c ∈ d.cols, lower c = lower m ∧ x = py!"    ." ++ title c else x = rowName (dotJoin n (lower m))) ∧
      Gains [x ++ py!": " ++ v] (D.flatMap partTexts) (((Edit.child i j p (.mk m (some v) [])).apply D).flatMap partTexts) := by
  obtain ⟨X, Y, g1, g2⟩ := property_section hw hd hk hpos (v := some v) hm hfree
  have key : ∀ {Z W}, Replaces Z W (X.flatMap (lineTexts d.cols)) (Y.flatMap (lineTexts d.cols)) →
      Replaces Z W (D.flatMap partTexts) (((Edit.child i j p (.mk m (some v) [])).apply D).flatMap partTexts) := fun h =>
    lines_part_at (g := fun is => editIn (Item.onKids fun ks => ks ++ [Item.mk (lower m) (some v) []]) is j p) hd (replaces_trans h (lines_flatMap _ g2))
  by_cases hi : lower m ∈ d.cols.map lower
  · rw [if_pos hi] at g1
    obtain ⟨c, w', a, b, c1, cc, c2, hc, e, hl, rfl, rfl⟩ := g1
    refine ⟨py!"    ." ++ title cc, by rw [if_pos hi]; exact ⟨cc, by rw [hc]; simp, e, rfl⟩, key ?_⟩
    rw [hc]
    refine ⟨(c ++ py!": " ++ w') :: (filledCells c1 a).map argLine, (filledCells c2 b).map argLine, ?_, ?_⟩
    · rw [List.flatMap_singleton, lineTexts_col hl, if_neg (by decide)]
    · rw [List.flatMap_singleton, lineTexts_col hl, if_pos (show strip (valCell (some v)) ≠ [] from clean_some hv)]; rfl
  · rw [if_neg hi] at g1
    obtain ⟨rfl, rfl⟩ := g1
    refine ⟨_, by rw [if_neg hi], key ?_⟩
    refine ⟨[], [], rfl, ?_⟩
    simp [lineTexts, filledCells, valCell]

/-- **C99** (new properties, lines). A new property of a root-level term, or of a term that has children, is one line more in the Lines
format: an indented line with the name of the column if the section has one for it, and else a line with the names of the term and the
property. -/
theorem C99_property_lines {s : St} (h : Editable s) {D : List Part} (hD : Shows s D) (hp : PlainTvn s) (hw : lineWritable D = true) {i j : Nat} {p : List Nat}
    {n : Str} {w : Option Str} {ks : List Item} {d : Part} (hd : D[i]? = some d) (hk : outlineAt D i j p = some (.mk n w ks)) (hpos : p = [] ∨ ks ≠ [])
    {m v : Str} (hg : (Item.mk m (some v) []).given) (hv : cleanValue (some v) = true) (hfree : ∀ c ∈ ks, c.leaf = true → c.name ≠ lower m)
    (hw' : lineWritable ((Edit.child i j p (.mk m (some v) [])).apply D) = true) :
    ∃ s' t t' x, (Edit.child i j p (.mk m (some v) [])).run s = .ok () s' ∧ docText s = .ok t ∧ docText s' = .ok t' ∧
      Gains [x ++ py!": " ++ v] (splitlines t) (splitlines t') ∧
      if lower m ∈ d.cols.map lower then ∃ c ∈ d.cols, lower c = lower m ∧ x = py!"    ." ++ title c else x = rowName (dotJoin n (lower m)) := by
  obtain ⟨s', t, t', e1, e2, e3, e4, e5⟩ := edit_lines h hD hp hw (e := .child i j p (.mk m (some v) [])) ⟨by rw [hk]; rfl, hg⟩ hw'
  unfold Item.given at hg
  obtain ⟨x, g1, g2⟩ := property_line (lineWritable_writable hw) hd hk hpos hg.1.nonempty hv hfree
  exact ⟨s', t, t', x, e1, e2, e3, by rw [e4, e5]; exact g2, g1⟩

/-- **C99** (removed children, lines). When a child of a term is removed, and the term is root-level or has other children, the indented line of
the child is missing, or, if it had no column, its line or lines. -/
theorem C99_dropChild_lines {s : St} (h : Editable s) {D : List Part} (hD : Shows s D) (hp : PlainTvn s) (hw : lineWritable D = true) {i j : Nat} {p : List Nat}
    {n : Str} {w : Option Str} {pre post : List Item} {k : Item} {d : Part} (hd : D[i]? = some d)
    (hk : outlineAt D i j p = some (.mk n w (pre ++ k :: post))) (hpos : p = [] ∨ pre ++ post ≠ []) (hn : n ≠ py!"root")
    (hw' : lineWritable ((Edit.dropChild i j p pre.length).apply D) = true) :
    ∃ s' t t' L, (Edit.dropChild i j p pre.length).run s = .ok () s' ∧ docText s = .ok t ∧ docText s' = .ok t' ∧ Gains L (splitlines t') (splitlines t) ∧
      if inCols d.cols k = true then ∃ c ∈ d.cols, lower c = k.name ∧ L = [py!"    ." ++ title c ++ py!": " ++ k.value.getD []]
      else if k.leaf = true then L = [rowName (dotJoin n k.name) ++ py!": " ++ k.value.getD []]
      else L = (itemRows d.cols n k).flatMap (lineTexts d.cols) := by
  obtain ⟨s', t, t', e1, e2, e3, e4, e5⟩ := edit_lines h hD hp hw (e := .dropChild i j p pre.length) ⟨n, w, _, hk, hn, by simp⟩ hw'
  obtain ⟨X, Y, g1, g2⟩ := dropChild_section (lineWritable_writable hw) hd hk hpos
  have key : ∀ {Z}, Replaces Z [] (X.flatMap (lineTexts d.cols)) (Y.flatMap (lineTexts d.cols)) → Gains Z (splitlines t') (splitlines t) := fun h => by
    rw [e4, e5]
    obtain ⟨A, B, f1, f2⟩ := lines_part_at (g := fun is => editIn (Item.onKids fun ks => ks.eraseIdx pre.length) is j p) hd
      (replaces_trans h (lines_flatMap _ g2))
    exact ⟨A, B, f2, f1⟩
  refine ⟨s', t, t', ?_⟩
  rw [← valCell_getD]
  by_cases hi : inCols d.cols k = true
  · rw [if_pos hi] at g1
    obtain ⟨c, w', a, b, c1, cc, c2, hv, hc, e, hl, rfl, rfl⟩ := g1
    refine ⟨[argLine (cc, valCell k.value)], e1, e2, e3, key ?_, by rw [if_pos hi]; exact ⟨cc, by rw [hc]; simp, e, rfl⟩⟩
    rw [hc]
    refine ⟨(c ++ py!": " ++ w') :: (filledCells c1 a).map argLine, (filledCells c2 b).map argLine, ?_, ?_⟩
    · rw [List.flatMap_singleton, lineTexts_col hl, if_pos hv]
    · rw [List.flatMap_singleton, lineTexts_col hl, if_neg (by decide)]
  · rw [if_neg hi] at g1
    obtain ⟨rfl, rfl⟩ := g1
    refine ⟨(if k.leaf = true then [[rowName (dotJoin n k.name), valCell k.value]] else itemRows d.cols n k).flatMap (lineTexts d.cols), e1, e2, e3,
      key ⟨[], [], by simp, by simp⟩, ?_⟩
    rw [if_neg hi]
    split
    · simp [lineTexts, filledCells]
    · rfl

/-- **C99** (new terms, lines). A new term is one block of lines more. -/
theorem C99_term_lines {s : St} (h : Editable s) {D : List Part} (hD : Shows s D) (hp : PlainTvn s) (hw : lineWritable D = true) {i : Nat} {it : Item} {d : Part}
    (hd : D[i]? = some d) (hok : Edit.ok D (.term i it)) (hw' : lineWritable ((Edit.term i it).apply D) = true) :
    ∃ s' t t', (Edit.term i it).run s = .ok () s' ∧ docText s = .ok t ∧ docText s' = .ok t' ∧
      Gains ((itemRows d.cols (py!"root") it.low).flatMap (lineTexts d.cols)) (splitlines t) (splitlines t') := by
  obtain ⟨s', t, t', e1, e2, e3, e4, e5⟩ := edit_lines h hD hp hw hok hw'
  refine ⟨s', t, t', e1, e2, e3, ?_⟩
  rw [e4, e5]
  refine lines_part_at (g := fun is => is ++ [it.low]) hd ⟨_, [], by simp; rfl, by simp⟩

/-- **C99** (removed terms, lines). The lines of a term that is removed disappear, and no others. -/
theorem C99_dropTerm_lines {s : St} (h : Editable s) {D : List Part} (hD : Shows s D) (hp : PlainTvn s) (hw : lineWritable D = true) {i j : Nat} {d : Part}
    {k : Item} (hd : D[i]? = some d) (hk : d.items[j]? = some k) (hok : Edit.ok D (.dropTerm i j)) (hw' : lineWritable ((Edit.dropTerm i j).apply D) = true) :
    ∃ s' t t', (Edit.dropTerm i j).run s = .ok () s' ∧ docText s = .ok t ∧ docText s' = .ok t' ∧
      Gains ((itemRows d.cols (py!"root") k).flatMap (lineTexts d.cols)) (splitlines t') (splitlines t) := by
  obtain ⟨s', t, t', e1, e2, e3, e4, e5⟩ := edit_lines h hD hp hw hok hw'
  refine ⟨s', t, t', e1, e2, e3, ?_⟩
  rw [e4, e5]
  suffices Replaces ((itemRows d.cols (py!"root") k).flatMap (lineTexts d.cols)) [] (D.flatMap partTexts)
      ((D.modify i (onItems fun is => is.eraseIdx j)).flatMap partTexts) by
    obtain ⟨A, B, g1, g2⟩ := this
    exact ⟨A, B, g2, g1⟩
  refine lines_part_at (g := fun is => is.eraseIdx j) hd (lines_flatMap (X := itemRows d.cols (py!"root") k) (Y := []) _ ?_)
  obtain ⟨pre, post, g1, g2, -⟩ := modify_split hk
  rw [g1, ← g2]
  refine ⟨pre.flatMap (itemRows d.cols (py!"root")), post.flatMap (itemRows d.cols (py!"root")), by simp, ?_⟩
  rw [List.eraseIdx_append_of_length_le (Nat.le_refl _)]
  simp

/-- **C99** (new sections, lines). The lines of a new section come at the end. -/
theorem C99_section_lines {s : St} (h : Editable s) {D : List Part} (hD : Shows s D) (hp : PlainTvn s) (hw : lineWritable D = true) {d : Part}
    (hok : Edit.ok D (.part d)) (hw' : lineWritable ((Edit.part d).apply D) = true) :
    ∃ s' t t', (Edit.part d).run s = .ok () s' ∧ docText s = .ok t ∧ docText s' = .ok t' ∧ splitlines t' = splitlines t ++ partTexts d.low := by
  obtain ⟨s', t, t', e1, e2, e3, e4, e5⟩ := edit_lines h hD hp hw hok hw'
  refine ⟨s', t, t', e1, e2, e3, ?_⟩
  rw [e4, e5]
  show (D ++ [d.low]).flatMap partTexts = _
  simp

/-- **C99** (deleted sections, lines). The lines of a section that is deleted disappear, and no others. -/
theorem C99_dropPart_lines {s : St} (h : Editable s) {D : List Part} (hD : Shows s D) (hp : PlainTvn s) (hw : lineWritable D = true) {i : Nat} {d : Part}
    (hd : D[i]? = some d) (hw' : lineWritable ((Edit.dropPart i).apply D) = true) :
    ∃ s' t t', (Edit.dropPart i).run s = .ok () s' ∧ docText s = .ok t ∧ docText s' = .ok t' ∧ Gains (partTexts d) (splitlines t') (splitlines t) := by
  have hlt : i < D.length := by
    by_contra hc
    rw [List.getElem?_eq_none (by omega)] at hd
    cases hd
  obtain ⟨s', t, t', e1, e2, e3, e4, e5⟩ := edit_lines h hD hp hw (e := .dropPart i) hlt hw'
  refine ⟨s', t, t', e1, e2, e3, ?_⟩
  rw [e4, e5]
  obtain ⟨pre, post, g1, g2, -⟩ := modify_split hd
  show Gains _ ((D.eraseIdx i).flatMap partTexts) _
  rw [g1, ← g2]
  refine ⟨pre.flatMap partTexts, post.flatMap partTexts, ?_, by simp⟩
  rw [List.eraseIdx_append_of_length_le (Nat.le_refl _)]
  simp

/-! ## A concrete case -/

/-- The value of a grandchild, and a term that is removed. -/
example : ∃ s, Editable s ∧ (∃ s' t t', (Edit.value 1 0 [0, 0] (some (py!"home"))).run s = .ok () s' ∧ docText s = .ok t ∧ docText s' = .ok t' ∧
      ∃ x, Replaces [x ++ py!": " ++ py!"work"] [x ++ py!": " ++ py!"home"] (splitlines t) (splitlines t')) ∧
    (∃ s' t t', (Edit.dropTerm 1 0).run s = .ok () s' ∧ docText s = .ok t ∧ docText s' = .ok t' ∧
      Gains [py!"Person: Ann", py!"Person.Email: a@b", py!"Email.Kind: work"] (splitlines t') (splitlines t)) := by
  obtain ⟨s, h, hD, hp⟩ := ed_doc
  have hw : lineWritable (applyEdits blank edSteps) = true := by decide +kernel
  refine ⟨s, h, ?_, ?_⟩
  · exact C99_value_lines h hD hp hw (i := 1) (j := 0) (p := [0, 0]) rfl (by decide +kernel) (by decide +kernel) (by decide +kernel)
  · obtain ⟨s', t, t', g1, g2, g3, g4⟩ := C99_dropTerm_lines h hD hp hw (i := 1) (j := 0) rfl rfl ⟨⟨_, rfl, by decide⟩, _, _, _, rfl, by decide⟩ (by decide +kernel)
    have e : (itemRows [py!"Email"] (py!"root") (.mk (py!"person") (some (py!"Ann")) [.mk (py!"email") (some (py!"a@b")) [.mk (py!"kind") (some (py!"work")) []]])).flatMap
      (lineTexts [py!"Email"]) = [py!"Person: Ann", py!"Person.Email: a@b", py!"Email.Kind: work"] := by decide +kernel
    rw [← e]
    exact ⟨s', t, t', g1, g2, g3, g4⟩

/-- A new property with a column is an indented line. -/
example : ∃ s, Editable s ∧ ∃ s' t t', (Edit.child 1 0 [] (.mk (py!"EMAIL") (some (py!"a@b")) [])).run s = .ok () s' ∧ docText s = .ok t ∧
    docText s' = .ok t' ∧ Gains [py!"    .Email: a@b"] (splitlines t) (splitlines t') := by
  obtain ⟨s, h1, h2, h3, h4⟩ := C97_edits [.part ⟨py!"Contacts", [py!"Email"], [.mk (py!"Person") (some (py!"Ann")) []]⟩]
    (editable_new (env := exEnv) plainClasses_init) (shows_new _ _) ⟨ed_ok.1, trivial⟩
  refine ⟨s, h3, ?_⟩
  have hp : PlainTvn s := plainTvn_of (.inl (by rw [h4]; rfl))
  obtain ⟨s', t, t', x, g1, g2, g3, g4, g5⟩ := C99_property_lines h3 h2 hp (by decide +kernel) (i := 1) (j := 0) (p := []) (m := py!"EMAIL") (v := py!"a@b")
    rfl rfl (.inl rfl) (by unfold Item.given; exact ⟨⟨by decide, by decide, by decide⟩, by decide, by decide, trivial⟩) (by decide +kernel) (fun _ h => by cases h)
    (by decide +kernel)
  rw [if_pos (by decide)] at g5
  obtain ⟨c, hc, -, rfl⟩ := g5
  rw [List.mem_singleton.1 hc] at g4
  have e : py!"    ." ++ title (py!"Email") ++ py!": " ++ py!"a@b" = py!"    .Email: a@b" := by decide +kernel
  rw [e] at g4
  exact ⟨s', t, t', g1, g2, g3, g4⟩

/-- And when it is removed, the line is missing. -/
example : ∃ s, Editable s ∧ ∃ s' t t', (Edit.dropChild 1 0 [] 0).run s = .ok () s' ∧ docText s = .ok t ∧
    docText s' = .ok t' ∧ Gains [py!"    .Email: a@b"] (splitlines t') (splitlines t) := by
  obtain ⟨s, h1, h2, h3, h4⟩ := C97_edits [.part ⟨py!"Contacts", [py!"Email"], [.mk (py!"Person") (some (py!"Ann")) []]⟩,
      .child 1 0 [] (.mk (py!"EMAIL") (some (py!"a@b")) [])]
    (editable_new (env := exEnv) plainClasses_init) (shows_new _ _)
    ⟨ed_ok.1, ⟨rfl, by unfold Item.given; exact ⟨⟨by decide, by decide, by decide⟩, by decide, by decide, trivial⟩⟩, trivial⟩
  refine ⟨s, h3, ?_⟩
  have hp : PlainTvn s := plainTvn_of (.inl (by rw [h4]; rfl))
  obtain ⟨s', t, t', L, g1, g2, g3, g4, g5⟩ := C99_dropChild_lines h3 h2 hp (by decide +kernel) (i := 1) (j := 0) (p := []) (pre := []) (post := [])
    (k := .mk (py!"email") (some (py!"a@b")) []) rfl rfl (.inl rfl) (by decide) (by decide +kernel)
  rw [if_pos (by decide)] at g5
  obtain ⟨c, hc, -, rfl⟩ := g5
  rw [List.mem_singleton.1 hc] at g4
  have e : py!"    ." ++ title (py!"Email") ++ py!": " ++ (Item.mk (py!"email") (some (py!"a@b")) []).value.getD [] = py!"    .Email: a@b" := by decide +kernel
  rw [e] at g4
  exact ⟨s', t, t', g1, g2, g3, g4⟩

end Metatab
