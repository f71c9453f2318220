import Verif.Lemmas.LineFile
/-! Whole documents in the Lines format: the lines that are written, the rows they are split into, and what the reference reader makes
of these rows. -/
namespace Metatab
open Py _root_.Spec

/-! ## The rows of an outline -/

/-- What is needed of a row for writing it and splitting the text. -/
structure LineFits (cols : List Str) (c v : Str) (vs : List Str) : Prop where
  line : LineRow c [v]
  cell : lineCell v = true
  notSec : c ≠ py!"Section"
  len : vs.length ≤ cols.length
  args : ∀ cv ∈ filledCells cols vs, cv.1 ≠ [] ∧ lineCell cv.2 = true ∧ strip cv.2 = cv.2

/-- What is needed of a row for reading it, too. -/
structure LineReady (cols : List Str) (c v : Str) (vs : List Str) : Prop extends LineFits cols c v vs where
  kind : ∃ p n, ∀ rest, Spec.kind (c :: rest) = .named p n

/-- A row that can be written. -/
def RowFits (cols row : List Str) : Prop := ∃ c v vs, row = c :: v :: vs ∧ LineFits cols c v vs

/-- A row that can be written and read. -/
def RowReady (cols row : List Str) : Prop := ∃ c v vs, row = c :: v :: vs ∧ LineReady cols c v vs

theorem RowReady.fits {cols row : List Str} (h : RowReady cols row) : RowFits cols row := by
  obtain ⟨c, v, vs, e, h⟩ := h
  exact ⟨c, v, vs, e, h.toLineFits⟩

theorem strip_valCell {v : Option Str} (h : cleanValue v = true) : strip (valCell v) = valCell v := by
  cases v with
  | none => rfl
  | some v =>
    simp only [cleanValue, Bool.and_eq_true, decide_eq_true_eq] at h
    exact h.2

theorem lineOk_mk {n : Str} {v : Option Str} {ks : List Item} : (Item.mk n v ks).lineOk = true ↔
    lineName n = true ∧ lineCell (valCell v) = true ∧ lineOkL ks = true := by
  unfold Item.lineOk
  rw [Bool.and_eq_true, Bool.and_eq_true, and_assoc]
  cases v with
  | none => simp [valCell, show lineCell [] = true from rfl]
  | some v => rfl

theorem lineOkL_mem {ks : List Item} (h : lineOkL ks = true) {k : Item} (hk : k ∈ ks) : k.lineOk = true := by
  induction ks with
  | nil => cases hk
  | cons a ks ih =>
    rw [lineOkL, Bool.and_eq_true] at h
    rcases List.mem_cons.1 hk with rfl | hk
    · exact h.1
    · exact ih h.2 hk

theorem lineOk_parts {k : Item} (h : k.lineOk = true) : lineName k.name = true ∧ lineCell (valCell k.value) = true := by
  rw [item_eta k, lineOk_mk] at h
  exact ⟨h.1, h.2.1⟩

theorem rowName_notSec {p n : Str} (hn : Clean n) (hp : RowParent p) : rowName (dotJoin p n) ≠ py!"Section" := by
  rcases hp with rfl | ⟨hp, hr⟩
  · rw [rowName_root hn.dot]
    intro e
    have := congrArg lower e
    rw [lower_title, hn.low] at this
    exact (ordinary_facts hn.ord).2.1 (this.trans (by decide))
  · rw [rowName_other hp.dot hn.dot hr]
    intro e
    have : '.' ∈ py!"Section" := by rw [← e]; simp
    exact absurd this (by decide)

theorem ready_row {cols : List Str} {p n : Str} {v : Option Str} {ks : List Item} (hp : RowParent p) (hlp : p = py!"root" ∨ lineName p = true)
    (ok : OkItem cols p n v ks) (hl : (Item.mk n v ks).lineOk = true) {vs : List Str} (hlen : vs.length ≤ cols.length)
    (ha : ∀ cv ∈ filledCells cols vs, cv.1 ≠ [] ∧ lineCell cv.2 = true ∧ strip cv.2 = cv.2) :
    RowReady cols (rowName (dotJoin p n) :: valCell v :: vs) := by
  obtain ⟨l1, l2, -⟩ := lineOk_mk.1 hl
  exact ⟨_, _, _, rfl, ⟨lineRow_name ok.clean hp l1 hlp l2 (strip_valCell ok.value), l2, rowName_notSec ok.clean hp, hlen, ha⟩,
    ⟨p, n, fun rest => kind_rowName ok.clean ok.ne hp rest⟩⟩

theorem filled_leafCells {cols n} {ks : List Item} (hk : okKids cols n ks = true) (hl : lineOkL ks = true) :
    ∀ cv ∈ filledCells cols (cols.map (leafCell ks)), cv.1 ≠ [] ∧ lineCell cv.2 = true ∧ strip cv.2 = cv.2 := by
  intro cv hcv
  obtain ⟨h1, h2⟩ := List.mem_filter.1 hcv
  rw [decide_eq_true_eq] at h2
  have e : cv.2 = leafCell ks cv.1 := by
    clear * - h1
    induction cols with
    | nil => cases h1
    | cons c cols ih =>
      rw [List.map_cons, List.zip_cons_cons] at h1
      rcases List.mem_cons.1 h1 with rfl | h
      · rfl
      · exact ih h
  rw [e] at h2 ⊢
  unfold leafCell at h2 ⊢
  cases hc : colKid ks cv.1 with
  | none => rw [hc] at h2; exact absurd rfl h2
  | some k =>
    obtain ⟨k1, k2, k3⟩ := colKid_some hc
    obtain ⟨g1, g2, g3⟩ := okKids_name hk k1
    refine ⟨?_, (lineOk_parts (lineOkL_mem hl k1)).2, strip_valCell g3⟩
    rintro h
    rw [h] at k3
    exact g2 (by simpa using k3)

theorem ready_leaves {cols : List Str} {n : Str} (hp : RowParent n) (hlp : n = py!"root" ∨ lineName n = true) {ls : List Item}
    (h : ∀ k ∈ ls, k.ok cols n = true ∧ k.lineOk = true) : ∀ row ∈ ls.map (fun k => [rowName (dotJoin n k.name), valCell k.value]), RowReady cols row := by
  intro row hr
  obtain ⟨k, hk, rfl⟩ := List.mem_map.1 hr
  obtain ⟨h1, h2⟩ := h k hk
  have ok : OkItem cols n k.name k.value k.kids := by rw [item_eta k, okItem_iff] at h1; exact h1
  rw [item_eta k] at h2
  refine ready_row hp hlp ok h2 (Nat.zero_le _) ?_
  intro cv hcv
  unfold filledCells at hcv
  simp at hcv

mutual
theorem ready_item {cols : List Str} : ∀ (i : Item) {p : Str}, RowParent p → (p = py!"root" ∨ lineName p = true) → i.ok cols p = true →
    i.lineOk = true → ∀ row ∈ itemRows cols p i, RowReady cols row
  | .mk n v ks, p => by
    intro hp hlp h hl
    have ok := okItem_iff.1 h
    obtain ⟨l1, l2, l3⟩ := lineOk_mk.1 hl
    have hhead := ready_row hp hlp ok hl (vs := cols.map (leafCell ks)) (by simp) (filled_leafCells ok.kids l3)
    rw [itemRows]
    intro row hr
    rcases List.mem_cons.1 hr with rfl | hr
    · exact hhead
    by_cases hs : (py!"root").isSuffixOf n = false
    · have hn : RowParent n := .inr ⟨ok.clean, hs⟩
      rcases List.mem_append.1 hr with hr | hr
      · refine ready_leaves hn (.inr l1) (ls := otherLeaves cols ks) ?_ row hr
        intro k hk
        obtain ⟨hk, hb⟩ := List.mem_filter.1 hk
        rw [Bool.and_eq_true, Bool.not_eq_true'] at hb
        refine ⟨?_, lineOkL_mem l3 hk⟩
        rcases okKids_mem ok.kids hk with ⟨g, -⟩ | ⟨-, g, -⟩
        · rw [hb.2] at g; cases g
        · exact g
      · refine ready_items ks hn (.inr l1) ?_ l3 row hr
        intro k hk
        rcases okKids_mem ok.kids hk with ⟨g, -⟩ | ⟨-, g, -⟩
        · exact .inl (inCols_iff.1 g).1
        · exact .inr g
    · have h1 : ∀ k ∈ ks, inCols cols k = true := by
        intro k hk
        rcases okKids_mem ok.kids hk with ⟨g, -⟩ | ⟨-, -, g⟩
        · exact g
        · exact absurd g hs
      have h2 : otherLeaves cols ks = [] := by
        unfold otherLeaves
        rw [List.filter_eq_nil_iff]
        intro k hk
        simp [h1 k hk]
      rw [h2, itemRowsL_leaves fun k hk => (inCols_iff.1 (h1 k hk)).1] at hr
      cases hr
theorem ready_items {cols : List Str} : ∀ (ks : List Item) {p : Str}, RowParent p → (p = py!"root" ∨ lineName p = true) →
    (∀ k ∈ ks, k.leaf = true ∨ k.ok cols p = true) → lineOkL ks = true → ∀ row ∈ itemRowsL cols p ks, RowReady cols row
  | [], p => by
    intro _ _ _ _ row hr
    cases hr
  | k :: ks, p => by
    intro hp hlp h hl row hr
    rw [lineOkL, Bool.and_eq_true] at hl
    rw [itemRowsL] at hr
    rcases List.mem_append.1 hr with hr | hr
    · cases hlf : k.leaf with
      | true => rw [hlf] at hr; cases hr
      | false =>
        rw [hlf] at hr
        rcases h k List.mem_cons_self with g | g
        · rw [hlf] at g; cases g
        · exact ready_item k hp hlp g hl.1 row hr
    · exact ready_items ks hp hlp (fun k hk => h k (List.mem_cons_of_mem _ hk)) hl.2 row hr
end

theorem ready_rows {cols : List Str} {is : List Item} (h : is.all (Item.ok cols (py!"root")) = true) (hl : lineOkL is = true) :
    ∀ row ∈ is.flatMap (itemRows cols (py!"root")), RowReady cols row := by
  intro row hr
  obtain ⟨i, hi, hr⟩ := List.mem_flatMap.1 hr
  exact ready_item i (.inl rfl) (.inl rfl) (List.all_eq_true.1 h i hi) (lineOkL_mem hl hi) row hr

/-! ## Writing -/

/-- One line of `docText`. -/
def lineOut (l : Str × Val) : Except Err (List Str) := do
  let v ← lineValue l.2
  let line := l.1 ++ py!": " ++ v
  return if l.1 = py!"Section" then [[], line] else [line]

/-- The lines become these texts. -/
def Outs (ls : List (Str × Val)) (texts : List Str) : Prop := ∃ outs, List.Forall₂ (fun l o => lineOut l = .ok o) ls outs ∧ outs.flatten = texts

theorem Outs.nil : Outs [] [] := ⟨[], .nil, rfl⟩

theorem Outs.append {a b : List (Str × Val)} {x y : List Str} (h : Outs a x) (k : Outs b y) : Outs (a ++ b) (x ++ y) := by
  obtain ⟨o1, h1, rfl⟩ := h
  obtain ⟨o2, h2, rfl⟩ := k
  exact ⟨o1 ++ o2, List.rel_append h1 h2, by simp⟩

theorem Outs.one {c v : Str} {x : Val} (hc : c ≠ py!"Section") (hx : TextVal x v) : Outs [(c, x)] [c ++ py!": " ++ v] := by
  refine ⟨[[c ++ py!": " ++ v]], .cons ?_ .nil, by simp⟩
  unfold lineOut lineValue
  rw [hx.csv]
  show Except.ok _ = _
  simp only [if_neg hc]

theorem args_out {cols : List Str} : ∀ {xs : List Val} {vs : List Str}, List.Forall₂ TextVal xs vs →
    ∃ ls, argLines (cols.zip xs) = .ok ls ∧ Outs ls ((filledCells cols vs).map fun cv => py!"    ." ++ title cv.1 ++ py!": " ++ cv.2) := by
  induction cols with
  | nil => intro xs vs _; exact ⟨[], rfl, Outs.nil⟩
  | cons c cols ih =>
    intro xs vs h
    cases h with
    | nil => exact ⟨[], rfl, Outs.nil⟩
    | cons h1 h2 =>
      rename_i x v xs vs
      obtain ⟨ls, g1, g2⟩ := ih h2
      have hf : filledCells (c :: cols) (v :: vs) = (if strip v ≠ [] then [(c, v)] else []) ++ filledCells cols vs := by
        unfold filledCells
        rw [List.zip_cons_cons, List.filter_cons]
        by_cases e : strip v = [] <;> simp [e]
      rw [List.zip_cons_cons, hf, List.map_append]
      unfold argLines
      rcases h1 with rfl | ⟨rfl, rfl⟩
      · by_cases e : strip v = []
        · refine ⟨ls, ?_, ?_⟩
          · rw [g1]
            by_cases t : (Val.str v).truthy = true
            · rw [if_pos t]
              show Except.ok _ = _
              simp [e]
            · rw [if_neg t]
          · simp only [e, ne_eq, not_true_eq_false, if_false, List.map_nil, List.nil_append]
            exact g2
        · have t : (Val.str v).truthy = true := by
            unfold Val.truthy
            cases v with
            | nil => exact absurd rfl e
            | cons a b => rfl
          refine ⟨(py!"    ." ++ title c, .str v) :: ls, ?_, ?_⟩
          · rw [g1, if_pos t]
            show Except.ok _ = _
            simp [e]
          · rw [if_pos e]
            refine Outs.append (a := [_]) (Outs.one ?_ (.inl rfl)) g2
            intro h
            cases h
      · refine ⟨ls, ?_, ?_⟩
        · rw [g1]; rfl
        · exact g2

theorem row_out {cols : List Str} {r : Str × RowVal} {row : List Str} (h : CellRow r row) (hr : RowFits cols row) :
    ∃ ls, rowLines cols r = .ok ls ∧ Outs ls (lineTexts cols row) := by
  obtain ⟨c, v, vs, rfl, hr⟩ := hr
  unfold CellRow docRow at h
  cases h with
  | cons h1 h2 =>
    have hc : rowName r.1 = c := by
      rcases h1 with h1 | ⟨h1, -⟩
      · cases h1; rfl
      · cases h1
    have hns : rowName r.1 ≠ py!"Section" := by rw [hc]; exact hr.notSec
    unfold rowLines
    rw [lineTexts]
    cases hv : r.2 with
    | one x =>
      rw [hv] at h2
      simp only at h2 ⊢
      cases h2 with
      | cons h3 h4 =>
        cases h4
        refine ⟨_, rfl, ?_⟩
        have e : filledCells cols [] = [] := by unfold filledCells; simp
        rw [e, ← hc]
        exact Outs.one hns h3
    | args xs =>
      rw [hv] at h2
      simp only at h2 ⊢
      cases h2 with
      | cons h3 h4 =>
        rename_i x xs
        obtain ⟨ls, g1, g2⟩ := args_out (cols := cols) h4
        refine ⟨(rowName r.1, x) :: ls, ?_, ?_⟩
        · simp only [g1]; rfl
        · rw [← hc]
          exact Outs.append (a := [_]) (Outs.one hns h3) g2

theorem rows_out {cols : List Str} {rs : List (Str × RowVal)} {rows : List (List Str)} (h : List.Forall₂ CellRow rs rows)
    (hr : ∀ row ∈ rows, RowFits cols row) : ∃ ls, rs.mapM (rowLines cols) = .ok ls ∧ Outs ls.flatten (rows.flatMap (lineTexts cols)) := by
  induction h with
  | nil => exact ⟨[], rfl, Outs.nil⟩
  | cons h1 _ ih =>
    obtain ⟨ls, g1, g2⟩ := ih fun row hrow => hr row (List.mem_cons_of_mem _ hrow)
    obtain ⟨l, g3, g4⟩ := row_out h1 (hr _ List.mem_cons_self)
    refine ⟨l :: ls, ?_, ?_⟩
    · rw [List.mapM_cons, g3, g1]; rfl
    · rw [List.flatten_cons, List.flatMap_cons]
      exact g4.append g2

/-- The text of a document with a known outline. -/
theorem docText_shows {s : St} (w : WF True s) {D : List Part} (hv : NamedValues s D) (h : Shows s D) (hD : ∀ d ∈ D, PartEntries d)
    (hl : ∀ d ∈ D, ∀ row ∈ d.items.flatMap (itemRows d.cols (py!"root")), RowFits d.cols row) : docText s = .ok (join (py!"\n") (D.flatMap partTexts)) := by
  have key : ∀ (secs : Dict Nat) (D : List Part), List.Forall₂ (ShowsPart s) secs D → (∀ d ∈ D, PartEntries d) → NamedValues s D →
      (∀ d ∈ D, ∀ row ∈ d.items.flatMap (itemRows d.cols (py!"root")), RowFits d.cols row) → ∃ ls, secs.mapM (fun kv => sectionLines s kv.2) = (.ok ls : Except Err _) ∧
      Outs ls.flatten (D.flatMap partTexts) := by
    intro secs D hf
    induction hf with
    | nil => intro _ _ _; exact ⟨[], rfl, Outs.nil⟩
    | cons hab _ ih =>
      rename_i kv d _ _ _
      intro hD hv hl
      obtain ⟨ls, hls, hout⟩ := ih (fun d hd => hD d (List.mem_cons_of_mem _ hd)) (fun d hd => hv d (List.mem_cons_of_mem _ hd)) fun d hd => hl d (List.mem_cons_of_mem _ hd)
      obtain ⟨c1, c2⟩ := hD d List.mem_cons_self
      obtain ⟨es, hes, hrows⟩ := rows_items w hab.cols c1 h.rootName hab.items hab.rootLevel c2 (hv d List.mem_cons_self)
      have hsec : sectionRows s kv.2 = .ok (es.flatten.flatMap (entryRows s kv.2)) := by
        unfold sectionRows
        rw [hes]
        rfl
      obtain ⟨rl, h1, h2⟩ := rows_out hrows (hl d List.mem_cons_self)
      have hline : ∃ head, sectionLines s kv.2 = .ok (head ++ rl.flatten) ∧
          Outs head (if d.name ≠ py!"Root" then [[], py!"Section: " ++ join ['|'] (d.name :: d.cols)] else []) := by
        unfold sectionLines
        dsimp only
        rw [hab.name, hab.cols]
        by_cases e : d.name = py!"Root"
        · refine ⟨[], ?_, ?_⟩
          · rw [if_neg (by rw [e]; simp), hsec]
            show (List.mapM (rowLines d.cols) _ >>= _) = _
            rw [h1]
            rfl
          · rw [if_neg (by rw [e]; simp)]; exact Outs.nil
        · refine ⟨[(py!"Section", .str (join (py!"|") (d.name :: d.cols)))], ?_, ?_⟩
          · rw [if_pos (by simpa using e), hsec]
            show (List.mapM (rowLines d.cols) _ >>= _) = _
            rw [h1]
            rfl
          · rw [if_pos e]
            exact ⟨[[[], py!"Section" ++ py!": " ++ join (py!"|") (d.name :: d.cols)]], .cons rfl .nil, rfl⟩
      obtain ⟨head, g1, g2⟩ := hline
      refine ⟨(head ++ rl.flatten) :: ls, ?_, ?_⟩
      · rw [List.mapM_cons, g1, hls]; rfl
      · rw [List.flatten_cons, List.flatMap_cons]
        exact Outs.append (g2.append h2) hout
  obtain ⟨ls, hls, outs, ho, hj⟩ := key _ _ h.parts hD hv hl
  have hd : docLines s = .ok ls.flatten := by unfold docLines; rw [hls]; rfl
  have hm : ls.flatten.mapM lineOut = .ok outs := mapM_iff.2 ho
  have : docText s = (do let ls ← docLines s; let out ← ls.mapM lineOut; return join (py!"\n") out.flatten) := rfl
  rw [this, hd]
  show (ls.flatten.mapM lineOut >>= _) = _
  rw [hm]
  show Except.ok (join _ outs.flatten) = _
  rw [hj]

/-! ## Splitting the text -/

/-- A column that can hold cells. -/
structure FitColumn (c : Str) : Prop where
  ord : ordinary (lower c) = true
  dot : '.' ∉ c
  colon : ':' ∉ c
  strip : Py.strip c = c
  breaks : ∀ x ∈ c, isLineBreak x = false

/-- The columns fit, unless they are blank. -/
def FitCols (cols : List Str) : Prop := ∀ c ∈ cols, c ≠ [] → FitColumn c

theorem fitCols {cols : List Str} (h : cols.all lineColumn = true) (hs : ∀ c ∈ cols, strip c = c) : FitCols cols := by
  intro c hc h0
  have := List.all_eq_true.1 h c hc
  unfold lineColumn at this
  simp only [Bool.and_eq_true, Bool.or_eq_true, decide_eq_true_eq, h0, false_or, Bool.not_eq_true', List.contains_eq_mem,
    decide_eq_false_iff_not] at this
  exact ⟨this.2.1.1, this.2.1.2, this.2.2, hs c hc, (lineCell_iff.1 this.1.1).2⟩

/-- The line is split into the row. -/
def LineIs (l : Str) (row : List Str) : Prop := textRow l = some row ∧ ∀ c ∈ l, isLineBreak c = false

theorem writeLine_one {c v : Str} (h : '|' ∉ v) : writeLine c [v] = c ++ py!": " ++ v := by
  unfold writeLine
  simp only [List.map_cons, List.map_nil, join, esc_id h]

theorem mem_filled {cols vs : List Str} {cv : Str × Str} (h : cv ∈ filledCells cols vs) : cv.1 ∈ cols :=
  (List.of_mem_zip (List.mem_filter.1 h).1).1

theorem lineIs_row {cols row : List Str} (hc : FitCols cols) (h : RowFits cols row) :
    List.Forall₂ LineIs (lineTexts cols row) (lineRows cols row) := by
  obtain ⟨c, v, vs, rfl, h⟩ := h
  rw [lineTexts, lineRows]
  obtain ⟨v1, v2⟩ := lineCell_iff.1 h.cell
  refine .cons ⟨?_, ?_⟩ (forall₂_map_map ?_)
  · rw [← writeLine_one v1]; exact C04_line h.line
  · rw [← writeLine_one v1]; exact writeLine_breaks h.line
  · intro cv hcv
    obtain ⟨g1, g2, g3⟩ := h.args cv hcv
    obtain ⟨p1, p2⟩ := lineCell_iff.1 g2
    have hf := hc cv.1 (mem_filled hcv) g1
    refine ⟨textRow_arg hf.strip g1 hf.colon p1 g3, ?_⟩
    have hb : ∀ x ∈ title cv.1, isLineBreak x = false := by
      have : oneLine (title cv.1) = true := by rw [oneLine_title]; unfold oneLine; simpa [List.all_eq_true] using hf.breaks
      unfold oneLine at this
      simpa [List.all_eq_true] using this
    intro x hx
    simp only [List.mem_append] at hx
    rcases hx with ((hx | hx) | hx) | hx
    · revert x; decide
    · exact hb x hx
    · revert x; decide
    · exact p2 x hx

theorem lineIs_rows {cols : List Str} (hc : FitCols cols) {rows : List (List Str)} (h : ∀ row ∈ rows, RowFits cols row) :
    List.Forall₂ LineIs (rows.flatMap (lineTexts cols)) (rows.flatMap (lineRows cols)) := by
  induction rows with
  | nil => exact .nil
  | cons row rows ih =>
    rw [List.flatMap_cons, List.flatMap_cons]
    exact List.rel_append (lineIs_row hc (h row List.mem_cons_self)) (ih fun row hr => h row (List.mem_cons_of_mem _ hr))

/-- What the Lines format needs of a section: that of the rows, and that of the section's own line unless it is the root. -/
structure LinePart (d : Part) : Prop where
  fit : FitCols d.cols
  ready : ∀ row ∈ d.items.flatMap (itemRows d.cols (py!"root")), RowReady d.cols row
  own : d.name ≠ py!"Root" → PartOk d ∧ ∀ c ∈ d.name :: d.cols, lineCell c = true ∧ c.getLast? ≠ some '\\'

/-- What writing a section in lines needs. -/
structure PartFits (d : Part) : Prop where
  fit : FitCols d.cols
  rows : ∀ row ∈ d.items.flatMap (itemRows d.cols (py!"root")), RowFits d.cols row
  own : d.name ≠ py!"Root" → PartOk d ∧ ∀ c ∈ d.name :: d.cols, lineCell c = true ∧ c.getLast? ≠ some '\\'

theorem LinePart.fits {d : Part} (h : LinePart d) : PartFits d := ⟨h.fit, fun row hr => (h.ready row hr).fits, h.own⟩

theorem lineOk_part {d : Part} (h : d.lineOk = true) : lineOkL d.items = true ∧ d.cols.all lineColumn = true ∧
    ∀ c ∈ d.name :: d.cols, lineCell c = true ∧ c.getLast? ≠ some '\\' := by
  unfold Part.lineOk at h
  simp only [Bool.and_eq_true, decide_eq_true_eq] at h
  refine ⟨h.2, h.1.2, ?_⟩
  intro c hc
  rcases List.mem_cons.1 hc with rfl | hc
  · exact h.1.1
  · have := List.all_eq_true.1 h.1.2 c hc
    unfold lineColumn at this
    simp only [Bool.and_eq_true, decide_eq_true_eq] at this
    exact this.1

theorem linePart {d : Part} (h : PartOk d) (hl : d.lineOk = true) : LinePart d := by
  obtain ⟨h1, h2, h3⟩ := lineOk_part hl
  exact ⟨fitCols h2 h.cols, ready_rows h.items h1, fun _ => ⟨h, h3⟩⟩

/-- The outline can be written in lines. -/
structure LineWritable (r : Part) (ds : List Part) : Prop where
  w : Writable r ds
  parts : ∀ d ∈ r :: ds, LinePart d

theorem lineWritable_iff {D : List Part} (h : lineWritable D = true) : ∃ r ds, D = r :: ds ∧ LineWritable r ds := by
  unfold lineWritable at h
  rw [Bool.and_eq_true] at h
  obtain ⟨r, ds, rfl, w⟩ := writable_iff.1 h.1
  have hl := List.all_eq_true.1 h.2
  refine ⟨r, ds, rfl, w, ?_⟩
  intro d hd
  rcases List.mem_cons.1 hd with rfl | hd
  · refine ⟨?_, ?_, fun hn => absurd w.name hn⟩
    · rw [w.cols]; intro c hc; cases hc
    · rw [w.cols]
      exact ready_rows w.items (lineOk_part (hl d List.mem_cons_self)).1
  · exact linePart (w.parts d hd) (hl d (List.mem_cons_of_mem _ hd))

theorem lineIs_part {d : Part} (h : PartFits d) : List.Forall₂ LineIs (partTexts d) (partLineRows d) := by
  unfold partTexts partLineRows
  refine List.rel_append ?_ (lineIs_rows h.fit h.rows)
  by_cases e : d.name = py!"Root"
  · rw [if_neg (by simpa using e), if_neg (by simpa using e)]
    exact .nil
  · rw [if_pos e, if_pos e]
    obtain ⟨h1, h2⟩ := h.own e
    obtain ⟨g1, g2⟩ := lineRow_section h1.ne h1.strip h1.cols h2
    rw [← g2]
    exact .cons ⟨by decide +kernel, by simp⟩ (.cons ⟨C04_line g1, writeLine_breaks g1⟩ .nil)

theorem lineIs_parts {D : List Part} (h : ∀ d ∈ D, PartFits d) : List.Forall₂ LineIs (D.flatMap partTexts) (D.flatMap partLineRows) := by
  induction D with
  | nil => exact .nil
  | cons d D ih =>
    rw [List.flatMap_cons, List.flatMap_cons]
    exact List.rel_append (lineIs_part (h d List.mem_cons_self)) (ih fun d hd => h d (List.mem_cons_of_mem _ hd))

theorem filterMap_lines {ls : List Str} {rows : List (List Str)} (h : List.Forall₂ LineIs ls rows) : ls.filterMap textRow = rows := by
  induction h with
  | nil => rfl
  | cons h1 _ ih => rw [List.filterMap_cons_some h1.1, ih]

theorem breaks_lines {ls : List Str} {rows : List (List Str)} (h : List.Forall₂ LineIs ls rows) : ∀ l ∈ ls, ∀ c ∈ l, isLineBreak c = false := by
  induction h with
  | nil => intro l hl; cases hl
  | cons h1 _ ih =>
    intro l hl
    rcases List.mem_cons.1 hl with rfl | hl
    · exact h1.2
    · exact ih l hl

theorem noBlankEnd_append {a b : List Str} (ha : a.getLast? ≠ some []) (hb : b.getLast? ≠ some []) : (a ++ b).getLast? ≠ some [] := by
  rw [List.getLast?_append]
  cases h : b.getLast? with
  | none => simpa using ha
  | some x => rw [h] at hb; simpa using hb

theorem noBlankEnd_of {a : List Str} (h : ∀ l ∈ a, l ≠ []) : a.getLast? ≠ some [] := by
  intro e
  exact h [] (List.mem_of_getLast? e) rfl

theorem noBlankEnd_part (d : Part) : (partTexts d).getLast? ≠ some [] := by
  unfold partTexts
  refine noBlankEnd_append ?_ (noBlankEnd_of ?_)
  · split
    · simp
    · simp
  · intro l hl
    obtain ⟨row, -, hl⟩ := List.mem_flatMap.1 hl
    match row with
    | [] => cases hl
    | [c] => cases hl
    | c :: v :: vs =>
      rw [lineTexts] at hl
      rcases List.mem_cons.1 hl with rfl | hl
      · simp
      · obtain ⟨cv, -, rfl⟩ := List.mem_map.1 hl
        simp

theorem noBlankEnd_parts (D : List Part) : (D.flatMap partTexts).getLast? ≠ some [] := by
  induction D with
  | nil => simp
  | cons d D ih => rw [List.flatMap_cons]; exact noBlankEnd_append (noBlankEnd_part d) ih

/-- The rows of the text. -/
theorem textRows_parts {D : List Part} (h : ∀ d ∈ D, PartFits d) : textRows (join (py!"\n") (D.flatMap partTexts)) = D.flatMap partLineRows := by
  have hl := lineIs_parts h
  unfold textRows
  have := splitlines_join' _ (breaks_lines hl) (noBlankEnd_parts D)
  rw [this]
  exact filterMap_lines hl

/-! ## Reading -/

theorem kind_argRow {c : Str} (h : FitColumn c) (rest : List Str) : kind (('.' :: title c) :: rest) = .elided (lower c) := by
  have hn : cellNames ('.' :: title c) = some ([], lower c) := by
    unfold cellNames
    have : splitOn '.' ('.' :: title c) = [[], title c] := by
      have := splitOn_append_sep (sep := '.') (p := []) (fun h => by cases h) (title c)
      rw [List.nil_append] at this
      rw [this, splitOn_not_mem (by rw [dot_mem_title]; exact h.dot)]
    rw [this]
    simp only [strip_title h.strip, lower_title]
    rfl
  rw [kind_of (strip_head (by decide) _) (by decide) hn h.ord (Ne.symm (ordinary_facts h.ord).1) (by decide), if_pos rfl]

theorem foldl_argRows {r : Str} : ∀ (cs vs pre : List Str) (a : Reader), a.last.1 = r → a.cols = pre ++ cs → vs.length ≤ cs.length → FitCols cs →
    (∀ cv ∈ filledCells cs vs, cv.1 ≠ []) →
    ((filledCells cs vs).map fun cv => ['.' :: title cv.1, cv.2]).foldl Reader.row a = Reader.addArgs r pre.length vs a
  | _, [], pre, a => by
    intro _ _ _ _ _
    unfold filledCells
    simp [Reader.addArgs]
  | [], v :: vs, pre, a => by
    intro _ _ h
    simp at h
  | c :: cs, v :: vs, pre, a => by
    intro hl hc hlen hf hne
    have hlen' : (pre ++ [c]).length = pre.length + 1 := by simp
    have hf' : FitCols cs := fun x hx => hf x (List.mem_cons_of_mem _ hx)
    have hfc : filledCells (c :: cs) (v :: vs) = (if strip v ≠ [] then [(c, v)] else []) ++ filledCells cs vs := by
      unfold filledCells
      rw [List.zip_cons_cons, List.filter_cons]
      by_cases e : strip v = [] <;> simp [e]
    rw [hfc] at hne ⊢
    rw [List.map_append, List.foldl_append, Reader.addArgs, ← hlen']
    have hne' : ∀ cv ∈ filledCells cs vs, cv.1 ≠ [] := fun cv h => hne cv (List.mem_append.2 (.inr h))
    have hc' : a.cols = (pre ++ [c]) ++ cs := by rw [hc]; simp
    by_cases hv : strip v = []
    · rw [if_neg (by simpa using hv), if_pos hv]
      exact foldl_argRows cs vs (pre ++ [c]) a hl hc' (by simpa using hlen) hf' hne'
    · rw [if_pos hv, if_neg hv]
      have h0 : c ≠ [] := hne (c, v) (by rw [if_pos hv]; simp)
      have hfit := hf c List.mem_cons_self h0
      have hcn : colName a.cols pre.length = lower c := by
        unfold colName
        rw [hc, List.getElem?_append_right (Nat.le_refl _), Nat.sub_self]
        simp only [List.getElem?_cons_zero]
        rw [if_neg h0]
      have e : a.row ['.' :: title c, v] =
          { a with nodes := a.nodes ++ [⟨r, colName a.cols pre.length, .str (strip v), a.last.2, a.cur, a.vname⟩] } := by
        unfold Reader.row
        rw [kind_argRow hfit]
        simp [Reader.addArgs, hl, cellValue_full hv, hcn]
      simp only [List.map_cons, List.map_nil, List.foldl_cons, List.foldl_nil, e]
      exact foldl_argRows cs vs (pre ++ [c]) _ hl hc' (by simpa using hlen) hf' hne'

theorem read_lineRows {cols row : List Str} (hc : FitCols cols) (h : RowReady cols row) {a : Reader} (ha : a.cols = cols) :
    (lineRows cols row).foldl Reader.row a = a.row row ∧ (a.row row).cols = cols := by
  obtain ⟨c, v, vs, rfl, h⟩ := h
  obtain ⟨p, n, hk⟩ := h.kind
  generalize hb : a.row [c, v] = b
  have h1 : a.row (c :: v :: vs) = Reader.addArgs n 0 vs b := by
    rw [← hb]
    unfold Reader.row
    rw [hk, hk]
    rfl
  have h2 : b.last.1 = n ∧ b.cols = cols := by
    rw [← hb]
    unfold Reader.row
    rw [hk]
    exact ⟨rfl, ha⟩
  rw [h1]
  refine ⟨?_, by rw [(addArgs_fields n vs 0 b).2.2, h2.2]⟩
  rw [lineRows, List.foldl_cons, hb]
  exact foldl_argRows cols vs [] b h2.1 h2.2 h.len hc fun cv hcv => (h.args cv hcv).1

theorem read_allLineRows {cols : List Str} (hc : FitCols cols) {rows : List (List Str)} (h : ∀ row ∈ rows, RowReady cols row) {a : Reader}
    (ha : a.cols = cols) : (rows.flatMap (lineRows cols)).foldl Reader.row a = rows.foldl Reader.row a := by
  induction rows generalizing a with
  | nil => rfl
  | cons row rows ih =>
    obtain ⟨h1, h2⟩ := read_lineRows hc (h row List.mem_cons_self) ha
    rw [List.flatMap_cons, List.foldl_append, h1, List.foldl_cons]
    exact ih (fun row hr => h row (List.mem_cons_of_mem _ hr)) h2

theorem read_linePart {d : Part} (h : LinePart d) (hn : d.name ≠ py!"Root") {a : Reader} (hs : Dict.get? a.secs (lower d.name) = none) :
    (partLineRows d).foldl Reader.row a = (partRows d).foldl Reader.row a := by
  unfold partLineRows partRows
  rw [if_pos hn, List.foldl_append, List.foldl_append]
  refine read_allLineRows h.fit h.ready ?_
  simp only [List.foldl_cons, List.foldl_nil]
  have h0 : kind [[]] = .noise := by decide +kernel
  have h1 : a.row [[]] = a := by unfold Reader.row; rw [h0]
  rw [h1]
  unfold Reader.row
  rw [kind_sectionRow (h.own hn).1]
  simp only [hs]

theorem read_lineParts : ∀ (ds : List Part) {a : Reader}, (∀ d ∈ ds, LinePart d) → (∀ d ∈ ds, PartOk d) → (ds.map fun d => lower d.name).Nodup →
    (∀ d ∈ ds, Dict.get? a.secs (lower d.name) = none) → Dict.get? a.known (py!"root") = some none →
    (ds.flatMap partLineRows).foldl Reader.row a = (ds.flatMap partRows).foldl Reader.row a
  | [], a => fun _ _ _ _ _ => rfl
  | d :: ds, a => by
    intro hl hok hnd hs hk
    have r1 := read_part (hok d List.mem_cons_self) (hs d List.mem_cons_self) hk
    rw [List.map_cons, List.nodup_cons] at hnd
    rw [List.flatMap_cons, List.flatMap_cons, List.foldl_append, List.foldl_append,
      read_linePart (hl d List.mem_cons_self) (name_ne_root (hok d List.mem_cons_self)) (hs d List.mem_cons_self)]
    refine read_lineParts ds (fun d hd => hl d (List.mem_cons_of_mem _ hd)) (fun d hd => hok d (List.mem_cons_of_mem _ hd)) hnd.2 ?_ r1.known
    intro e he
    rw [r1.secs]
    simp only [List.map_cons, List.map_nil]
    rw [get?_append_none (hs e (List.mem_cons_of_mem _ he)), if_neg]
    intro h
    exact hnd.1 (List.mem_map.2 ⟨e, he, h.symm⟩)

/-- The reference reader makes the same of the lines as of the rows. -/
theorem readAll_lines {r : Part} {ds : List Part} (h : LineWritable r ds) :
    readAll ((r :: ds).flatMap partLineRows) = readAll ((r :: ds).flatMap partRows) := by
  have w := h.w
  unfold readAll
  rw [List.flatMap_cons, List.flatMap_cons, List.foldl_append, List.foldl_append]
  have hr : partRows r = r.items.flatMap (itemRows [] (py!"root")) := by
    unfold partRows; rw [if_neg (by rw [w.name]; simp), w.cols, List.nil_append]
  have hl := h.parts r List.mem_cons_self
  have hrl : (partLineRows r).foldl Reader.row Reader.start = (partRows r).foldl Reader.row Reader.start := by
    unfold partLineRows partRows
    rw [if_neg (by rw [w.name]; simp), List.nil_append, List.nil_append]
    exact read_allLineRows hl.fit hl.ready (by rw [w.cols]; rfl)
  rw [hrl]
  obtain ⟨names, r1, hn⟩ := read_rootItems (cols := []) (sec := py!"root") r.items (a := Reader.start) w.items rfl rfl rfl rfl
  rw [← hr] at r1
  refine read_lineParts ds (fun d hd => h.parts d (List.mem_cons_of_mem _ hd)) w.parts w.nodup ?_ ?_
  · intro d hd
    rw [r1.secs]
    simp only [Reader.start]
    rw [Dict.get?_cons, if_neg (fun e => (w.parts d hd).notRoot e.symm)]
    rfl
  · rw [r1.known _ hn]; rfl

/-! ## The rows are ordinary -/

theorem kind_lineRows {cols row : List Str} (hc : FitCols cols) (h : RowReady cols row) :
    ∃ p n first args, lineRows cols row = first :: args ∧ kind first = .named p n ∧ kind row = .named p n ∧ ∀ x ∈ args, ∃ m, kind x = .elided m := by
  obtain ⟨c, v, vs, rfl, h⟩ := h
  obtain ⟨p, n, hk⟩ := h.kind
  refine ⟨p, n, _, _, rfl, hk _, hk _, ?_⟩
  intro x hx
  obtain ⟨cv, hcv, rfl⟩ := List.mem_map.1 hx
  exact ⟨_, kind_argRow (hc cv.1 (mem_filled hcv) (h.args cv hcv).1) _⟩

theorem plainFrom_elided {K : List Str} : ∀ {args : List (List Str)} {rest : List (List Str)}, (∀ x ∈ args, ∃ m, kind x = .elided m) →
    plainFrom K rest = true → plainFrom K (args ++ rest) = true
  | [], _, _, h => h
  | x :: args, rest, ha, h => by
    obtain ⟨m, hm⟩ := ha x List.mem_cons_self
    rw [List.cons_append]
    unfold plainFrom
    rw [hm]
    exact plainFrom_elided (fun y hy => ha y (List.mem_cons_of_mem _ hy)) h

theorem plainFrom_lineRows {cols : List Str} (hc : FitCols cols) : ∀ {rows : List (List Str)} {K : List Str} {rest rest' : List (List Str)},
    (∀ row ∈ rows, RowReady cols row) → (∀ K, plainFrom K rest = true → plainFrom K rest' = true) → plainFrom K (rows ++ rest) = true →
    plainFrom K (rows.flatMap (lineRows cols) ++ rest') = true
  | [], K, _, _, _, hr, h => hr K h
  | row :: rows, K, rest, rest', hok, hr, h => by
    obtain ⟨p, n, first, args, h1, h2, h3, h4⟩ := kind_lineRows hc (hok row List.mem_cons_self)
    rw [List.cons_append] at h
    unfold plainFrom at h
    rw [h3] at h
    simp only [Bool.and_eq_true] at h
    rw [List.flatMap_cons, h1, List.append_assoc, List.cons_append]
    unfold plainFrom
    rw [h2]
    simp only [Bool.and_eq_true]
    exact ⟨h.1, plainFrom_elided h4 (plainFrom_lineRows hc (fun row hrow => hok row (List.mem_cons_of_mem _ hrow)) hr h.2)⟩

theorem plainFrom_same {x : List Str} {rest rest' : List (List Str)} (hr : ∀ K, plainFrom K rest = true → plainFrom K rest' = true) :
    ∀ K, plainFrom K (x :: rest) = true → plainFrom K (x :: rest') = true := by
  intro K h
  unfold plainFrom at h ⊢
  cases hk : kind x with
  | special => rw [hk] at h; cases h
  | named p r =>
    rw [hk] at h
    simp only [Bool.and_eq_true] at h ⊢
    exact ⟨h.1, hr _ h.2⟩
  | noise => rw [hk] at h; exact hr K h
  | «section» n c => rw [hk] at h; exact hr K h
  | header n c => rw [hk] at h; exact hr K h
  | elided r => rw [hk] at h; exact hr K h

theorem plainFrom_parts : ∀ {D : List Part}, (∀ d ∈ D, LinePart d) → ∀ K, plainFrom K (D.flatMap partRows) = true → plainFrom K (D.flatMap partLineRows) = true
  | [], _, _, h => h
  | d :: D, hl, K, h => by
    have ih := plainFrom_parts (D := D) fun d hd => hl d (List.mem_cons_of_mem _ hd)
    have hd := hl d List.mem_cons_self
    rw [List.flatMap_cons] at h ⊢
    unfold partRows at h
    unfold partLineRows
    by_cases e : d.name = py!"Root"
    · rw [if_neg (by simpa using e)] at h ⊢
      exact plainFrom_lineRows hd.fit hd.ready ih h
    · rw [if_pos e] at h ⊢
      simp only [List.cons_append, List.nil_append] at h ⊢
      refine plainFrom_same (fun K h => ?_) K h
      refine plainFrom_same (fun K h => ?_) K h
      exact plainFrom_lineRows hd.fit hd.ready ih h

theorem noHeader_parts {D : List Part} (hl : ∀ d ∈ D, LinePart d) : ∀ row ∈ D.flatMap partLineRows, kind row ≠ .special ∧ ∀ n c, kind row ≠ .header n c := by
  intro row hr
  obtain ⟨d, hd, hr⟩ := List.mem_flatMap.1 hr
  have h := hl d hd
  unfold partLineRows at hr
  rcases List.mem_append.1 hr with hr | hr
  · by_cases e : d.name = py!"Root"
    · rw [if_neg (by simpa using e)] at hr; cases hr
    · rw [if_pos e] at hr
      have h0 : kind [[]] = .noise := by decide +kernel
      rcases List.mem_cons.1 hr with rfl | hr
      · rw [h0]; exact ⟨by simp, by simp⟩
      · rw [List.mem_singleton.1 hr, kind_sectionRow (h.own e).1]; exact ⟨by simp, by simp⟩
  · obtain ⟨x, hx, hr⟩ := List.mem_flatMap.1 hr
    obtain ⟨p, n, first, args, h1, h2, -, h4⟩ := kind_lineRows h.fit (h.ready x hx)
    rw [h1] at hr
    rcases List.mem_cons.1 hr with rfl | hr
    · rw [h2]; exact ⟨by simp, by simp⟩
    · obtain ⟨m, hm⟩ := h4 row hr
      rw [hm]; exact ⟨by simp, by simp⟩

end Metatab
