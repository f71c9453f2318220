import Verif.Props.LineFile
import Verif.Props.RoundTripDecl
/-! # C63: documents with `Declare` rows in the Lines format -/
namespace Metatab
open Py _root_.Spec

/-- A name of a declare file that can be written in a line. -/
def declLine (v : Str) : Bool := lineCell v && decide (strip v = v)

theorem declLine_ready {v : Str} (h : declLine v = true) : RowFits [] [py!"Declare", v] := by
  unfold declLine at h
  simp only [Bool.and_eq_true, decide_eq_true_eq] at h
  obtain ⟨v1, v2⟩ := lineCell_iff.1 h.1
  refine ⟨_, _, [], rfl, ⟨by decide, by decide +kernel, by decide, by decide, by decide, by simp, by simp, ?_, ?_⟩, h.1, by decide, Nat.le_refl _, ?_⟩
  · simp only [List.map_cons, List.map_nil, join, esc_id v1, h.2]
  · intro c hc
    simp only [List.flatten_cons, List.flatten_nil, List.append_nil] at hc
    rcases List.mem_append.1 hc with hc | hc
    · exact (by decide : ∀ c ∈ py!"Declare", isLineBreak c = false) c hc
    · exact v2 c hc
  · intro cv hcv
    unfold filledCells at hcv
    simp at hcv

theorem lineRows_short {rows : List (List Str)} (h : ∀ row ∈ rows, (row.drop 2).isEmpty = true) : rows.flatMap (lineRows []) = rows := by
  induction rows with
  | nil => rfl
  | cons row rows ih =>
    rw [List.flatMap_cons, ih fun r hr => h r (List.mem_cons_of_mem _ hr)]
    have hr := h row List.mem_cons_self
    match row, hr with
    | [], _ => rfl
    | [c], _ => rfl
    | [c, v], _ => simp [lineRows, filledCells]

theorem rootRows_short (is : List Item) : ∀ row ∈ is.flatMap (itemRows [] (py!"root")), (row.drop 2).isEmpty = true := by
  intro row hr
  obtain ⟨i, -, hi⟩ := List.mem_flatMap.1 hr
  exact itemRows_short i row hi

/-- The root section has no columns, so that its lines are its rows. -/
theorem partLineRows_root {is : List Item} : partLineRows ⟨py!"Root", [], is⟩ = is.flatMap (itemRows [] (py!"root")) := by
  unfold partLineRows
  rw [if_neg (by simp), List.nil_append]
  exact lineRows_short (rootRows_short is)

theorem declared_lineRows {decls : List Str} {is : List Item} {ds : List Part} :
    (⟨py!"Root", [], declItems decls ++ is⟩ :: ds : List Part).flatMap partLineRows =
      declRows decls ++ (⟨py!"Root", [], is⟩ :: ds : List Part).flatMap partLineRows := by
  rw [List.flatMap_cons, List.flatMap_cons, partLineRows_root, partLineRows_root, List.flatMap_append, itemRows_decl, List.append_assoc]

theorem declared_fits {decls : List Str} (hd : decls.all declLine = true) {is : List Item} {ds : List Part}
    (hw : lineWritable (⟨py!"Root", [], is⟩ :: ds) = true) : ∀ d ∈ (⟨py!"Root", [], declItems decls ++ is⟩ :: ds : List Part), PartFits d := by
  obtain ⟨r, ds, e, hl⟩ := lineWritable_iff hw
  cases e
  intro d hm
  rcases List.mem_cons.1 hm with rfl | hm
  · refine ⟨fun c (hc : c ∈ []) => (by cases hc), ?_, fun hn => absurd rfl hn⟩
    dsimp only
    rw [List.flatMap_append, itemRows_decl]
    intro row hr
    rcases List.mem_append.1 hr with hr | hr
    · obtain ⟨v, hv, rfl⟩ := List.mem_map.1 hr
      exact declLine_ready (List.all_eq_true.1 hd v hv)
    · exact ((hl.parts _ List.mem_cons_self).ready row hr).fits
  · exact (hl.parts d (List.mem_cons_of_mem _ hm)).fits

theorem headOk_lineParts {ds : List Part} (h : ∀ d ∈ ds, PartOk d) : headOk (ds.flatMap partLineRows) = true := by
  cases ds with
  | nil => rfl
  | cons d ds =>
    have hd := h d List.mem_cons_self
    have hn : kind [[]] = .noise := by decide +kernel
    rw [List.flatMap_cons]
    unfold partLineRows
    rw [if_pos (name_ne_root hd), List.append_assoc, List.cons_append, headOk, hn]
    dsimp only
    rw [List.cons_append, headOk, kind_sectionRow hd]

/-- The reference reader makes the same of the lines as of the rows, also after `Declare` rows. -/
theorem read_declaredLines {decls : List Str} {is : List Item} {ds : List Part} (h : LineWritable ⟨py!"Root", [], is⟩ ds) :
    ((⟨py!"Root", [], is⟩ :: ds : List Part).flatMap partLineRows).foldl Reader.row (declReader decls) =
      ((⟨py!"Root", [], is⟩ :: ds : List Part).flatMap partRows).foldl Reader.row (declReader decls) := by
  have w := h.w
  rw [List.flatMap_cons, List.flatMap_cons, List.foldl_append, List.foldl_append, partLineRows_root, ← partRows_root]
  obtain ⟨names, r1, hn⟩ := read_rootItems (cols := []) (sec := py!"root") is (a := declReader decls) w.items rfl rfl rfl rfl
  rw [← partRows_root] at r1
  refine read_lineParts ds (fun d hd => h.parts d (List.mem_cons_of_mem _ hd)) w.parts w.nodup ?_ ?_
  · intro d hd
    rw [r1.secs]
    simp only [declReader, Reader.start]
    rw [Dict.get?_cons, if_neg (fun e => (w.parts d hd).notRoot e.symm)]
    rfl
  · rw [r1.known _ hn]; rfl

theorem declared_text {s : St} (w : WF True s) {decls : List Str} (hd : decls.all declLine = true) {is : List Item} {ds : List Part}
    (hD : Shows s (⟨py!"Root", [], declItems decls ++ is⟩ :: ds)) (hw : lineWritable (⟨py!"Root", [], is⟩ :: ds) = true)
    (hv : NamedValues s (⟨py!"Root", [], declItems decls ++ is⟩ :: ds)) :
    docText s = .ok (join (py!"\n") ((⟨py!"Root", [], declItems decls ++ is⟩ :: ds : List Part).flatMap partTexts)) := by
  have hwr : writable (⟨py!"Root", [], is⟩ :: ds) = true := by unfold lineWritable at hw; exact (Bool.and_eq_true _ _ ▸ hw).1
  exact docText_shows w hv hD (declared_entries hwr) fun d hm => (declared_fits hd hw d hm).rows

/-- The lines do not depend on the order that reading brings. -/
theorem declared_texts {decls : List Str} {is : List Item} {ds : List Part} (hw : writable (⟨py!"Root", [], is⟩ :: ds) = true) :
    (declaredBack decls is ds).flatMap partTexts = (⟨py!"Root", [], declItems decls ++ is⟩ :: ds : List Part).flatMap partTexts := by
  unfold declaredBack
  rw [List.flatMap_cons, List.flatMap_cons, List.flatMap_map]
  have key := itemRows_normD hw
  congr 1
  · have h := key _ List.mem_cons_self
    unfold partTexts
    dsimp only at h ⊢
    simp only [List.flatMap_append]
    rw [← h]
    rfl
  · refine flatMap_ext fun d hd => ?_
    unfold partTexts
    rw [key d (List.mem_cons_of_mem _ hd)]
    rfl

/-- **C63** (`Declare` rows). A document whose outline begins with `Declare` terms is written as lines. If the declare files, read on their
own, are quiet, then reading the lines with the same files gives the same outline, up to the order of children, and the declarations of the
files; if the document had these declarations, the new document writes the same lines again.

Missing for the full claim: as for `C50_declared_partial`, and outlines that are not `lineWritable`. -/
theorem C63_declared_partial {s : St} (h : Reach Op.noAddChild s) {decls : List Str} (hd : decls.all declLine = true) {is : List Item} {ds : List Part}
    (hD : Shows s (⟨py!"Root", [], declItems decls ++ is⟩ :: ds)) (hw : lineWritable (⟨py!"Root", [], is⟩ :: ds) = true)
    (hv : NamedValues s (⟨py!"Root", [], declItems decls ++ is⟩ :: ds)) {env : Env} {files : Files} {fuel : Nat} {path : Str} {s1 : St}
    (h1 : parseRows files (fuel + 1) path (declRows decls) (newDoc env) = .ok () s1) (hq : _root_.Spec.Quiet s1 decls) :
    ∃ text s' D', docText s = .ok text ∧ parseRows files (fuel + 1) path (textRows text) (newDoc env) = .ok () s' ∧ Shows s' D' ∧
      List.Forall₂ PartReordered (⟨py!"Root", [], declItems decls ++ is⟩ :: ds) D' ∧ s'.declTerms = s1.declTerms ∧
      (s.declTerms = s1.declTerms → docText s' = .ok text) := by
  have hwr : writable (⟨py!"Root", [], is⟩ :: ds) = true := by unfold lineWritable at hw; exact (Bool.and_eq_true _ _ ▸ hw).1
  have w : WF True s := h.wf fun _ op ha => ha
  have W := hw
  obtain ⟨r, ds, e, hl⟩ := lineWritable_iff W
  cases e
  obtain ⟨s', e1, e2, e3⟩ := declared_parse_as h1 hq hwr (R := (⟨py!"Root", [], is⟩ :: ds : List Part).flatMap partLineRows)
    (plainFrom_parts hl.parts _ (writable_plain hwr)) (noHeader_parts hl.parts)
    (by rw [List.flatMap_cons, partLineRows_root]; exact headOk_root hl.w.items (headOk_lineParts hl.w.parts)) (read_declaredLines hl)
  refine ⟨_, s', declaredBack decls is ds, declared_text w hd hD hw hv, ?_, e2, declared_reordered hwr, e3, ?_⟩
  · rw [textRows_parts (declared_fits hd hw), declared_lineRows]; exact e1
  intro hs
  have w' : WF True s' := by
    have hr : Reach Op.noAddChild (after (parseRows files (fuel + 1) path (declRows decls ++ (⟨py!"Root", [], is⟩ :: ds : List Part).flatMap partLineRows))
        (newDoc env)) := Reach.step (.parse files (fuel + 1) path _) (.new env _) trivial trivial
    unfold after at hr
    rw [e1] at hr
    exact hr.wf fun _ op ha => ha
  have hv' := namedValues_reordered (s' := s') (e3.trans hs.symm) (declared_reordered hwr) hv
  rw [← declared_texts hwr]
  refine docText_shows w' hv' e2 (declared_entries (writable_norm hwr)) ?_
  intro d hm row hr
  rcases List.mem_cons.1 hm with rfl | hm
  · refine (declared_fits (is := is) hd hw _ List.mem_cons_self).rows row ?_
    have h := itemRows_normD hwr _ List.mem_cons_self
    dsimp only at h hr ⊢
    rw [List.flatMap_append] at hr ⊢
    rw [← h]
    exact hr
  · obtain ⟨d, hd', rfl⟩ := List.mem_map.1 hm
    rw [itemRows_normD hwr d (List.mem_cons_of_mem _ hd')] at hr
    exact (declared_fits hd hw d (List.mem_cons_of_mem _ hd')).rows row hr

/-- The theorem applies to the document with a declared value name. -/
example : (∃ text s' D', docText quietDoc = .ok text ∧ parseRows quietFiles 3 (py!"m.csv") (textRows text) (newDoc exEnv) = .ok () s' ∧ Shows s' D' ∧
      List.Forall₂ PartReordered (⟨py!"Root", [], declItems [py!"d.csv"] ++ quietItems⟩ :: quietParts) D' ∧ s'.declTerms = quietStart.declTerms ∧
      (quietDoc.declTerms = quietStart.declTerms → docText s' = .ok text)) ∧
    quietDoc.declTerms = quietStart.declTerms ∧
    docText quietDoc = .ok (py!"Declare: d.csv\nTitle: T\n\nSection: Schema|DataType\nTable: t\nTable.Column: c\n    .Datatype: int") :=
  ⟨C63_declared_partial quietDoc_reach (by decide +kernel) (showsB_sound (by decide +kernel)) (by decide +kernel) (by unfold NamedValues; decide +kernel)
    quietStart_ok quietStart_quiet, by decide +kernel, by decide +kernel⟩

end Metatab
