import Verif.Lemmas.LineDoc
import Verif.Lemmas.Shown
import Verif.Props.RoundTrip
/-! # C63: what a document writes in the Lines format is read as the same document -/
namespace Metatab
open Py _root_.Spec

theorem itemRows_normD {D : List Part} (h : writable D = true) : ∀ d ∈ D,
    d.norm.items.flatMap (itemRows d.norm.cols (py!"root")) = d.items.flatMap (itemRows d.cols (py!"root")) := by
  intro d hd
  obtain ⟨h1, h2⟩ := writable_part h d hd
  simp only [Part.norm, List.flatMap_map]
  exact flatMap_ext fun i hi => itemRows_norm h1 i (List.all_eq_true.1 h2 i hi)

theorem texts_norm {D : List Part} (h : writable D = true) : (D.map Part.norm).flatMap partTexts = D.flatMap partTexts := by
  rw [List.flatMap_map]
  refine flatMap_ext fun d hd => ?_
  unfold partTexts
  rw [itemRows_normD h d hd]
  rfl

/-- Writing lines and reading them. -/
theorem lines_roundtrip {s : St} (w : WF True s) {D : List Part} (hD : Shows s D) (hw : lineWritable D = true) (hv : NamedValues s D) {env : Env}
    {classes : Dict Cls} (hcl : PlainClasses classes) (files : Files) (fuel : Nat) (path : Str) :
    ∃ s', docText s = .ok (join (py!"\n") (D.flatMap partTexts)) ∧
      parseRows files (fuel + 1) path (textRows (join (py!"\n") (D.flatMap partTexts))) (newDoc env classes) = .ok () s' ∧
      Shows s' (D.map Part.norm) ∧ PlainTvn s' := by
  have hwr : writable D = true := by unfold lineWritable at hw; exact (Bool.and_eq_true _ _ ▸ hw).1
  obtain ⟨r, ds, rfl, hl⟩ := lineWritable_iff hw
  have h1 := docText_shows w hv hD (fun d hd => (writable_part hwr d hd).entries) fun d hd => (hl.parts d hd).fits.rows
  have hp : plainFile ((r :: ds).flatMap partLineRows) = true := plainFrom_parts hl.parts _ (writable_plain hwr)
  obtain ⟨s', ids, h3, h4, h5, h6, h7⟩ := plain_shown (env := env) hcl hp (noHeader_parts hl.parts) files fuel path
  rw [readAll_lines hl] at h4
  obtain ⟨h8, h9⟩ := readAll_written hwr
  refine ⟨s', h1, by rw [textRows_parts fun d hd => (hl.parts d hd).fits]; exact h3, ?_, h7⟩
  have hwn := writable_norm hwr
  refine holds_shows h4 h5 h6 ?_ ?_ h8 ?_
  · exact fun d hd => (writable_part hwn d hd).2
  · exact writable_nodup hwn
  · rw [h9, List.map_map]; rfl

/-- **C63**. A document with outline `D` is written as lines; reading the text in a new document succeeds and gives the same sections
with the same columns, terms, values and children. Only the order of the children of a term may change.

Missing for the full claim: outlines that are not `lineWritable` (see the witnesses below), and value names that a terminal child has. -/
theorem C63_roundtrip_partial {s : St} (h : Reach Op.noAddChild s) {D : List Part} (hD : Shows s D) (hw : lineWritable D = true) (hv : NamedValues s D)
    {env : Env} {classes : Dict Cls} (hcl : PlainClasses classes) (files : Files) (fuel : Nat) (path : Str) :
    ∃ text s' D', docText s = .ok text ∧ parseRows files (fuel + 1) path (textRows text) (newDoc env classes) = .ok () s' ∧ Shows s' D' ∧
      List.Forall₂ PartReordered D D' := by
  have hwr : writable D = true := by unfold lineWritable at hw; exact (Bool.and_eq_true _ _ ▸ hw).1
  obtain ⟨s', h1, h2, h3, -⟩ := lines_roundtrip (h.wf fun _ op ha => ha) hD hw hv hcl files fuel path (env := env)
  exact ⟨_, s', D.map Part.norm, h1, h2, h3, norm_reordered hwr⟩

/-- **C63** (stability). The document read from the lines writes the same lines again. -/
theorem C63_stable_partial {s : St} (h : Reach Op.noAddChild s) {D : List Part} (hD : Shows s D) (hw : lineWritable D = true) (hv : NamedValues s D)
    {env : Env} {classes : Dict Cls} (hcl : PlainClasses classes) (files : Files) (fuel : Nat) (path : Str) :
    ∃ text s', docText s = .ok text ∧ parseRows files (fuel + 1) path (textRows text) (newDoc env classes) = .ok () s' ∧ docText s' = .ok text := by
  have hwr : writable D = true := by unfold lineWritable at hw; exact (Bool.and_eq_true _ _ ▸ hw).1
  obtain ⟨s', h1, h2, h3, h4⟩ := lines_roundtrip (h.wf fun _ op ha => ha) hD hw hv hcl files fuel path (env := env)
  have w' : WF True s' := by
    have hr : Reach Op.noAddChild (after (parseRows files (fuel + 1) path (textRows (join (py!"\n") (D.flatMap partTexts)))) (newDoc env classes)) :=
      Reach.step (.parse files (fuel + 1) path _) (.new env _) trivial trivial
    unfold after at hr
    rw [h2] at hr
    exact hr.wf fun _ op ha => ha
  refine ⟨_, s', h1, h2, ?_⟩
  obtain ⟨r, ds, e, hl⟩ := lineWritable_iff hw
  rw [docText_shows w' (h4.named fun d hd => (writable_part (writable_norm hwr) d hd).2) h3 fun d hd => (writable_part (writable_norm hwr) d hd).entries, texts_norm hwr]
  intro d' hd'
  obtain ⟨d, hd, rfl⟩ := List.mem_map.1 hd'
  rw [itemRows_normD hwr d hd]
  rw [e] at hd
  exact (hl.parts d hd).fits.rows

/-- **C63** (both formats). The text in lines and the CSV text of a document are read as documents with the same outline. -/
theorem C63_csv_partial {s : St} (h : Reach Op.noAddChild s) {D : List Part} (hD : Shows s D) (hw : lineWritable D = true) (hv : NamedValues s D)
    {env : Env} {classes : Dict Cls} (hcl : PlainClasses classes) (files : Files) (fuel : Nat) (path : Str) :
    ∃ text csv s₁ s₂ D', docText s = .ok text ∧ docCsv s = .ok csv ∧
      parseRows files (fuel + 1) path (textRows text) (newDoc env classes) = .ok () s₁ ∧
      parseRows files (fuel + 1) path (readCsv csv) (newDoc env classes) = .ok () s₂ ∧ Shows s₁ D' ∧ Shows s₂ D' := by
  have hwr : writable D = true := by unfold lineWritable at hw; exact (Bool.and_eq_true _ _ ▸ hw).1
  have w : WF True s := h.wf fun _ op ha => ha
  obtain ⟨s₁, h1, h2, h3, -⟩ := lines_roundtrip w hD hw hv hcl files fuel path (env := env)
  obtain ⟨rows, s₂, g1, g2, g3, g4, -⟩ := roundtrip w hD hwr hv hcl files fuel path (env := env)
  refine ⟨_, asCsv (D.flatMap partRows), s₁, s₂, D.map Part.norm, h1, ?_, h2, by rw [C07_roundtrip]; exact g3, h3, g4⟩
  unfold docCsv
  rw [g1]
  show (cellRows rows >>= _) = _
  rw [g2]
  rfl

/-! ## A document meeting the hypotheses -/

theorem rt_lineWritable : lineWritable rtOutline = true := by decide +kernel

example : (∃ text s' D', docText (exParse rtRows) = .ok text ∧ parseRows noFiles 3 (py!"m.txt") (textRows text) (newDoc exEnv) = .ok () s' ∧
    Shows s' D' ∧ List.Forall₂ PartReordered rtOutline D') ∧
    docText (exParse rtRows) = .ok (py!"Title: A, \"title\"\n\nSection: Schema|DataType|Note\nTable: t\nTable.Extra: x\nTable.Column: c\n    .Datatype: int\n    .Note: first\nColumn.Width: 3\nTable.Column: d\n    .Note: last") :=
  ⟨C63_roundtrip_partial (exParse_reach rtRows trivial) rt_shows rt_lineWritable rt_named plainClasses_init noFiles 2 _, by decide +kernel⟩

/-! ## Documents that are not read back -/

/-- Write as lines and read again. -/
def relines (s : St) : St :=
  match docText s with
  | .ok text => exParse (textRows text)
  | .error _ => s

/-- A value with a pipe is cut: the writer does not escape it, and the rest becomes an argument. -/
theorem C63_pipe_witness : ∃ s : St, Reach Op.noAddChild s ∧ show_ s s.terms = [(py!"root.title", .str (py!"a|b"))] ∧
    docText s = .ok (py!"Title: a|b") ∧ show_ (relines s) (relines s).terms = [(py!"root.title", .str (py!"a"))] ∧
    show_ (relines s) ((relines s).heap 1).children = [(py!"title.0", .str (py!"b"))] :=
  ⟨exParse [[py!"Title", py!"a|b"]], exParse_reach _ trivial, by decide +kernel, by decide +kernel, by decide +kernel, by decide +kernel⟩

/-- The second line of a value becomes a term. -/
theorem C63_break_witness : ∃ s : St, Reach Op.noAddChild s ∧ show_ s s.terms = [(py!"root.title", .str (py!"a\nb"))] ∧
    show_ (relines s) (relines s).terms = [(py!"root.title", .str (py!"a")), (py!"root.b", .none)] :=
  ⟨exParse [[py!"Title", py!"a\nb"]], exParse_reach _ trivial, by decide +kernel, by decide +kernel⟩

/-- CSV keeps both values. -/
theorem C63_csv_keeps : show_ (reread (exParse [[py!"Title", py!"a|b"]])) (reread (exParse [[py!"Title", py!"a|b"]])).terms =
      [(py!"root.title", .str (py!"a|b"))] ∧
    show_ (reread (exParse [[py!"Title", py!"a\nb"]])) (reread (exParse [[py!"Title", py!"a\nb"]])).terms =
      [(py!"root.title", .str (py!"a\nb"))] := by
  constructor <;> decide +kernel

end Metatab
