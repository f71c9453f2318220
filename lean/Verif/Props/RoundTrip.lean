import Verif.Lemmas.Norm
import Verif.Lemmas.Shown
import Verif.Lemmas.Reach
import Verif.Lemmas.Examples
import Verif.Lemmas.ShowsCheck
import Verif.Props.Csv
/-! # C50: what a document writes is read as the same document -/
namespace Metatab
open Py _root_.Spec

/-- Writing and reading. `D` is the outline of the document: sections, columns, terms, values and children. -/
theorem roundtrip {s : St} (w : WF True s) {D : List Part} (hD : Shows s D) (hw : writable D = true) (hv : NamedValues s D) {env : Env}
    {classes : Dict Cls} (hcl : PlainClasses classes) (files : Files) (fuel : Nat) (path : Str) :
    ∃ rows s', docRows s = .ok rows ∧ cellRows rows = .ok (D.flatMap partRows) ∧
      parseRows files (fuel + 1) path (D.flatMap partRows) (newDoc env classes) = .ok () s' ∧ Shows s' (D.map Part.norm) ∧ PlainTvn s' := by
  obtain ⟨rows, h1, h2⟩ := docRows_shows w hv hD fun d hd => (writable_part hw d hd).entries
  obtain ⟨s', ids, h3, h4, h5, h6, h7⟩ := plain_shown (env := env) hcl (writable_plain hw) (writable_seg hw).noHeader files fuel path
  obtain ⟨h8, h9⟩ := readAll_written hw
  refine ⟨rows, s', h1, h2, h3, ?_, h7⟩
  have hwn := writable_norm hw
  refine holds_shows h4 h5 h6 ?_ ?_ h8 ?_
  · exact fun d hd => (writable_part hwn d hd).2
  · exact writable_nodup hwn
  · rw [h9, List.map_map]; rfl

/-- **C50** (CSV). A document with outline `D` is written as CSV text; reading the text in a new document succeeds and gives the same
sections with the same columns, terms, values and children. Only the order of the children of a term may change.

Missing for the full claim: outlines that are not `writable` (see the witnesses below), and value names that a terminal child has. Documents with `Declare` rows: `Props/RoundTripDecl`. -/
theorem C50_roundtrip_partial {s : St} (h : Reach Op.noAddChild s) {D : List Part} (hD : Shows s D) (hw : writable D = true) (hv : NamedValues s D)
    {env : Env} {classes : Dict Cls} (hcl : PlainClasses classes) (files : Files) (fuel : Nat) (path : Str) :
    ∃ text s' D', docCsv s = .ok text ∧ parseRows files (fuel + 1) path (readCsv text) (newDoc env classes) = .ok () s' ∧ Shows s' D' ∧
      List.Forall₂ PartReordered D D' := by
  have w : WF True s := h.wf fun _ op ha => ha
  obtain ⟨rows, s', h1, h2, h3, h4, -⟩ := roundtrip w hD hw hv hcl files fuel path (env := env)
  refine ⟨asCsv (D.flatMap partRows), s', D.map Part.norm, ?_, ?_, h4, norm_reordered hw⟩
  · unfold docCsv
    rw [h1]
    show (cellRows rows >>= _) = _
    rw [h2]
    rfl
  · rw [C07_roundtrip]
    exact h3

/-- **C50** (stability). The document read from the file writes the same file again. -/
theorem C50_stable_partial {s : St} (h : Reach Op.noAddChild s) {D : List Part} (hD : Shows s D) (hw : writable D = true) (hv : NamedValues s D)
    {env : Env} {classes : Dict Cls} (hcl : PlainClasses classes) (files : Files) (fuel : Nat) (path : Str) :
    ∃ text s', docCsv s = .ok text ∧ parseRows files (fuel + 1) path (readCsv text) (newDoc env classes) = .ok () s' ∧ docCsv s' = .ok text := by
  have w : WF True s := h.wf fun _ op ha => ha
  obtain ⟨rows, s', h1, h2, h3, h4, h5⟩ := roundtrip w hD hw hv hcl files fuel path (env := env)
  have w' : WF True s' := by
    have hr : Reach Op.noAddChild (after (parseRows files (fuel + 1) path (D.flatMap partRows)) (newDoc env classes)) :=
      Reach.step (.parse files (fuel + 1) path (D.flatMap partRows)) (.new env _) trivial trivial
    unfold after at hr
    rw [h3] at hr
    exact hr.wf fun _ op ha => ha
  have hwn := writable_norm hw
  obtain ⟨rows', s'', g1, g2, -⟩ := roundtrip w' h4 hwn (h5.named fun d hd => (writable_part hwn d hd).2) hcl files fuel path (env := env)
  have hcsv : ∀ {s : St} {rows : List (List Val)} {cells : List (List Str)}, docRows s = .ok rows → cellRows rows = .ok cells → docCsv s = .ok (asCsv cells) := by
    intro s rows cells e1 e2
    unfold docCsv
    rw [e1]
    show (cellRows rows >>= _) = _
    rw [e2]
    rfl
  refine ⟨asCsv (D.flatMap partRows), s', hcsv h1 h2, by rw [C07_roundtrip]; exact h3, ?_⟩
  rw [hcsv g1 g2, rows_norm hw]

/-- **C50** (order). When the children of each term are already in the order columns, other terminal children, children with
children, reading gives exactly the same outline. -/
theorem C50_exact_partial {s : St} (h : Reach Op.noAddChild s) {D : List Part} (hD : Shows s D) (hw : writable D = true) (hv : NamedValues s D)
    (hn : D.map Part.norm = D) {env : Env} {classes : Dict Cls} (hcl : PlainClasses classes) (files : Files) (fuel : Nat) (path : Str) :
    ∃ text s', docCsv s = .ok text ∧ parseRows files (fuel + 1) path (readCsv text) (newDoc env classes) = .ok () s' ∧ Shows s' D := by
  have w : WF True s := h.wf fun _ op ha => ha
  obtain ⟨rows, s', h1, h2, h3, h4, -⟩ := roundtrip w hD hw hv hcl files fuel path (env := env)
  rw [hn] at h4
  refine ⟨asCsv (D.flatMap partRows), s', ?_, by rw [C07_roundtrip]; exact h3, h4⟩
  unfold docCsv
  rw [h1]
  show (cellRows rows >>= _) = _
  rw [h2]
  rfl

/-! ## A document meeting the hypotheses -/

/-- Terms in two sections, one of them with columns and with children of children. -/
def rtRows : List (List Str) :=
  [[py!"Title", py!"A, \"title\""], [py!"Section", py!"Schema", py!"DataType", py!"Note"], [py!"Table", py!"t"],
   [py!"Table.Column", py!"c", py!"int", py!"first"], [py!"Column.Width", py!"3"], [py!"Table.Column", py!"d", [], py!"last"],
   [py!"Table.Extra", py!"x"]]

def rtOutline : List Part :=
  [⟨py!"Root", [], [.mk (py!"title") (some (py!"A, \"title\"")) []]⟩,
   ⟨py!"Schema", [py!"DataType", py!"Note"], [.mk (py!"table") (some (py!"t"))
     [.mk (py!"column") (some (py!"c")) [.mk (py!"datatype") (some (py!"int")) [], .mk (py!"note") (some (py!"first")) [],
        .mk (py!"width") (some (py!"3")) []],
      .mk (py!"column") (some (py!"d")) [.mk (py!"note") (some (py!"last")) []], .mk (py!"extra") (some (py!"x")) []]]⟩]

theorem rt_shows : Shows (exParse rtRows) rtOutline := showsB_sound (by decide +kernel)
theorem rt_writable : writable rtOutline = true := by decide +kernel
theorem rt_tvn : PlainTvn (exParse rtRows) := plainTvn_of (.inr (by decide +kernel))
theorem rt_named : NamedValues (exParse rtRows) rtOutline := rt_tvn.named fun d hd => (writable_part rt_writable d hd).2

/-- The theorem applies; `Extra` moves before the columns. -/
example : (∃ text s' D', docCsv (exParse rtRows) = .ok text ∧ parseRows noFiles 3 (py!"m.csv") (readCsv text) (newDoc exEnv) = .ok () s' ∧
    Shows s' D' ∧ List.Forall₂ PartReordered rtOutline D') ∧
    docCsv (exParse rtRows) = .ok (py!"Title,\"A, \"\"title\"\"\"\r\n\"\"\r\nSection,Schema,DataType,Note\r\nTable,t,,\r\nTable.Extra,x\r\nTable.Column,c,int,first\r\nColumn.Width,3\r\nTable.Column,d,,last\r\n") :=
  ⟨C50_roundtrip_partial (exParse_reach rtRows trivial) rt_shows rt_writable rt_named plainClasses_init noFiles 2 _, by decide +kernel⟩

/-! ## Documents that are not read back -/

/-- Write as CSV and read again. -/
def reread (s : St) : St :=
  match docCsv s with
  | .ok text => exParse (readCsv text)
  | .error _ => s

/-- Of terminal children with the same name only the last survives. -/
theorem C50_duplicate_witness : ∃ s : St, Reach Op.noAddChild s ∧
    show_ s (s.heap 1).children = [(py!"a.b", .str (py!"x")), (py!"a.b", .str (py!"y"))] ∧
    show_ (reread s) ((reread s).heap 1).children = [(py!"a.b", .str (py!"y"))] :=
  ⟨exParse [[py!"A"], [py!"A.B", py!"x"], [py!"A.B", py!"y"]], exParse_reach _ trivial, by decide +kernel, by decide +kernel⟩

/-- The children of a term whose name ends in `root` become terms of the document. -/
theorem C50_root_suffix_witness : ∃ s : St, Reach Op.noAddChild s ∧
    show_ s s.terms = [(py!"root.taproot", .str (py!"x"))] ∧ show_ s (s.heap 1).children = [(py!"taproot.b", .str (py!"y"))] ∧
    show_ (reread s) (reread s).terms = [(py!"root.taproot", .str (py!"x")), (py!"root.tapb", .str (py!"y"))] :=
  ⟨exParse [[py!"Taproot", py!"x"], [py!"Taproot.B", py!"y"]], exParse_reach _ trivial, by decide +kernel, by decide +kernel, by decide +kernel⟩

/-- A term below a term of the same name takes over the later children. -/
theorem C50_same_name_witness : ∃ s : St, Reach Op.noAddChild s ∧
    show_ s (s.heap 1).children = [(py!"a.b", .none), (py!"a.c", .none)] ∧
    show_ (reread s) ((reread s).heap 1).children = [(py!"a.b", .none)] :=
  ⟨exParse [[py!"A"], [py!"A.B"], [py!"A.C"], [py!"C.X", py!"2"], [py!"B.A"], [py!"A.Y", py!"1"]], exParse_reach _ trivial, by decide +kernel, by decide +kernel⟩

end Metatab
