import Verif.Lemmas.OutlineDict
import Verif.Lemmas.Tidy
import Verif.Props.LineFile
import Verif.Props.Build
/-! # C96: writing a document and reading it again does not change its dict -/
namespace Metatab
open Py _root_.Spec

mutual
theorem flatI_value {sec p : Str} {pi : Option Nat} : ∀ (i : Item) {b : Nat}, ∀ n ∈ flatI sec p pi b i, n.valueName = py!"@value"
  | .mk n v ks, b => by
    intro x hx
    rw [flatI] at hx
    rcases List.mem_cons.1 hx with rfl | hx
    · rfl
    · exact flatL_value ks x hx
theorem flatL_value {sec p : Str} {pi : Option Nat} : ∀ (ks : List Item) {b : Nat}, ∀ n ∈ flatL sec p pi b ks, n.valueName = py!"@value"
  | [], b => by
    intro x hx
    rw [flatL] at hx
    cases hx
  | k :: ks, b => by
    intro x hx
    rw [flatL] at hx
    rcases List.mem_append.1 hx with hx | hx
    · exact flatI_value k x hx
    · exact flatL_value ks x hx
end

theorem flatD_value : ∀ (D : List Part) {b : Nat}, ∀ n ∈ flatD b D, n.valueName = py!"@value"
  | [], b => by intro x hx; rw [flatD] at hx; cases hx
  | d :: D, b => by
    intro x hx
    rw [flatD] at hx
    rcases List.mem_append.1 hx with hx | hx
    · exact flatL_value d.items x hx
    · exact flatD_value D x hx

/-- Every term of a document read from rows without declarations and headers is plain. -/
theorem plainTerms_holds {s : St} {a : Reader} {ids : List Nat} (h : _root_.Spec.Holds s a ids) (hv : ∀ n ∈ a.nodes, n.valueName = py!"@value") : PlainTerms s := by
  intro t ht
  obtain ⟨i, hi, rfl⟩ := List.getElem_of_mem (inDoc_mem h ht)
  have hin : i < a.nodes.length := by rw [← h.count]; exact hi
  obtain ⟨-, -, -, a4, a5, -⟩ := h.term a.nodes[i] ids[i] (by
    rw [List.mem_iff_getElem]; exact ⟨i, by rw [List.length_zip]; omega, by simp⟩)
  exact ⟨a4.trans (hv _ (List.getElem_mem _)), by rw [a5]; decide⟩

theorem reach_read {env : Env} {classes : Dict Cls} {files : Files} {fuel : Nat} {path : Str} {rows : List (List Str)} {s' : St}
    (h : parseRows files fuel path rows (newDoc env classes) = .ok () s') : Reach Op.noAddChild s' := by
  have hr : Reach Op.noAddChild (after (parseRows files fuel path rows) (newDoc env classes)) :=
    Reach.step (.parse files fuel path rows) (.new env _) trivial trivial
  unfold after at hr
  rw [h] at hr
  exact hr

/-- **C96** (the dict is that of the outline). `doc.as_dict` of a document whose terms have no declared value names and types depends
only on the names, values and children of the terms: it is the dict `outlineDict` of the outline, which is written down without objects
and without the loop over the children. -/
theorem C96_outline {s : St} (h : Reach Op.noAddChild s) {D : List Part} (hD : Shows s D) (hp : PlainTerms s) (rvn : Bool) :
    (docAsDict rvn s).val = .ok (outlineDict rvn D) := docAsDict_shows (h.wf fun _ op ha => ha) hD hp rvn

/-- **C96** (rows). Rows that are read as the outline `D` give the dict of `D`. -/
theorem read_dict {D : List Part} (hw : writable D = true) {env : Env} {classes : Dict Cls} {files : Files} {fuel : Nat} {path : Str}
    {rows : List (List Str)} {s' : St} {ids : List Nat} (h3 : parseRows files (fuel + 1) path rows (newDoc env classes) = .ok () s')
    (hs : Shows s' (D.map Part.norm)) (hh : _root_.Spec.Holds s' (readAll (D.flatMap partRows)) ids) (rvn : Bool) :
    (docAsDict rvn s').val = .ok (outlineDict rvn (D.map Part.norm)) := by
  refine C96_outline (reach_read h3) hs (plainTerms_holds hh ?_) rvn
  rw [(readAll_written hw).1]
  exact flatD_value _

/-- **C96** (CSV). The document read from the CSV text of a document gives the same dict, up to the order of entries.

Missing for the full claim: documents that are not read back as they are (see the witnesses of C50 and below), and declared value names
and types. -/
theorem C96_csv_partial {s : St} (h : Reach Op.noAddChild s) {D : List Part} (hD : Shows s D) (hw : writable D = true) (hv : NamedValues s D)
    (hp : PlainTerms s) {env : Env} {classes : Dict Cls} (hcl : PlainClasses classes) (files : Files) (fuel : Nat) (path : Str) :
    ∃ text s', docCsv s = .ok text ∧ parseRows files (fuel + 1) path (readCsv text) (newDoc env classes) = .ok () s' ∧
      ∀ rvn, ∃ v v', (docAsDict rvn s).val = .ok v ∧ (docAsDict rvn s').val = .ok v' ∧ DictAlike v v' := by
  have w : WF True s := h.wf fun _ op ha => ha
  obtain ⟨rows, h1, h2⟩ := docRows_shows w hv hD fun d hd => (writable_part hw d hd).entries
  obtain ⟨s', ids, h3, h4, h5, h6, h7⟩ := plain_shown (env := env) hcl (writable_plain hw) (writable_seg hw).noHeader files fuel path
  obtain ⟨h8, h9⟩ := readAll_written hw
  have hwn := writable_norm hw
  have hs : Shows s' (D.map Part.norm) := holds_shows h4 h5 h6 (fun d hd => (writable_part hwn d hd).2) (writable_nodup hwn) h8
    (by rw [h9, List.map_map]; rfl)
  refine ⟨asCsv (D.flatMap partRows), s', ?_, by rw [C07_roundtrip]; exact h3, fun rvn =>
    ⟨_, _, C96_outline h hD hp rvn, read_dict hw h3 hs h4 rvn, outline_alike (norm_reordered hw) rvn⟩⟩
  unfold docCsv
  rw [h1]
  show (cellRows rows >>= _) = _
  rw [h2]
  rfl

/-- **C96** (Lines). The same for the text in lines. -/
theorem C96_lines_partial {s : St} (h : Reach Op.noAddChild s) {D : List Part} (hD : Shows s D) (hw : lineWritable D = true) (hv : NamedValues s D)
    (hp : PlainTerms s) {env : Env} {classes : Dict Cls} (hcl : PlainClasses classes) (files : Files) (fuel : Nat) (path : Str) :
    ∃ text s', docText s = .ok text ∧ parseRows files (fuel + 1) path (textRows text) (newDoc env classes) = .ok () s' ∧
      ∀ rvn, ∃ v v', (docAsDict rvn s).val = .ok v ∧ (docAsDict rvn s').val = .ok v' ∧ DictAlike v v' := by
  have w : WF True s := h.wf fun _ op ha => ha
  have hwr : writable D = true := by unfold lineWritable at hw; exact (Bool.and_eq_true _ _ ▸ hw).1
  obtain ⟨r, ds, rfl, hl⟩ := lineWritable_iff hw
  have h1 := docText_shows w hv hD (fun d hd => (writable_part hwr d hd).entries) fun d hd => (hl.parts d hd).fits.rows
  have hpf : plainFile ((r :: ds).flatMap partLineRows) = true := plainFrom_parts hl.parts _ (writable_plain hwr)
  obtain ⟨s', ids, h3, h4, h5, h6, h7⟩ := plain_shown (env := env) hcl hpf (noHeader_parts hl.parts) files fuel path
  rw [readAll_lines hl] at h4
  obtain ⟨h8, h9⟩ := readAll_written hwr
  have hwn := writable_norm hwr
  have hs : Shows s' ((r :: ds).map Part.norm) := holds_shows h4 h5 h6 (fun d hd => (writable_part hwn d hd).2) (writable_nodup hwn) h8
    (by rw [h9, List.map_map]; rfl)
  exact ⟨_, s', h1, by rw [textRows_parts fun d hd => (hl.parts d hd).fits]; exact h3, fun rvn =>
    ⟨_, _, C96_outline h hD hp rvn, read_dict hwr h3 hs h4 rvn, outline_alike (norm_reordered hwr) rvn⟩⟩

/-- **C96** (nothing moves). When the children of every term come in the order in which they are written, the dict is the same, also in
the order of its entries. -/
theorem C96_exact_partial {s : St} (h : Reach Op.noAddChild s) {D : List Part} (hD : Shows s D) (hw : writable D = true) (hv : NamedValues s D)
    (hp : PlainTerms s) (hn : D.map Part.norm = D) {env : Env} {classes : Dict Cls} (hcl : PlainClasses classes) (files : Files) (fuel : Nat)
    (path : Str) :
    ∃ text s', docCsv s = .ok text ∧ parseRows files (fuel + 1) path (readCsv text) (newDoc env classes) = .ok () s' ∧
      ∀ rvn, ∃ v, (docAsDict rvn s).val = .ok v ∧ (docAsDict rvn s').val = .ok v := by
  have w : WF True s := h.wf fun _ op ha => ha
  obtain ⟨rows, h1, h2⟩ := docRows_shows w hv hD fun d hd => (writable_part hw d hd).entries
  obtain ⟨s', ids, h3, h4, h5, h6, h7⟩ := plain_shown (env := env) hcl (writable_plain hw) (writable_seg hw).noHeader files fuel path
  obtain ⟨h8, h9⟩ := readAll_written hw
  have hwn := writable_norm hw
  have hs : Shows s' (D.map Part.norm) := holds_shows h4 h5 h6 (fun d hd => (writable_part hwn d hd).2) (writable_nodup hwn) h8
    (by rw [h9, List.map_map]; rfl)
  refine ⟨asCsv (D.flatMap partRows), s', ?_, by rw [C07_roundtrip]; exact h3, fun rvn =>
    ⟨_, C96_outline h hD hp rvn, (read_dict hw h3 hs h4 rvn).trans (by rw [hn])⟩⟩
  unfold docCsv
  rw [h1]
  show (cellRows rows >>= _) = _
  rw [h2]
  rfl

/-! ## A document meeting the hypotheses -/

/-- Rows without declarations and headers, read by the model, give plain terms. -/
theorem exParse_plain {rows : List (List Str)} (h : plainFile rows = true) (hv : ∀ n ∈ (readAll rows).nodes, n.valueName = py!"@value") :
    PlainTerms (exParse rows) := by
  obtain ⟨s, ids, h1, h2⟩ := C59_reads (env := exEnv) plainClasses_init h noFiles 2 (py!"doc.csv")
  have : exParse rows = s := by
    unfold exParse after exDoc
    rw [h1]
  rw [this]
  exact plainTerms_holds h2 hv

theorem returns_val {m : M DVal} {s : St} {v : DVal} (h : ∃ s', m s = .ok v s') : (m s).val = .ok v := by
  obtain ⟨s', h⟩ := h
  rw [h]
  rfl

theorem rt_plain : PlainTerms (exParse rtRows) := exParse_plain (by decide +kernel) (by decide +kernel)

/-- The dict before and after writing: the entry `extra` moves before `column`. -/
example : (∃ text s', docCsv (exParse rtRows) = .ok text ∧ parseRows noFiles 3 (py!"m.csv") (readCsv text) (newDoc exEnv) = .ok () s' ∧
      ∀ rvn, ∃ v v', (docAsDict rvn (exParse rtRows)).val = .ok v ∧ (docAsDict rvn s').val = .ok v' ∧ DictAlike v v') ∧
    (docAsDict true (exParse rtRows)).val = .ok (.dict [(py!"title", .ofStr (py!"A, \"title\"")), (py!"table", .dict [
      (py!"column", .list [.dict [(py!"datatype", .ofStr (py!"int")), (py!"note", .ofStr (py!"first")), (py!"width", .ofStr (py!"3")), (py!"@value", .ofStr (py!"c"))],
        .dict [(py!"note", .ofStr (py!"last")), (py!"@value", .ofStr (py!"d"))]]), (py!"extra", .ofStr (py!"x")), (py!"@value", .ofStr (py!"t"))])]) ∧
    (docAsDict true (reread (exParse rtRows))).val = .ok (.dict [(py!"title", .ofStr (py!"A, \"title\"")), (py!"table", .dict [
      (py!"extra", .ofStr (py!"x")),
      (py!"column", .list [.dict [(py!"datatype", .ofStr (py!"int")), (py!"note", .ofStr (py!"first")), (py!"width", .ofStr (py!"3")), (py!"@value", .ofStr (py!"c"))],
        .dict [(py!"note", .ofStr (py!"last")), (py!"@value", .ofStr (py!"d"))]]), (py!"@value", .ofStr (py!"t"))])]) :=
  ⟨C96_csv_partial (exParse_reach rtRows trivial) rt_shows rt_writable rt_named rt_plain plainClasses_init noFiles 2 _,
    returns_val (returns_eq (by decide +kernel)), returns_val (returns_eq (by decide +kernel))⟩

/-- Rows whose children already come in the order of writing. -/
def inOrderRows : List (List Str) := [[py!"A", py!"1"], [py!"A.B", py!"2"], [py!"A.C", py!"3"], [py!"C.D", py!"4"], [py!"Section", py!"S", py!"Note"], [py!"T", py!"5", py!"n"]]
def inOrder : List Part :=
  [⟨py!"Root", [], [.mk (py!"a") (some (py!"1")) [.mk (py!"b") (some (py!"2")) [], .mk (py!"c") (some (py!"3")) [.mk (py!"d") (some (py!"4")) []]]]⟩,
   ⟨py!"S", [py!"Note"], [.mk (py!"t") (some (py!"5")) [.mk (py!"note") (some (py!"n")) []]]⟩]
theorem inOrder_writable : writable inOrder = true := by decide +kernel
theorem inOrder_named : NamedValues (exParse inOrderRows) inOrder :=
  (plainTvn_of (.inr (by decide +kernel))).named fun d hd => (writable_part inOrder_writable d hd).2

example : ∃ text s', docCsv (exParse inOrderRows) = .ok text ∧ parseRows noFiles 3 (py!"m.csv") (readCsv text) (newDoc exEnv) = .ok () s' ∧
    ∀ rvn, ∃ v, (docAsDict rvn (exParse inOrderRows)).val = .ok v ∧ (docAsDict rvn s').val = .ok v :=
  C96_exact_partial (exParse_reach inOrderRows trivial) (showsB_sound (by decide +kernel)) inOrder_writable inOrder_named
    (exParse_plain (by decide +kernel) (by decide +kernel)) rfl plainClasses_init noFiles 2 _

/-- The text in lines. -/
example : ∃ text s', docText (exParse inOrderRows) = .ok text ∧ parseRows noFiles 3 (py!"m.txt") (textRows text) (newDoc exEnv) = .ok () s' ∧
    ∀ rvn, ∃ v v', (docAsDict rvn (exParse inOrderRows)).val = .ok v ∧ (docAsDict rvn s').val = .ok v' ∧ DictAlike v v' :=
  C96_lines_partial (exParse_reach inOrderRows trivial) (showsB_sound (by decide +kernel)) (by decide +kernel) inOrder_named
    (exParse_plain (by decide +kernel) (by decide +kernel)) plainClasses_init noFiles 2 _

/-! ## Documents made by calls -/

theorem Tidy.plain {s : St} (h : Tidy s) : PlainTerms s := fun t _ => ⟨(h.objs t).tvn, by rw [(h.objs t).cpt]; decide⟩
theorem Tidy.plainTvn {s : St} (h : Tidy s) : PlainTvn s := fun p n hp hn => h.tvn _ _

theorem td_addKids (t : Nat) (ks : List Item) : Tidies (addKids t ks) := by
  refine addKids.induct (fun t k => Tidies (addKid t k)) (fun t ks => Tidies (addKids t ks)) ?_ ?_ ?_ t ks
  · intro t n v ks ih
    rw [addKid]
    exact .bind (td_newChild _ _ _ _) ih
  · intro t
    rw [addKids]
    exact .pure _
  · intro t k ks h1 h2
    rw [addKids]
    exact .bind h1 fun _ => h2
theorem td_addItem (x : Nat) (i : Item) : Tidies (addItem x i) := by
  cases i
  unfold addItem
  exact .bind (td_newTerm _ _ _ _) fun _ => td_addKids _ _
theorem td_addItems (x : Nat) (is : List Item) : Tidies (addItems x is) := by
  induction is with
  | nil => exact .pure _
  | cons i is ih => exact .bind (td_addItem x i) fun _ => ih
theorem td_addParts (ds : List Part) : Tidies (addParts ds) := by
  induction ds with
  | nil => exact .pure _
  | cons d ds ih => exact .bind (td_newSection _ _) fun _ => .bind (td_addItems _ _) fun _ => ih
theorem td_buildDoc (ds : List Part) : Tidies (buildDoc ds) := by
  cases ds with
  | nil => exact .pure _
  | cons r ds => exact .getBind fun _ _ => .bind (td_addItems _ _) fun _ => td_addParts ds

/-- **C96** (documents made by calls). Whatever calls made the document, as long as none of them reads rows or declarations, `as_dict` is
the dict of the outline. -/
theorem C96_calls {s : St} (h : Reach (fun op => op.noAddChild ∧ op.byHand) s) {D : List Part} (hD : Shows s D) (rvn : Bool) :
    (docAsDict rvn s).val = .ok (outlineDict rvn D) :=
  docAsDict_shows (h.wf fun _ op ha => ha.1) hD (reach_tidy (fun _ ha => ha.2) h).plain rvn

/-- **C96** (built documents). The document built by `new_section`, `new_term` and `new_child` from an outline has the dict of the outline,
with the names in lower case; so has, up to the order of entries, the document read from its CSV text. -/
theorem C96_built {env env' : Env} {classes classes' : Dict Cls} (hcl : PlainClasses classes) (hcl' : PlainClasses classes') {r : Part} {ds : List Part}
    (hi : givenL r.items) (hg : ∀ d ∈ ds, d.given) (hw : writable ((r :: ds).map Part.low) = true) (files : Files) (fuel : Nat) (path : Str) :
    ∃ s text s', buildDoc (r :: ds) (newDoc env classes) = .ok () s ∧ docCsv s = .ok text ∧
      parseRows files (fuel + 1) path (readCsv text) (newDoc env' classes') = .ok () s' ∧
      ∀ rvn, (docAsDict rvn s).val = .ok (outlineDict rvn ((r :: ds).map Part.low)) ∧
        ∃ v', (docAsDict rvn s').val = .ok v' ∧ DictAlike (outlineDict rvn ((r :: ds).map Part.low)) v' := by
  obtain ⟨s, e1, h1, h2, hpt⟩ := build_writable (env := env) hcl hi hg hw
  have ht : Tidy s := by
    have := td_buildDoc (r :: ds) (newDoc env classes) (tidy_new _ _)
    rw [e1] at this
    exact this
  obtain ⟨text, s', h3, h4, h5⟩ := C96_csv_partial h2 h1 hw (hpt.named fun d hd => (writable_part hw d hd).2) ht.plain (env := env') hcl' files fuel path
  refine ⟨s, text, s', e1, h3, h4, fun rvn => ⟨C96_outline h2 h1 ht.plain rvn, ?_⟩⟩
  obtain ⟨v, v', a, b, c⟩ := h5 rvn
  rw [C96_outline h2 h1 ht.plain rvn] at a
  injection a with a
  exact ⟨v', b, a ▸ c⟩

/-- A term with a child that is made and then gets another value. -/
example : let s := after (Op.setItem 1 (py!"Lang") (.str (py!"de"))).run (after (Op.newTerm 0 (py!"Title") (.str (py!"T")) [(py!"Lang", .str (py!"en"))]).run (newDoc exEnv))
    (docAsDict true s).val = .ok (outlineDict true [⟨py!"Root", [], [.mk (py!"title") (some (py!"T")) [.mk (py!"lang") (some (py!"de")) []]]⟩]) := by
  intro s
  have h1 : Reach (fun op => op.noAddChild ∧ op.byHand) s :=
    .step _ (.step _ (.new exEnv initClasses) ⟨trivial, trivial⟩ ⟨by decide, rfl⟩) ⟨trivial, trivial⟩ (by show (1 : Nat) < _; decide +kernel)
  exact C96_calls h1 (showsB_sound (by decide +kernel)) true

/-- The dict of the outline of C94. -/
example : (∃ s text s', buildDoc bldParts (newDoc exEnv initClasses) = .ok () s ∧ docCsv s = .ok text ∧
      parseRows noFiles 1 [] (readCsv text) (newDoc exEnv initClasses) = .ok () s' ∧
      ∀ rvn, (docAsDict rvn s).val = .ok (outlineDict rvn (bldParts.map Part.low)) ∧
        ∃ v', (docAsDict rvn s').val = .ok v' ∧ DictAlike (outlineDict rvn (bldParts.map Part.low)) v') ∧
    outlineDict true (bldParts.map Part.low) = .dict [(py!"title", .ofStr (py!"T 1")),
      (py!"author", .dict [(py!"email", .ofStr (py!"a@b")), (py!"org", .dict [(py!"city", .ofStr (py!"X, Y")), (py!"@value", .ofStr (py!"Acme"))]),
        (py!"@value", .ofStr (py!"Ann"))]), (py!"note", .val .none),
      (py!"datafile", .dict [(py!"title", .ofStr (py!"F")), (py!"rows", .ofStr (py!"3")), (py!"@value", .ofStr (py!"f.csv"))])] :=
  ⟨C96_built plainClasses_init plainClasses_init bld_given.1 bld_given.2 (by decide +kernel) noFiles 0 [], by rfl⟩

/-! ## Documents whose dict changes -/

/-- Of terminal children with the same name only the last survives: the list becomes a string. -/
theorem C96_duplicate_witness : ∃ s : St, Reach Op.noAddChild s ∧ PlainTerms s ∧
    (docAsDict true s).val = .ok (.dict [(py!"a", .dict [(py!"b", .list [.ofStr (py!"x"), .ofStr (py!"y")])])]) ∧
    (docAsDict true (reread s)).val = .ok (.dict [(py!"a", .dict [(py!"b", .ofStr (py!"y"))])]) :=
  ⟨exParse [[py!"A"], [py!"A.B", py!"x"], [py!"A.B", py!"y"]], exParse_reach _ trivial, exParse_plain (by decide +kernel) (by decide +kernel),
    returns_val (returns_eq (by decide +kernel)), returns_val (returns_eq (by decide +kernel))⟩

/-- The order within a list can change: of children with the same name the one without children comes first. -/
theorem C96_order_witness : ∃ s : St, Reach Op.noAddChild s ∧ PlainTerms s ∧
    (docAsDict true s).val = .ok (.dict [(py!"a", .dict [(py!"b", .list [.dict [(py!"c", .ofStr (py!"x"))], .ofStr (py!"y")])])]) ∧
    (docAsDict true (reread s)).val = .ok (.dict [(py!"a", .dict [(py!"b", .list [.ofStr (py!"y"), .dict [(py!"c", .ofStr (py!"x"))]])])]) :=
  ⟨exParse [[py!"A"], [py!"A.B"], [py!"B.C", py!"x"], [py!"A.B", py!"y"]], exParse_reach _ trivial, exParse_plain (by decide +kernel) (by decide +kernel),
    returns_val (returns_eq (by decide +kernel)), returns_val (returns_eq (by decide +kernel))⟩

end Metatab
