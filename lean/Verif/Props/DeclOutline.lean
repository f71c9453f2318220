import Verif.Lemmas.TreeDecl
import Verif.Props.FileOutline
import Verif.Props.RoundTripDecl
/-! # C101: files with `Declare` rows -/
namespace Metatab
open Py _root_.Spec

/-- **C101** (`Declare` rows). A file begins with `Declare` rows for files that, read on their own, are quiet, and goes on with ordinary rows
whose sections are trees of their own. It is read as the outline of these rows, with the `Declare` terms in front of the terms of the root
section, and it leaves the declarations of the files as they are. -/
theorem C101_declared {env : Env} {files : Files} {fuel : Nat} {path : Str} {decls : List Str} {s1 : St}
    (h1 : parseRows files (fuel + 1) path (declRows decls) (newDoc env) = .ok () s1) (hq : _root_.Spec.Quiet s1 decls) {rows : List (List Str)}
    (h : plainFile rows = true) (ht : treeFile rows = true) (hs : shortHead rows = true) :
    ∃ s, parseRows files (fuel + 1) path (declRows decls ++ rows) (newDoc env) = .ok () s ∧
      Shows s (inFront (declItems decls) (fileOutline rows)) ∧ s.declTerms = s1.declTerms ∧ Reach Op.noAddChild s := by
  obtain ⟨s, ids, e1, e2, e3, e4, e5, -, -, -, -, e6, -⟩ := declared_tracks h1 hq h (tree_kinds ht) (by rw [← shortHead_head]; exact hs)
  refine ⟨s, e1, ?_, e5, e6⟩
  rw [← declared_outline ht]
  exact outline_shown e2 (declared_nodes ht) e3 (e6.wf (F := True) fun _ _ ha => ha).secsNodup e4

/-- **C101** (`Declare` rows, searches). A search for `A.B` below the root level finds exactly the items of this outline that are asked for,
unless the declare files derive other terms from `A.B`. -/
theorem C101_declared_search {env : Env} {files : Files} {fuel : Nat} {path : Str} {decls : List Str} {s1 : St}
    (h1 : parseRows files (fuel + 1) path (declRows decls) (newDoc env) = .ok () s1) (hq : _root_.Spec.Quiet s1 decls)
    (hr : (s1.heap s1.root).pt = py!"root") {rows : List (List Str)} (h : plainFile rows = true) (ht : treeFile rows = true)
    (hs : shortHead rows = true) :
    ∃ s, parseRows files (fuel + 1) path (declRows decls ++ rows) (newDoc env) = .ok () s ∧
      ∀ A B, PlainPart A → PlainPart B → lower A ≠ py!"root" → A ≠ py!"*" → s1.derived.get? (lower (dotJoin A B)) = none → ∀ value secs,
        ∃ l, find s (dotJoin A B) value secs = .ok l ∧
          List.Forall₂ (FoundAs s) (outlineFind (inFront (declItems decls) (fileOutline rows)) (A, B) value secs) l := by
  obtain ⟨s, e1, e2, -⟩ := C101_declared h1 hq h ht hs
  obtain ⟨s', ids, f1, f2, f3, f4, -, f5, -, -, f6, f7, f8⟩ := declared_tracks h1 hq h (tree_kinds ht) (by rw [← shortHead_head]; exact hs)
  rw [e1] at f1
  cases f1
  have w1 : WF True s1 := by
    have hr : Reach Op.noAddChild (after (parseRows files (fuel + 1) path (declRows decls)) (newDoc env)) :=
      Reach.step (.parse files (fuel + 1) path (declRows decls)) (.new env _) trivial trivial
    unfold after at hr
    rw [h1] at hr
    exact hr.wf fun _ op ha => ha
  have w : WF True s := f7.wf fun _ _ ha => ha
  refine ⟨s, e1, fun A B hA hB hra hst hd value secs => ?_⟩
  refine find_nested w e2 (fun kv hkv => ?_) (q := (A, B)) hA hB hra hst (by rw [f5]; exact hd) value secs
  have hk := Dict.get?_of_mem w.secsNodup hkv
  by_cases hkr : kv.1 = ROOT
  · have hroot : kv.2 = s.root := by
      have := f8.kept (py!"root") s1.root (by rw [hq.only]; rfl)
      rw [hkr] at hk
      rw [f8.root]
      exact Option.some.inj (hk.symm.trans this)
    rw [hroot]
    exact ⟨by rw [f8.root, (f6 _ w1.rootLt).pt]; exact hr, .inl f3⟩
  · have o := f8.okSecs _ _ hk hkr
    exact ⟨o.pt, .inr o.rt⟩

/-- If the document with the `Declare` rows alone can be edited and no value name is `section`, the whole document can be edited. -/
theorem declared_editable {env : Env} {files : Files} {fuel : Nat} {path : Str} {decls : List Str} {s1 : St}
    (h1 : parseRows files (fuel + 1) path (declRows decls) (newDoc env) = .ok () s1) (hq : _root_.Spec.Quiet s1 decls) (he : Editable s1)
    (hn : NoSecTvn s1) {rows : List (List Str)} (h : plainFile rows = true) (ht : treeFile rows = true) (hs : shortHead rows = true) {s : St}
    (e1 : parseRows files (fuel + 1) path (declRows decls ++ rows) (newDoc env) = .ok () s) : Editable s := by
  obtain ⟨s', ids, f1, f2, f3, f4, f5, -, -, f9, f6, f7, f8⟩ := declared_tracks h1 hq h (tree_kinds ht) (by rw [← shortHead_head]; exact hs)
  rw [e1] at f1
  cases f1
  have w : WF True s := f7.wf fun _ _ ha => ha
  have mem : ∀ kv ∈ s.sections, ∀ t ∈ (s.heap kv.2).terms, t ∈ ids := by
    intro kv hkv t hm
    rw [f2.sectionTerms kv.1 kv.2 (Dict.get?_of_mem w.secsNodup hkv)] at hm
    unfold pick at hm
    obtain ⟨nt, h5, rfl⟩ := List.mem_map.1 hm
    exact (List.of_mem_zip (show (nt.1, nt.2) ∈ _ from (List.mem_filter.1 h5).1)).2
  refine ⟨f7, he.usable.congr f8.classes f8.sup f5, fun kv hkv t hm => (f2.exist t (mem kv hkv t hm)).2,
    ⟨by rw [f5]; exact he.names.decl, fun kv hkv t hm hr => f8.tvn hn t (f2.exist t (mem kv hkv t hm)).1 hr⟩, by rw [f8.secs]; exact he.secs, ?_,
    he.classes.congr f8.classes f8.sup⟩
  intro kv hkv t hm
  have hl : Listed (s1.terms.filter fun t => decide (t ∉ (s1.heap s1.root).terms)) s1 := by
    intro u
    rw [hq.only, List.mem_filter, decide_eq_true_iff]
    constructor
    · intro hu
      by_cases hm : u ∈ (s1.heap s1.root).terms
      · exact .inr ⟨_, List.mem_cons_self, hm⟩
      · exact .inl ⟨hu, hm⟩
    · rintro (hu | ⟨kv, hkv, hm⟩)
      · exact hu.1
      · obtain rfl := List.mem_singleton.1 hkv
        exact he.listed _ (by rw [hq.only]; exact List.mem_cons_self) u hm
  exact (f9 _ hl t).2 (.inr ⟨kv, hkv, hm⟩)

/-- **C101** (`Declare` rows, edits). Edits of such a document do on its outline what they say. -/
theorem C101_declared_edits {env : Env} {files : Files} {fuel : Nat} {path : Str} {decls : List Str} {s1 : St}
    (h1 : parseRows files (fuel + 1) path (declRows decls) (newDoc env) = .ok () s1) (hq : _root_.Spec.Quiet s1 decls) (he : Editable s1)
    (hn : NoSecTvn s1) {rows : List (List Str)} (h : plainFile rows = true) (ht : treeFile rows = true) (hs : shortHead rows = true)
    {es : List Edit} (hok : okEdits (inFront (declItems decls) (fileOutline rows)) es) :
    ∃ s s', parseRows files (fuel + 1) path (declRows decls ++ rows) (newDoc env) = .ok () s ∧ runEdits es s = .ok () s' ∧
      Shows s' (applyEdits (inFront (declItems decls) (fileOutline rows)) es) ∧ Editable s' ∧ s'.declTerms = s1.declTerms := by
  obtain ⟨s, e1, e2, e3, -⟩ := C101_declared h1 hq h ht hs
  obtain ⟨s', g1, g2, g3, g4⟩ := C97_edits es (declared_editable h1 hq he hn h ht hs e1) e2 hok
  exact ⟨s, s', e1, g1, g2, g3, g4.trans e3⟩

/-- Writing a document with `Declare` terms in front, and reading the text. -/
theorem declared_saved {env : Env} {files : Files} {fuel : Nat} {path : Str} {decls : List Str} {s1 : St}
    (h1 : parseRows files (fuel + 1) path (declRows decls) (newDoc env) = .ok () s1) (hq : _root_.Spec.Quiet s1 decls) {s : St}
    (hr : Reach Op.noAddChild s) {D : List Part} (hD : Shows s (inFront (declItems decls) D)) (hw : writable D = true)
    (hs : s.declTerms = s1.declTerms) (hv : NamedValues s1 (inFront (declItems decls) D)) :
    ∃ s2 D2, docCsv s = .ok (asCsv (declRows decls ++ D.flatMap partRows)) ∧
      parseRows files (fuel + 1) path (readCsv (asCsv (declRows decls ++ D.flatMap partRows))) (newDoc env) = .ok () s2 ∧
      Shows s2 D2 ∧ List.Forall₂ PartReordered (inFront (declItems decls) D) D2 ∧ s2.declTerms = s.declTerms ∧ docCsv s2 = docCsv s := by
  have hv : NamedValues s (inFront (declItems decls) D) := by
    have htv : writtenTvn s = writtenTvn s1 := by funext n; unfold writtenTvn; rw [hs]
    unfold NamedValues at hv ⊢
    rw [htv]
    exact hv
  obtain ⟨r, ds, rfl, w⟩ := writable_iff.1 hw
  obtain ⟨rn, rc, is⟩ := r
  obtain rfl : rn = py!"Root" := w.name
  obtain rfl : rc = [] := w.cols
  have hc := declared_csv (hr.wf fun _ _ ha => ha) hD hw hv
  obtain ⟨text, s2, D2, g1, g2, g3, g4, g5, g6⟩ := C50_declared_partial hr hD hw hv h1 hq
  have et : text = asCsv (declRows decls ++ (⟨py!"Root", [], is⟩ :: ds : List Part).flatMap partRows) := by
    rw [hc] at g1
    injection g1 with g1
    exact g1.symm
  subst et
  exact ⟨s2, D2, g1, g2, g3, g4, g5.trans hs.symm, (g6 hs).trans g1.symm⟩

/-- **C101** (`Declare` rows, files). Such a file is loaded and saved. The text has the `Declare` rows and the rows of the outline, and it is
read as the same outline, up to the order of the children of a term, with the same declarations. -/
theorem C101_declared_saved {env : Env} {files : Files} {fuel : Nat} {path : Str} {decls : List Str} {s1 : St}
    (h1 : parseRows files (fuel + 1) path (declRows decls) (newDoc env) = .ok () s1) (hq : _root_.Spec.Quiet s1 decls) {rows : List (List Str)}
    (h : plainFile rows = true) (ht : treeFile rows = true) (hs : shortHead rows = true) (hw : writable (fileOutline rows) = true)
    (hv : NamedValues s1 (inFront (declItems decls) (fileOutline rows))) :
    ∃ s s2 D2, parseRows files (fuel + 1) path (declRows decls ++ rows) (newDoc env) = .ok () s ∧
      docCsv s = .ok (asCsv (declRows decls ++ (fileOutline rows).flatMap partRows)) ∧
      parseRows files (fuel + 1) path (readCsv (asCsv (declRows decls ++ (fileOutline rows).flatMap partRows))) (newDoc env) = .ok () s2 ∧
      Shows s2 D2 ∧ List.Forall₂ PartReordered (inFront (declItems decls) (fileOutline rows)) D2 ∧ s2.declTerms = s.declTerms ∧
      docCsv s2 = docCsv s := by
  obtain ⟨s, e1, e2, e3, e4⟩ := C101_declared h1 hq h ht hs
  obtain ⟨s2, D2, g⟩ := declared_saved h1 hq e4 e2 hw e3 hv
  exact ⟨s, s2, D2, e1, g⟩

/-- **C101** (`Declare` rows, edited files). Such a file is loaded, edited and saved. If the edits leave the `Declare` terms in front, the text
has the `Declare` rows and the rows of the edited outline, and it is read as the edited outline, up to the order of the children of a term. -/
theorem C101_declared_edited {env : Env} {files : Files} {fuel : Nat} {path : Str} {decls : List Str} {s1 : St}
    (h1 : parseRows files (fuel + 1) path (declRows decls) (newDoc env) = .ok () s1) (hq : _root_.Spec.Quiet s1 decls) (he : Editable s1)
    (hn : NoSecTvn s1) {rows : List (List Str)} (h : plainFile rows = true) (ht : treeFile rows = true) (hs : shortHead rows = true)
    {es : List Edit} (hok : okEdits (inFront (declItems decls) (fileOutline rows)) es) {D : List Part}
    (hD : applyEdits (inFront (declItems decls) (fileOutline rows)) es = inFront (declItems decls) D) (hw : writable D = true)
    (hv : NamedValues s1 (inFront (declItems decls) D)) :
    ∃ s s' s2 D2, parseRows files (fuel + 1) path (declRows decls ++ rows) (newDoc env) = .ok () s ∧ runEdits es s = .ok () s' ∧
      docCsv s' = .ok (asCsv (declRows decls ++ D.flatMap partRows)) ∧
      parseRows files (fuel + 1) path (readCsv (asCsv (declRows decls ++ D.flatMap partRows))) (newDoc env) = .ok () s2 ∧
      Shows s2 D2 ∧ List.Forall₂ PartReordered (inFront (declItems decls) D) D2 ∧ s2.declTerms = s'.declTerms ∧ docCsv s2 = docCsv s' := by
  obtain ⟨s, s', e1, e2, e3, e4, e5⟩ := C101_declared_edits h1 hq he hn h ht hs hok
  rw [hD] at e3
  obtain ⟨s2, D2, g⟩ := declared_saved h1 hq e4.reach e3 hw e5 hv
  exact ⟨s, s', s2, D2, e1, e2, g⟩

/-- The document above: its rows are not written as the outline is, and the theorems apply. -/
def doRows : List (List Str) :=
  [[py!"Title", py!"T"], [py!"Section", py!"Schema", py!"DataType"], [py!"Table", py!"t"], [py!"Table.Column", py!"c"], [py!"Column.DataType", py!"int"],
   [py!"# note"], [py!"Table.Column", py!"d", py!"text"]]

theorem doRows_outline : fileOutline doRows = ⟨py!"Root", [], quietItems⟩ ::
    [⟨py!"Schema", [py!"DataType"], [.mk (py!"table") (some (py!"t"))
      [.mk (py!"column") (some (py!"c")) [.mk (py!"datatype") (some (py!"int")) []],
       .mk (py!"column") (some (py!"d")) [.mk (py!"datatype") (some (py!"text")) []]]]⟩] := by rfl

example : ∃ s, parseRows quietFiles 3 (py!"m.csv") (declRows [py!"d.csv"] ++ doRows) (newDoc exEnv) = .ok () s ∧
    Shows s (inFront (declItems [py!"d.csv"]) (fileOutline doRows)) ∧ s.declTerms = quietStart.declTerms ∧ Reach Op.noAddChild s :=
  C101_declared quietStart_ok quietStart_quiet (by decide +kernel) (by decide +kernel) (by decide +kernel)

example : ∃ s s2 D2, parseRows quietFiles 3 (py!"m.csv") (declRows [py!"d.csv"] ++ doRows) (newDoc exEnv) = .ok () s ∧
    docCsv s = .ok (asCsv (declRows [py!"d.csv"] ++ (fileOutline doRows).flatMap partRows)) ∧
    parseRows quietFiles 3 (py!"m.csv") (readCsv (asCsv (declRows [py!"d.csv"] ++ (fileOutline doRows).flatMap partRows))) (newDoc exEnv) = .ok () s2 ∧
    Shows s2 D2 ∧ List.Forall₂ PartReordered (inFront (declItems [py!"d.csv"]) (fileOutline doRows)) D2 ∧ s2.declTerms = s.declTerms ∧
    docCsv s2 = docCsv s :=
  C101_declared_saved quietStart_ok quietStart_quiet (by decide +kernel) (by decide +kernel) (by decide +kernel) (by decide +kernel)
    (by unfold NamedValues; decide +kernel)

example : asCsv (declRows [py!"d.csv"] ++ (fileOutline doRows).flatMap partRows) =
    py!"Declare,d.csv\r\nTitle,T\r\n\"\"\r\nSection,Schema,DataType\r\nTable,t,\r\nTable.Column,c,int\r\nTable.Column,d,text\r\n" := by decide +kernel

/-- A search in this document. -/
example : (quietStart.heap quietStart.root).pt = py!"root" ∧ quietStart.derived.get? (py!"table.column") = none ∧
    ((outlineFind (inFront (declItems [py!"d.csv"]) (fileOutline doRows)) (py!"Table", py!"Column") .fls none).map Item.value) =
      [some (py!"c"), some (py!"d")] ∧
    (∃ s, parseRows quietFiles 3 (py!"m.csv") (declRows [py!"d.csv"] ++ doRows) (newDoc exEnv) = .ok () s ∧
      ∃ l, find s (py!"Table.Column") .fls none = .ok l ∧
        List.Forall₂ (FoundAs s) (outlineFind (inFront (declItems [py!"d.csv"]) (fileOutline doRows)) (py!"Table", py!"Column") .fls none) l) := by
  refine ⟨by decide +kernel, by decide +kernel, by decide +kernel, ?_⟩
  obtain ⟨s, h1, h2⟩ := C101_declared_search quietStart_ok quietStart_quiet (by decide +kernel) (rows := doRows) (by decide +kernel) (by decide +kernel)
    (by decide +kernel)
  exact ⟨s, h1, h2 (py!"Table") (py!"Column") ⟨by decide, by decide, by decide⟩ ⟨by decide, by decide, by decide⟩ (by decide) (by decide)
    (by decide +kernel) .fls none⟩

theorem quietStart_classes : quietStart.classes = initClasses := by decide +kernel

theorem quietStart_reach : Reach Op.noAddChild quietStart :=
  Reach.step (.parse quietFiles 3 (py!"m.csv") (declRows [py!"d.csv"])) (.new exEnv _) trivial trivial

theorem quietStart_sup : quietStart.superTerms = [] := by decide +kernel

theorem quietStart_tvn (n : Str) : lower (declProp quietStart.declTerms n (py!"termvaluename") (py!"@value")) ∉ reservedTvn := by
  have h : ∀ kv ∈ quietStart.declTerms, ∀ v ∈ kv.2.props.get? (py!"termvaluename"), lower v ∉ reservedTvn := by decide +kernel
  generalize quietStart.declTerms = D at h ⊢
  unfold declProp
  cases hg : D.get? n with
  | none => decide
  | some t =>
    dsimp only
    cases hv : t.props.get? (py!"termvaluename") with
    | none => decide
    | some v => exact h _ (Dict.mem_of_get? hg) v hv

theorem quietStart_keys : quietStart.declSecs.keys = [py!"root", py!"declaredterms", py!"declaredsections"] := by decide +kernel

theorem quietStart_names : NoSecTvn quietStart := ⟨by decide +kernel, by decide +kernel, by decide +kernel, by decide +kernel, by decide +kernel⟩

/-- The document with the `Declare` row alone can be edited. -/
theorem quietStart_editable : Editable quietStart := by
  have h1 : TermsOnly quietStart := by unfold TermsOnly; decide +kernel
  have h2 : AllListed quietStart := by unfold AllListed; decide +kernel
  have h3 : ∀ kv ∈ quietStart.sections, ∀ t ∈ (quietStart.heap kv.2).terms, (quietStart.heap t).rt ≠ py!"declaresection" →
    lower (quietStart.heap t).tvn ≠ py!"section" := by decide +kernel
  refine ⟨quietStart_reach, usable_of (by rw [quietStart_classes]; exact plainClasses_init) quietStart_sup quietStart_tvn, h1,
    ⟨fun n hn => declProp_section quietStart_names.doc hn (by decide), h3⟩, ?_, h2,
    noSecClass_of (by rw [quietStart_classes]; exact plainClasses_init) quietStart_sup⟩
  intro n hn
  rw [Dict.get?_eq_none, quietStart_keys]
  exact hn

/-- Edits of the document: another name for the second column, no type for the first. -/
def doEdits : List Edit := [.value 1 0 [1] (some (py!"e")), .dropChild 1 0 [0] 0]

def doEdited : List Part :=
  [⟨py!"Root", [], quietItems⟩,
   ⟨py!"Schema", [py!"DataType"], [.mk (py!"table") (some (py!"t"))
     [.mk (py!"column") (some (py!"c")) [], .mk (py!"column") (some (py!"e")) [.mk (py!"datatype") (some (py!"text")) []]]]⟩]

theorem do_edits : okEdits (inFront (declItems [py!"d.csv"]) (fileOutline doRows)) doEdits := by
  rw [doRows_outline]
  unfold doEdits
  simp only [okEdits]
  exact ⟨by simp only [Edit.ok]; decide, ⟨_, _, _, rfl, by decide, by decide⟩, trivial⟩

example : ∃ s s' s2 D2, parseRows quietFiles 3 (py!"m.csv") (declRows [py!"d.csv"] ++ doRows) (newDoc exEnv) = .ok () s ∧
    runEdits doEdits s = .ok () s' ∧ docCsv s' = .ok (asCsv (declRows [py!"d.csv"] ++ doEdited.flatMap partRows)) ∧
    parseRows quietFiles 3 (py!"m.csv") (readCsv (asCsv (declRows [py!"d.csv"] ++ doEdited.flatMap partRows))) (newDoc exEnv) = .ok () s2 ∧
    Shows s2 D2 ∧ List.Forall₂ PartReordered (inFront (declItems [py!"d.csv"]) doEdited) D2 ∧ s2.declTerms = s'.declTerms ∧ docCsv s2 = docCsv s' :=
  C101_declared_edited quietStart_ok quietStart_quiet quietStart_editable quietStart_names (by decide +kernel) (by decide +kernel) (by decide +kernel)
    do_edits (by rw [doRows_outline]; rfl) (by decide +kernel) (by unfold NamedValues; decide +kernel)

def doHead : List (List Str) := [[py!"Title", py!"T", py!"x"]]

def doHeadDoc : St := after (parseRows quietFiles 3 (py!"m.csv") (declRows [py!"d.csv"] ++ doHead)) exDoc

/-- Argument cells before the first section row get the names of the columns of the declare file: the outline of the row has a child `0`,
the document has a child `termvaluename`. -/
theorem C101_head_witness : plainFile doHead = true ∧ treeFile doHead = true ∧ shortHead doHead = false ∧
    ((fileOutline doHead).flatMap fun d => d.items.flatMap fun i => i.kids.map Item.name) = [py!"0"] ∧
    ((find doHeadDoc (py!"Title") .fls none).toOption.getD []).flatMap (fun t => (doHeadDoc.heap t).children.map fun c => (doHeadDoc.heap c).rt) =
      [py!"termvaluename"] := by
  decide +kernel

end Metatab
