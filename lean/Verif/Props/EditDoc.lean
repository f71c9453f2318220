import Verif.Props.EditSection
import Verif.Props.LineFile
/-! # C97: any number of edits, of new documents and of documents that were read -/
namespace Metatab
open Py _root_.Spec

theorem edit_step {s : St} (h : Editable s) {D : List Part} (hD : Shows s D) {e : Edit} (hok : e.ok D) :
    ∃ s', e.run s = .ok () s' ∧ Shows s' (e.apply D) ∧ Editable s' ∧ s'.declTerms = s.declTerms := by
  cases e with
  | value i j p v => exact C97_value h hD hok
  | child i j p it => exact C97_child h hD hok
  | dropChild i j p m => exact C97_dropChild h hD hok
  | term i it => exact C97_term h hD hok
  | dropTerm i j => exact C97_dropTerm h hD hok
  | part d => exact C97_section h hD hok
  | dropPart i => exact C97_dropPart h hD hok
  | order names => exact C97_order h hD
  | sort i names => exact C97_sort h hD hok
  | setChild i j p n v => exact C97_setChild h hD hok

/-- **C97.** Any number of edits, one after the other, succeed and do on the outline of the document what they say. -/
theorem C97_edits : ∀ (es : List Edit) {s : St}, Editable s → ∀ {D : List Part}, Shows s D → okEdits D es →
    ∃ s', runEdits es s = .ok () s' ∧ Shows s' (applyEdits D es) ∧ Editable s' ∧ s'.declTerms = s.declTerms
  | [], s, h, D, hD, _ => ⟨s, rfl, hD, h, rfl⟩
  | e :: es, s, h, D, hD, hok => by
    obtain ⟨s1, e1, h1, h2, h3⟩ := edit_step h hD hok.1
    obtain ⟨s2, e2, g1, g2, g3⟩ := C97_edits es h2 h1 hok.2
    refine ⟨s2, ?_, g1, g2, g3.trans h3⟩
    show (do e.run; runEdits es : M Unit) s = _
    rw [bind_run, e1]
    exact e2

/-! ## New documents -/

/-- The outline of a new document. -/
def _root_.Spec.blank : List Part := [⟨py!"Root", [], []⟩]

theorem shows_new (env : Env) (classes : Dict Cls) : Shows (newDoc env classes) blank := by
  refine ⟨rfl, List.Forall₂.cons ⟨by decide, rfl, rfl, ?_, ?_⟩ .nil⟩
  · unfold ShowsItems; rfl
  · intro t ht; cases ht

theorem noSecClass_of {s : St} (hcl : PlainClasses s.classes) (hs : s.superTerms = []) : NoSecClass s := by
  intro n hn
  unfold docTermClass
  cases hg : s.classes.get? (lower n) with
  | none => dsimp only; rw [hs]; rfl
  | some c =>
    dsimp only
    cases hc : c.isSection with
    | false => rfl
    | true =>
      rcases hcl.only _ _ hg hc with e | e <;> rw [e] at hn <;> exact absurd (by decide) hn

theorem editable_new {env : Env} {classes : Dict Cls} (hcl : PlainClasses classes) : Editable (newDoc env classes) := by
  have ht : ∀ kv ∈ (newDoc env classes).sections, ((newDoc env classes).heap kv.2).terms = [] := by
    intro kv hkv
    have : kv = (py!"root", 0) := List.mem_singleton.1 hkv
    rw [this]
    rfl
  refine ⟨.new env classes, usable_new hcl, ?_, ⟨?_, ?_⟩, fun _ _ => rfl, ?_, noSecClass_of hcl rfl⟩
  · intro kv hkv t h; rw [ht kv hkv] at h; cases h
  · intro n _; show lower (py!"@value") ≠ _; decide
  · intro kv hkv t h; rw [ht kv hkv] at h; cases h
  · intro kv hkv t h; rw [ht kv hkv] at h; cases h

theorem td_addKid (t : Nat) (i : Item) : Tidies (addKid t i) := by
  cases i
  rw [addKid]
  exact .bind (td_newChild _ _ _ _) fun _ => td_addKids _ _

theorem td_edit (e : Edit) : Tidies e.run := by
  cases e <;> unfold Edit.run <;> dsimp only
  case value i j p v =>
    refine Tidies.getBind fun s _ => ?_
    split
    · exact td_upd _ fun o ho => ⟨ho.tvn, ho.cpt, ho.dflt⟩
    · exact Tidies.raise _
  case child i j p it =>
    refine Tidies.getBind fun s _ => ?_
    split
    · exact td_addKid _ it
    · exact Tidies.raise _
  case dropChild i j p m =>
    refine Tidies.getBind fun s _ => ?_
    split
    · split
      · exact td_removeChild _ _
      · exact Tidies.raise _
    · exact Tidies.raise _
  case term i it =>
    refine Tidies.getBind fun s _ => ?_
    split
    · exact td_addItem _ it
    · exact Tidies.raise _
  case dropTerm i j =>
    refine Tidies.getBind fun s _ => ?_
    split
    · exact td_removeTerm _
    · exact Tidies.raise _
  case part d => exact Tidies.bind (td_newSection _ _) fun x => td_addItems x d.items
  case dropPart i =>
    refine Tidies.getBind fun s _ => ?_
    split
    · exact td_delSection _
    · exact Tidies.raise _
  case order names => exact td_sortSections _
  case sort i names =>
    refine Tidies.getBind fun s _ => ?_
    split
    · exact td_sortByTerm _ _
    · exact Tidies.raise _
  case setChild i j p n v =>
    refine Tidies.getBind fun s _ => ?_
    split
    · exact Tidies.bind (td_getOrNewChild _ _ _ _) fun _ => Tidies.pure _
    · exact Tidies.raise _

theorem td_edits : ∀ es : List Edit, Tidies (runEdits es)
  | [] => Tidies.pure _
  | e :: es => Tidies.bind (td_edit e) fun _ => td_edits es

/-- **C97** (files). The edited document is written as CSV text that is read as the edited outline, up to the order of the children of a
term. -/
theorem C97_saved {s : St} (h : Editable s) {D : List Part} (hD : Shows s D) (hp : PlainTvn s) {es : List Edit} (hok : okEdits D es)
    (hw : writable (applyEdits D es) = true) {env : Env} {classes : Dict Cls} (hcl : PlainClasses classes) (files : Files) (fuel : Nat) (path : Str) :
    ∃ s1 text s2 D2, runEdits es s = .ok () s1 ∧ docCsv s1 = .ok text ∧
      parseRows files (fuel + 1) path (readCsv text) (newDoc env classes) = .ok () s2 ∧ Shows s2 D2 ∧
      List.Forall₂ PartReordered (applyEdits D es) D2 := by
  obtain ⟨s1, e1, h1, h2, h3⟩ := C97_edits es h hD hok
  have hp1 : PlainTvn s1 := fun p n a b => by
    have := hp p n a b
    unfold writtenTvn at this ⊢
    rw [h3]
    exact this
  obtain ⟨text, s2, D2, a, b, c, d⟩ := C50_roundtrip_partial h2.reach h1 hw (hp1.named fun d hd => (writable_part hw d hd).2) (env := env) hcl files fuel path
  exact ⟨s1, text, s2, D2, e1, a, b, c, d⟩

/-- **C97** (new documents). Edits of a new document give the outline they say, and the document has the dict of this outline. -/
theorem C97_new {env : Env} {classes : Dict Cls} (hcl : PlainClasses classes) {es : List Edit} (hok : okEdits blank es) :
    ∃ s, runEdits es (newDoc env classes) = .ok () s ∧ Shows s (applyEdits blank es) ∧
      ∀ rvn, (docAsDict rvn s).val = .ok (outlineDict rvn (applyEdits blank es)) := by
  obtain ⟨s, e1, h1, h2, h3⟩ := C97_edits es (editable_new (env := env) hcl) (shows_new env classes) hok
  have ht : Tidy s := by
    have := td_edits es (newDoc env classes) (tidy_new _ _)
    rw [e1] at this
    exact this
  exact ⟨s, e1, h1, fun rvn => C96_outline h2.reach h1 ht.plain rvn⟩

/-! ## Documents that were read -/

theorem argsEffect_tables {t : Nat} : ∀ {vs : List Str} {k : Nat} {s : St}, (argsEffect t k vs s).declSecs = s.declSecs ∧
    (argsEffect t k vs s).superTerms = s.superTerms ∧ (argsEffect t k vs s).classes = s.classes
  | [], _, _ => ⟨rfl, rfl, rfl⟩
  | v :: vs, k, s => by
    rw [argsEffect, argsEffect_tables.1, argsEffect_tables.2.1, argsEffect_tables.2.2]
    unfold argEffect
    split <;> exact ⟨rfl, rfl, rfl⟩

/-- What plain rows leave as it is. -/
structure SameTables (s s' : St) : Prop where
  secs : s'.declSecs = s.declSecs
  parser : s'.p.declSecs = s.p.declSecs
  super : s'.superTerms = s.superTerms
  classes : s'.classes = s.classes

theorem plainRow_tables {s s' : St} {row : List Str} (h : PlainRow s row s') : SameTables s s' := by
  cases h with
  | noise => exact ⟨rfl, rfl, rfl, rfl⟩
  | term hc =>
    unfold termEffect
    refine ⟨?_, ?_, ?_, ?_⟩
    · rw [argsEffect_tables.1]; rfl
    · rw [argsEffect_p]; exact nextP_declSecs ..
    · rw [argsEffect_tables.2.1]; rfl
    · rw [argsEffect_tables.2.2]; rfl
  | «section» hc => exact ⟨rfl, rfl, rfl, rfl⟩
  | header hc => exact ⟨rfl, rfl, rfl, rfl⟩

theorem plainRows_tables {s s' : St} {rows : List (List Str)} (h : PlainRows s rows s') : SameTables s s' := by
  induction h with
  | nil => exact ⟨rfl, rfl, rfl, rfl⟩
  | cons hr _ ih =>
    have k := plainRow_tables hr
    exact ⟨ih.secs.trans k.secs, ih.parser.trans k.parser, ih.super.trans k.super, ih.classes.trans k.classes⟩

theorem initDecl_section (n : Str) (hn : n ≠ py!"root.declaresection") :
    lower (declProp initDeclTerms n (py!"termvaluename") (py!"@value")) ≠ py!"section" := by
  unfold declProp initDeclTerms
  simp only [Dict.get?_cons, Dict.get?_nil]
  split
  · next t h =>
    split at h
    · cases h; decide
    split at h
    · cases h; decide
    split at h
    · cases h; decide
    split at h
    · next e => exact absurd (by simpa using e.symm) hn
    split at h
    · cases h; decide
    split at h
    · cases h; decide
    cases h
  · decide

theorem flatL_names {sec p : Str} : ∀ (ks : List Item) {pi : Option Nat} {b : Nat}, ∀ n ∈ flatL sec p pi b ks, n.valueName = py!"@value" := by
  intro ks pi b
  refine flatL.induct sec (fun p pi b i => ∀ n ∈ flatI sec p pi b i, n.valueName = py!"@value")
    (fun p pi b ks => ∀ n ∈ flatL sec p pi b ks, n.valueName = py!"@value") ?_ ?_ ?_ p pi b ks
  · intro p pi b m v ks ih n hn
    rw [flatI] at hn
    rcases List.mem_cons.1 hn with rfl | hn
    · rfl
    · exact ih n hn
  · intro p pi b n hn
    rw [flatL] at hn
    cases hn
  · intro p pi b k ks h1 h2 n hn
    rw [flatL] at hn
    rcases List.mem_append.1 hn with hn | hn
    · exact h1 n hn
    · exact h2 n hn

theorem flatD_names : ∀ (D : List Part) {b : Nat}, ∀ n ∈ flatD b D, n.valueName = py!"@value"
  | [], _ => by intro n hn; cases hn
  | d :: D, b => by
    intro n hn
    rw [flatD] at hn
    rcases List.mem_append.1 hn with hn | hn
    · exact flatL_names _ n hn
    · exact flatD_names D n hn

/-- What is read from the rows of an outline can be edited. -/
theorem read_editable_rows {rows : List (List Str)} (hr0 : plainFile rows = true)
    (hv : ∀ n ∈ (readAll rows).nodes, n.valueName = py!"@value") {env : Env} {classes : Dict Cls} (hcl : PlainClasses classes) (files : Files)
    (fuel : Nat) (path : Str) :
    ∃ s, parseRows files (fuel + 1) path rows (newDoc env classes) = .ok () s ∧ Editable s ∧ PlainTvn s := by
  obtain ⟨s1, h1⟩ := plainFile_rows (env := env) hcl hr0
  obtain ⟨ids, hs⟩ := sim_rows (pinv_new (F := True) (env := env) hcl) (sim_start env classes) h1 hr0
  have k := plainRows_tables h1
  have hdt : Dict.update s1.declTerms s1.p.declTerms = initDeclTerms := by
    rw [(plainRows_declTerms h1).1, (plainRows_declTerms h1).2]
    rfl
  have hsup : s1.superTerms.update (parserSuperTerms s1) = [] := by
    have h2 : s1.superTerms = [] := k.super
    have h3 : parserSuperTerms s1 = [] := by
      unfold parserSuperTerms
      rw [h2, if_neg (fun h => h rfl), (plainRows_declTerms h1).2]
      show Dict.update [] (initDeclTerms.filterMap _) = []
      decide
    rw [h2, h3]
    rfl
  have hsec : s1.declSecs.update s1.p.declSecs = initDeclSecs := by
    rw [k.secs, k.parser]
    rfl
  have hp := parse_plain hcl h1 files fuel path
  obtain ⟨s, es⟩ : ∃ s, s = after finishLoad s1 := ⟨_, rfl⟩
  rw [← es] at hp
  have hr : Reach Op.noAddChild s := by
    have := Reach.step (allow := Op.noAddChild) (.parse files (fuel + 1) path rows) (.new env classes) trivial trivial
    have e' : after (Op.parse files (fuel + 1) path rows).run (newDoc env classes) = s := by
      show after (parseRows _ _ _ _) _ = s
      unfold after
      rw [hp]
    rw [e'] at this
    exact this
  have g1 : s.declTerms = initDeclTerms := by rw [es]; exact hdt
  have g2 : s.superTerms = [] := by rw [es]; exact hsup
  have g3 : s.declSecs = initDeclSecs := by rw [es]; exact hsec
  have g4 : s.classes = classes := by rw [es]; exact k.classes
  have hh : _root_.Spec.Holds s (readAll rows) ids := by rw [es]; exact holds_finish hs.toHolds
  have hmem : ∀ kv ∈ s.sections, ∀ t ∈ (s.heap kv.2).terms, ∃ n, (n, t) ∈ (readAll rows).nodes.zip ids := by
    intro kv hkv t ht
    have w : WF True s := hr.wf fun _ _ ha => ha
    rw [hh.sectionTerms kv.1 kv.2 (Dict.get?_of_mem w.secsNodup hkv)] at ht
    unfold pick at ht
    obtain ⟨nt, h5, rfl⟩ := List.mem_map.1 ht
    exact ⟨nt.1, (List.mem_filter.1 h5).1⟩
  refine ⟨s, hp, ⟨hr, usable_of (by rw [g4]; exact hcl) g2 (by rw [g1]; exact initDecl_tvn), ?_, ⟨by rw [g1]; exact initDecl_section, ?_⟩, ?_, ?_,
    noSecClass_of (by rw [g4]; exact hcl) g2⟩, plainTvn_of (.inr g1)⟩
  · intro kv hkv t ht
    obtain ⟨n, hn⟩ := hmem kv hkv t ht
    exact (hh.exist t (List.of_mem_zip hn).2).2
  · intro kv hkv t ht _
    obtain ⟨n, hn⟩ := hmem kv hkv t ht
    rw [(hh.term n t hn).2.2.2.1]
    rw [hv n (List.of_mem_zip hn).1]
    decide
  · intro n hn
    rw [g3]
    unfold initDeclSecs
    simp only [Dict.get?_cons, Dict.get?_nil]
    simp only [List.mem_cons, not_or] at hn
    rw [if_neg (Ne.symm hn.1), if_neg (Ne.symm hn.2.1), if_neg (Ne.symm hn.2.2.1)]
  · intro kv hkv t ht
    have w : WF True s := hr.wf fun _ _ ha => ha
    rw [hh.sectionTerms kv.1 kv.2 (Dict.get?_of_mem w.secsNodup hkv)] at ht
    rw [hh.terms]
    unfold pick at ht ⊢
    obtain ⟨nt, h5, rfl⟩ := List.mem_map.1 ht
    refine List.mem_map.2 ⟨nt, List.mem_filter.2 ⟨(List.mem_filter.1 h5).1, ?_⟩, rfl⟩
    have := (List.mem_filter.1 h5).2
    simp only [Bool.and_eq_true] at this
    exact this.1

theorem read_editable {D : List Part} (hw : writable D = true) {env : Env} {classes : Dict Cls} (hcl : PlainClasses classes) (files : Files)
    (fuel : Nat) (path : Str) :
    ∃ s, parseRows files (fuel + 1) path (D.flatMap partRows) (newDoc env classes) = .ok () s ∧ Editable s ∧ PlainTvn s :=
  read_editable_rows (writable_plain hw) (fun n hn => by rw [(readAll_written hw).1] at hn; exact flatD_names _ n hn) hcl files fuel path

/-- **C97** (documents that were read). A document is written as CSV text and read again; the document read is edited and written once
more. All this succeeds, and what is read from the second text is the outline of the first document with the edits done on it, up to the
order of the children of a term. The edits refer to positions in the outline that was read, `D` with the children in the order written. -/
theorem C97_loaded {s : St} (h : Reach Op.noAddChild s) {D : List Part} (hD : Shows s D) (hw : writable D = true) (hv : NamedValues s D)
    {env : Env} {classes : Dict Cls} (hcl : PlainClasses classes) (files : Files) (fuel : Nat) (path : Str) :
    ∃ text s1, docCsv s = .ok text ∧ parseRows files (fuel + 1) path (readCsv text) (newDoc env classes) = .ok () s1 ∧ Shows s1 (D.map Part.norm) ∧
      List.Forall₂ PartReordered D (D.map Part.norm) ∧
      ∀ es, okEdits (D.map Part.norm) es → ∃ s2, runEdits es s1 = .ok () s2 ∧ Shows s2 (applyEdits (D.map Part.norm) es) ∧
        (writable (applyEdits (D.map Part.norm) es) = true → ∃ text' s3 D3, docCsv s2 = .ok text' ∧
          parseRows files (fuel + 1) path (readCsv text') (newDoc env classes) = .ok () s3 ∧ Shows s3 D3 ∧
          List.Forall₂ PartReordered (applyEdits (D.map Part.norm) es) D3) := by
  have w : WF True s := h.wf fun _ op ha => ha
  obtain ⟨rows, s1, h1, h2, h3, h4, hpt⟩ := roundtrip w hD hw hv hcl files fuel path (env := env)
  obtain ⟨s1', h5, h6, -⟩ := read_editable hw (env := env) hcl files fuel path
  rw [h3] at h5
  cases h5
  refine ⟨asCsv (D.flatMap partRows), s1, ?_, ?_, h4, norm_reordered hw, fun es hok => ?_⟩
  · unfold docCsv
    rw [h1]
    show (cellRows rows >>= _) = _
    rw [h2]
    rfl
  · rw [C07_roundtrip]
    exact h3
  · obtain ⟨s2, e2, g1, g2, g3⟩ := C97_edits es h6 h4 hok
    refine ⟨s2, e2, g1, fun hw' => ?_⟩
    obtain ⟨s2', text, s3, D3, a, b, c, d, e⟩ := C97_saved h6 h4 hpt hok hw' hcl files fuel path (env := env)
    rw [e2] at a
    cases a
    exact ⟨text, s3, D3, b, c, d, e⟩

/-! ## A concrete case -/

/-- Edits of all kinds: a section with a term, a child of this term with a child of its own, another value for the grandchild, a root-level
term with a child, which is removed, and a term that is removed. -/
def edSteps : List Edit :=
  [.part ⟨py!"Contacts", [py!"Email"], [.mk (py!"Person") (some (py!"Ann")) []]⟩,
   .child 1 0 [] (.mk (py!"Email") (some (py!"a@b")) [.mk (py!"Kind") (some (py!"home")) []]),
   .value 1 0 [0, 0] (some (py!"work")),
   .term 0 (.mk (py!"Title") (some (py!"T")) [.mk (py!"Lang") (some (py!"en")) []]),
   .term 0 (.mk (py!"Note") none []),
   .dropChild 0 0 [] 0,
   .dropTerm 0 1]

theorem ed_ok : okEdits blank edSteps := by
  have p : ∀ {n : Str}, '.' ∉ n → n ≠ [] → strip n = n → PlainPart n := fun a b c => ⟨a, b, c⟩
  unfold edSteps
  simp only [okEdits]
  refine ⟨⟨⟨by decide, by decide, by decide, by decide, ?_⟩, by decide, by decide⟩, ⟨by decide, ?_⟩, by simp only [Edit.ok]; decide,
    ⟨⟨_, rfl, by decide⟩, ?_⟩, ⟨⟨_, rfl, by decide⟩, ?_⟩, ⟨_, _, _, rfl, by decide, by decide⟩, ⟨⟨_, rfl, by decide⟩, _, _, _, rfl, by decide⟩, trivial⟩
  · simp only [givenL, Item.given]; refine ⟨⟨p ?_ ?_ ?_, ?_, ?_, trivial⟩, trivial⟩ <;> decide
  · simp only [givenL, Item.given]; refine ⟨p ?_ ?_ ?_, ?_, ?_, ⟨p ?_ ?_ ?_, ?_, ?_, trivial⟩, trivial⟩ <;> decide
  · simp only [givenL, Item.given]; refine ⟨p ?_ ?_ ?_, ?_, ?_, ⟨p ?_ ?_ ?_, ?_, ?_, trivial⟩, trivial⟩ <;> decide
  · simp only [givenL, Item.given]; refine ⟨p ?_ ?_ ?_, ?_, ?_, trivial⟩ <;> decide

/-- More edits of the document just made: two sections, one of which is put first (the root section keeps its place at the front of the
rest), one of which is deleted, a property that is there gets another value, and one that is not is made. -/
def edMore : List Edit :=
  [.part ⟨py!"Old", [], [.mk (py!"Note") (some (py!"n")) []]⟩,
   .part ⟨py!"Data", [], []⟩,
   .dropPart 2,
   .order [py!"data", py!"root"],
   .setChild 2 0 [0] (py!"KIND") (some (py!"both")),
   .setChild 2 0 [] (py!"Phone") (some (py!"555"))]

theorem edMore_ok : okEdits (applyEdits blank edSteps) edMore := by
  have p : ∀ {n : Str}, '.' ∉ n → n ≠ [] → strip n = n → PlainPart n := fun a b c => ⟨a, b, c⟩
  unfold edMore
  simp only [okEdits]
  refine ⟨⟨⟨by decide, by decide, by decide, by decide, ?_⟩, by decide, by decide⟩, ⟨⟨by decide, by decide, by decide, by decide, trivial⟩, by decide, by decide⟩,
    by simp only [Edit.ok]; decide, trivial, ⟨_, _, _, rfl, p ?_ ?_ ?_, ?_, p ?_ ?_ ?_, ?_, ?_⟩, ⟨_, _, _, rfl, p ?_ ?_ ?_, ?_, p ?_ ?_ ?_, ?_, ?_⟩, trivial⟩
  · simp only [givenL, Item.given]; refine ⟨⟨p ?_ ?_ ?_, ?_, ?_, trivial⟩, trivial⟩ <;> decide
  all_goals decide

example : ∃ s s', runEdits edSteps (newDoc exEnv) = .ok () s ∧ runEdits edMore s = .ok () s' ∧
    Shows s' [⟨py!"Data", [], []⟩, ⟨py!"Root", [], [.mk (py!"title") (some (py!"T")) []]⟩,
      ⟨py!"Contacts", [py!"Email"], [.mk (py!"person") (some (py!"Ann")) [.mk (py!"email") (some (py!"a@b")) [.mk (py!"kind") (some (py!"both")) []],
        .mk (py!"phone") (some (py!"555")) []]]⟩] := by
  obtain ⟨s, h1, h2, h3, -⟩ := C97_edits edSteps (editable_new (env := exEnv) plainClasses_init) (shows_new _ _) ed_ok
  obtain ⟨s', g1, g2, -⟩ := C97_edits edMore h3 h2 edMore_ok
  exact ⟨s, s', h1, g1, g2⟩

/-- Sorting: the title first, the rest in alphabetical order. Then the section gets a column and loses one. -/
example : ∃ s, runEdits [.part ⟨py!"Contacts", [py!"Email"], [.mk (py!"Wrangler") (some (py!"Bo")) [.mk (py!"Phone") (some (py!"55")) []],
      .mk (py!"Creator") none [], .mk (py!"Title") (some (py!"T")) []]⟩, .sort 1 (some [py!"Title"])] (newDoc exEnv) = .ok () s ∧
    ∃ kv s' s'', s.sections[1]? = some kv ∧ addArg kv.2 (py!"phone") true s = .ok () s' ∧ removeArg kv.2 (py!"EMAIL") s' = .ok () s'' ∧
      Shows s'' [⟨py!"Root", [], []⟩, ⟨py!"Contacts", [py!"Phone"], [.mk (py!"title") (some (py!"T")) [], .mk (py!"creator") none [],
        .mk (py!"wrangler") (some (py!"Bo")) [.mk (py!"phone") (some (py!"55")) []]]⟩] := by
  have p : ∀ {n : Str}, '.' ∉ n → n ≠ [] → strip n = n → PlainPart n := fun a b c => ⟨a, b, c⟩
  obtain ⟨s, h1, h2, h3, -⟩ := C97_edits [.part ⟨py!"Contacts", [py!"Email"], [.mk (py!"Wrangler") (some (py!"Bo")) [.mk (py!"Phone") (some (py!"55")) []],
      .mk (py!"Creator") none [], .mk (py!"Title") (some (py!"T")) []]⟩, .sort 1 (some [py!"Title"])] (editable_new (env := exEnv) plainClasses_init)
    (shows_new _ _) (by
      refine ⟨⟨⟨by decide, by decide, by decide, by decide, ?_⟩, by decide, by decide⟩, ⟨by decide, fun n hn => ?_⟩, trivial⟩
      · simp only [givenL, Item.given]
        refine ⟨⟨p ?_ ?_ ?_, ?_, ?_, ⟨p ?_ ?_ ?_, ?_, ?_, trivial⟩, trivial⟩, ⟨p ?_ ?_ ?_, ?_, ?_, trivial⟩, ⟨p ?_ ?_ ?_, ?_, ?_, trivial⟩, trivial⟩ <;> decide
      · rw [List.mem_singleton.1 hn]
        refine p ?_ ?_ ?_ <;> decide)
  refine ⟨s, h1, ?_⟩
  have hs : s = after (runEdits [.part ⟨py!"Contacts", [py!"Email"], [.mk (py!"Wrangler") (some (py!"Bo")) [.mk (py!"Phone") (some (py!"55")) []],
      .mk (py!"Creator") none [], .mk (py!"Title") (some (py!"T")) []]⟩, .sort 1 (some [py!"Title"])]) (newDoc exEnv) := by
    unfold after
    rw [h1]
  have hk : s.sections[1]? = some (py!"contacts", 1) := by rw [hs]; decide +kernel
  obtain ⟨s', g1, g2, g3, -⟩ := C97_addColumn h3 h2 hk (by rw [hs]; decide +kernel) (py!"phone") true
  have hs' : s' = after (addArg 1 (py!"phone") true) s := by
    unfold after
    rw [g1]
  obtain ⟨s'', f1, f2, -⟩ := C97_dropColumn g3 g2 (i := 1) (kv := (py!"contacts", 1)) (by rw [hs', hs]; decide +kernel) (by rw [hs', hs]; decide +kernel) (py!"EMAIL")
  refine ⟨_, s', s'', hk, g1, f1, ?_⟩
  exact f2

example : ∃ s, runEdits edSteps (newDoc exEnv) = .ok () s ∧
    Shows s [⟨py!"Root", [], [.mk (py!"title") (some (py!"T")) []]⟩,
      ⟨py!"Contacts", [py!"Email"], [.mk (py!"person") (some (py!"Ann")) [.mk (py!"email") (some (py!"a@b")) [.mk (py!"kind") (some (py!"work")) []]]]⟩] := by
  obtain ⟨s, h1, h2, -⟩ := C97_new (env := exEnv) plainClasses_init ed_ok
  exact ⟨s, h1, h2⟩

/-- A document is written, read, edited and written again. -/
example : ∃ text s1, docCsv (exParse rtRows) = .ok text ∧ parseRows noFiles 1 [] (readCsv text) (newDoc exEnv) = .ok () s1 ∧
    ∃ s2 text' s3 D3, runEdits [.value 1 0 [1, 2] (some (py!"4")), .dropTerm 0 0] s1 = .ok () s2 ∧ docCsv s2 = .ok text' ∧
      parseRows noFiles 1 [] (readCsv text') (newDoc exEnv) = .ok () s3 ∧ Shows s3 D3 ∧ List.Forall₂ PartReordered
        [⟨py!"Root", [], []⟩, ⟨py!"Schema", [py!"DataType", py!"Note"], [.mk (py!"table") (some (py!"t"))
          [.mk (py!"extra") (some (py!"x")) [],
           .mk (py!"column") (some (py!"c")) [.mk (py!"datatype") (some (py!"int")) [], .mk (py!"note") (some (py!"first")) [],
             .mk (py!"width") (some (py!"4")) []],
           .mk (py!"column") (some (py!"d")) [.mk (py!"note") (some (py!"last")) []]]]⟩] D3 := by
  obtain ⟨text, s1, h1, h2, -, -, h3⟩ := C97_loaded (exParse_reach _ trivial) rt_shows rt_writable rt_named (env := exEnv) plainClasses_init noFiles 0 []
  obtain ⟨s2, e2, -, h4⟩ := h3 [.value 1 0 [1, 2] (some (py!"4")), .dropTerm 0 0] ⟨by simp only [Edit.ok]; decide, ⟨⟨_, rfl, by decide⟩, _, _, _, rfl, by decide⟩, trivial⟩
  obtain ⟨text', s3, D3, a, b, c, d⟩ := h4 (by decide +kernel)
  exact ⟨text, s1, h1, h2, s2, text', s3, D3, e2, a, b, c, d⟩

/-- In a section with a column called `Section` a new term gets a child that nobody asked for: it holds the section. -/
theorem C97_section_column_witness : let s := after (Edit.part ⟨py!"Data", [py!"Section"], [.mk (py!"A") (some (py!"x")) []]⟩).run (newDoc exEnv)
    (s.sections.get? (py!"data") = some 1 ∧ (s.heap 1).terms = [2]) ∧ (s.heap 2).joinLc = py!"root.a" ∧
      show_ s (s.heap 2).children = [(py!"a.section", .obj 1)] := by decide +kernel

end Metatab
