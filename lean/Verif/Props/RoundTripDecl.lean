import Verif.Lemmas.TrackDoc
import Verif.Props.RoundTrip
/-! # C50: documents with `Declare` rows -/
namespace Metatab
open Py _root_.Spec

theorem _root_.Spec.Reordered.leaf {i j : Item} (h : Reordered i j) : j.leaf = i.leaf := by
  cases h with
  | mk h p =>
    rename_i n v ks l ks'
    show ks'.isEmpty = ks.isEmpty
    have := p.length_eq
    rw [← h.length_eq] at this
    cases ks <;> cases ks' <;> simp at this ⊢

theorem _root_.Spec.Reordered.name {i j : Item} (h : Reordered i j) : j.name = i.name := by
  cases h with
  | mk h p => rfl

theorem valuesOkL_iff {tv : Str → Str} {p : Str} {ks : List Item} : valuesOkL tv p ks = true ↔ ∀ k ∈ ks, k.leaf = true ∨ k.valuesOk tv p = true := by
  induction ks with
  | nil => constructor
           · intro _ k hk; cases hk
           · intro _; rfl
  | cons k ks ih => rw [valuesOkL_cons, ih, List.forall_mem_cons]

/-- Value names do not depend on the order of children. -/
theorem valuesOk_reordered {tv : Str → Str} : ∀ (m : Nat) (i j : Item) (p : Str), sizeOf i ≤ m → Reordered i j → i.valuesOk tv p = true →
    j.valuesOk tv p = true := by
  intro m
  induction m with
  | zero => intro i _ _ hi; cases i; simp at hi
  | succ m ih =>
    intro i j p hi h hv
    cases h with
    | mk h hp =>
      rename_i n v ks l ks'
      have hv := valuesOk_iff.1 hv
      have back : ∀ k' ∈ ks', ∃ k ∈ ks, Reordered k k' := by
        intro k' hk'
        have hl := hp.mem_iff.2 hk'
        obtain ⟨k, hz⟩ : ∃ k, (k, k') ∈ ks.zip l := by
          obtain ⟨a, ha, e⟩ := List.getElem_of_mem hl
          have hk : a < ks.length := by rw [h.length_eq]; exact ha
          refine ⟨ks[a], ?_⟩
          rw [← e, ← List.getElem_zip (h := by rw [List.length_zip]; omega)]
          exact List.getElem_mem _
        exact ⟨k, (List.of_mem_zip hz).1, (List.forall₂_iff_zip.1 h).2 hz⟩
      refine valuesOk_iff.2 ⟨hv.ne, ?_, ?_⟩
      · intro hm
        obtain ⟨k', hk', e⟩ := List.mem_map.1 hm
        obtain ⟨hk', hl⟩ := List.mem_filter.1 hk'
        obtain ⟨k, hk, hr⟩ := back k' hk'
        exact hv.free (List.mem_map.2 ⟨k, List.mem_filter.2 ⟨hk, hr.leaf ▸ hl⟩, hr.name ▸ e⟩)
      · rw [valuesOkL_iff]
        intro k' hk'
        obtain ⟨k, hk, hr⟩ := back k' hk'
        rcases valuesOkL_iff.1 hv.kids k hk with g | g
        · exact .inl (hr.leaf.trans g)
        · refine .inr (ih k k' n ?_ hr g)
          have := List.sizeOf_lt_of_mem hk
          simp only [Item.mk.sizeOf_spec] at hi
          omega

theorem namedValues_reordered {s s' : St} (hs : s'.declTerms = s.declTerms) {D D' : List Part} (h : List.Forall₂ PartReordered D D')
    (hv : NamedValues s D) : NamedValues s' D' := by
  have htv : writtenTvn s' = writtenTvn s := by funext n; unfold writtenTvn; rw [hs]
  induction h with
  | nil => intro d hd; cases hd
  | @cons d0 _ _ _ hp _ ih =>
    intro d hd
    rcases List.mem_cons.1 hd with rfl | hd
    · have hv := hv _ List.mem_cons_self
      rw [List.all_eq_true] at hv ⊢
      rw [htv]
      intro j hj
      obtain ⟨a, ha, e⟩ := List.getElem_of_mem hj
      have hl := hp.items.length_eq
      have hz : (d0.items[a], j) ∈ d0.items.zip d.items := by
        rw [← e, ← List.getElem_zip (h := by rw [List.length_zip]; omega)]
        exact List.getElem_mem _
      exact valuesOk_reordered _ _ _ _ (Nat.le_refl _) ((List.forall₂_iff_zip.1 hp.items).2 hz) (hv _ (List.getElem_mem _))
    · exact ih (fun d hd => hv d (List.mem_cons_of_mem _ hd)) d hd

/-- The outline that is read back. -/
def declaredBack (decls : List Str) (is : List Item) (ds : List Part) : List Part :=
  ⟨py!"Root", [], declItems decls ++ is.map (Item.norm [])⟩ :: ds.map Part.norm

theorem declared_reordered {decls : List Str} {is : List Item} {ds : List Part} (hw : writable (⟨py!"Root", [], is⟩ :: ds) = true) :
    List.Forall₂ PartReordered (⟨py!"Root", [], declItems decls ++ is⟩ :: ds) (declaredBack decls is ds) := by
  have h := norm_reordered hw
  rw [List.map_cons] at h
  cases h with
  | cons h1 h2 =>
    refine .cons ⟨rfl, rfl, ?_⟩ h2
    refine List.rel_append ?_ h1.items
    rw [List.forall₂_same]
    exact fun k hk => reordered_leaf (declItems_leaf k hk)

theorem declared_entries {decls : List Str} {is : List Item} {ds : List Part} (hw : writable (⟨py!"Root", [], is⟩ :: ds) = true) :
    ∀ d ∈ (⟨py!"Root", [], declItems decls ++ is⟩ :: ds : List Part), PartEntries d := by
  intro d hd
  rcases List.mem_cons.1 hd with rfl | hd
  · have h := (writable_part hw _ List.mem_cons_self).entries
    refine ⟨h.1, fun i hi => ?_⟩
    rcases List.mem_append.1 hi with hi | hi
    · obtain ⟨v, -, rfl⟩ := List.mem_map.1 hi
      exact ⟨show '.' ∉ py!"declare" by decide, show lower (py!"declare") = py!"declare" by decide, List.nodup_nil, rfl⟩
    · exact h.2 i hi
  · exact (writable_part hw d (List.mem_cons_of_mem _ hd)).entries

theorem declared_csv {s : St} (w : WF True s) {decls : List Str} {is : List Item} {ds : List Part}
    (hD : Shows s (⟨py!"Root", [], declItems decls ++ is⟩ :: ds)) (hw : writable (⟨py!"Root", [], is⟩ :: ds) = true)
    (hv : NamedValues s (⟨py!"Root", [], declItems decls ++ is⟩ :: ds)) :
    docCsv s = .ok (asCsv (declRows decls ++ (⟨py!"Root", [], is⟩ :: ds : List Part).flatMap partRows)) := by
  obtain ⟨rows, h1, h2⟩ := docRows_shows w hv hD (declared_entries hw)
  unfold docCsv
  rw [h1]
  show (cellRows rows >>= _) = _
  rw [h2, List.flatMap_cons, List.flatMap_cons, partRows_root, partRows_root, List.flatMap_append, itemRows_decl, List.append_assoc]
  rfl

/-- **C50** (`Declare` rows). A document whose outline begins with `Declare` terms is written as CSV text. If the declare files, read on
their own, are quiet, then reading the text with the same files gives the same outline, up to the order of children, and the declarations
of the files; if the document had these declarations, the new document writes the same text again.

Missing for the full claim: declare files that are not quiet (below), and outlines that are not writable. -/
theorem C50_declared_partial {s : St} (h : Reach Op.noAddChild s) {decls : List Str} {is : List Item} {ds : List Part}
    (hD : Shows s (⟨py!"Root", [], declItems decls ++ is⟩ :: ds)) (hw : writable (⟨py!"Root", [], is⟩ :: ds) = true)
    (hv : NamedValues s (⟨py!"Root", [], declItems decls ++ is⟩ :: ds)) {env : Env} {files : Files} {fuel : Nat} {path : Str} {s1 : St}
    (h1 : parseRows files (fuel + 1) path (declRows decls) (newDoc env) = .ok () s1) (hq : Quiet s1 decls) :
    ∃ text s' D', docCsv s = .ok text ∧ parseRows files (fuel + 1) path (readCsv text) (newDoc env) = .ok () s' ∧ Shows s' D' ∧
      List.Forall₂ PartReordered (⟨py!"Root", [], declItems decls ++ is⟩ :: ds) D' ∧ s'.declTerms = s1.declTerms ∧
      (s.declTerms = s1.declTerms → docCsv s' = .ok text) := by
  have w : WF True s := h.wf fun _ op ha => ha
  obtain ⟨s', e1, e2, e3⟩ := declared_parse h1 hq hw
  refine ⟨_, s', declaredBack decls is ds, declared_csv w hD hw hv, by rw [C07_roundtrip]; exact e1, e2, declared_reordered hw, e3, ?_⟩
  intro hs
  have w' : WF True s' := by
    have hr : Reach Op.noAddChild (after (parseRows files (fuel + 1) path (declRows decls ++ (⟨py!"Root", [], is⟩ :: ds : List Part).flatMap partRows))
        (newDoc env)) := Reach.step (.parse files (fuel + 1) path _) (.new env _) trivial trivial
    unfold after at hr
    rw [e1] at hr
    exact hr.wf fun _ op ha => ha
  have hv' := namedValues_reordered (s' := s') (e3.trans hs.symm) (declared_reordered hw) hv
  have := declared_csv w' e2 (writable_norm hw) hv'
  rw [this]
  have hr := rows_norm hw
  show _ = Except.ok (asCsv _)
  rw [← hr]
  rfl

/-! ## A declare file -/

/-- A declare file that gives the value of `Table` the name `Name`. -/
def quietRows : List (List Str) :=
  [[py!"Section", py!"DeclaredTerms", py!"TermValueName", py!"ChildPropertyType"], [py!"DeclareTerm", py!"Root.Table", py!"Name", []],
   [py!"DeclareTerm", py!"Table.Column", py!"Name", py!"sequence"]]

def quietFiles : Files := ⟨fun t => if t = py!"d.csv" then some quietRows else none, fun _ n => some n⟩

def quietStart : St := after (parseRows quietFiles 3 (py!"m.csv") (declRows [py!"d.csv"])) exDoc

def quietDocRows : List (List Str) :=
  [[py!"Declare", py!"d.csv"], [py!"Title", py!"T"], [py!"Section", py!"Schema", py!"DataType"], [py!"Table", py!"t"],
   [py!"Table.Column", py!"c", py!"int"]]

def quietDoc : St := after (parseRows quietFiles 3 (py!"m.csv") quietDocRows) exDoc

def quietItems : List Item := [.mk (py!"title") (some (py!"T")) []]
def quietParts : List Part :=
  [⟨py!"Schema", [py!"DataType"], [.mk (py!"table") (some (py!"t")) [.mk (py!"column") (some (py!"c")) [.mk (py!"datatype") (some (py!"int")) []]]]⟩]

theorem quietStart_ok : parseRows quietFiles 3 (py!"m.csv") (declRows [py!"d.csv"]) exDoc = .ok () quietStart := ok_after (by decide +kernel)

theorem quietStart_quiet : Quiet quietStart [py!"d.csv"] where
  outline := showsB_sound (by decide +kernel)
  only := by decide +kernel
  below := by decide +kernel
  current := by decide +kernel
  rootKey := by decide +kernel
  last := by decide +kernel
  lastName := by decide +kernel
  synonyms := by decide +kernel
  valueNames := by decide +kernel
  valueName := by decide +kernel
  valueNameOf := by decide +kernel
  parents := by decide +kernel

theorem quietDoc_reach : Reach Op.noAddChild quietDoc :=
  Reach.step (.parse quietFiles 3 (py!"m.csv") quietDocRows) (.new exEnv _) trivial trivial

/-- The theorem applies to a document with a declared value name. -/
example : (∃ text s' D', docCsv quietDoc = .ok text ∧ parseRows quietFiles 3 (py!"m.csv") (readCsv text) (newDoc exEnv) = .ok () s' ∧ Shows s' D' ∧
      List.Forall₂ PartReordered (⟨py!"Root", [], declItems [py!"d.csv"] ++ quietItems⟩ :: quietParts) D' ∧ s'.declTerms = quietStart.declTerms ∧
      (quietDoc.declTerms = quietStart.declTerms → docCsv s' = .ok text)) ∧
    quietDoc.declTerms = quietStart.declTerms ∧ writtenTvn quietDoc (py!"root.table") = py!"Name" ∧
    docCsv quietDoc = .ok (py!"Declare,d.csv\r\nTitle,T\r\n\"\"\r\nSection,Schema,DataType\r\nTable,t,\r\nTable.Column,c,int\r\n") :=
  ⟨C50_declared_partial quietDoc_reach (showsB_sound (by decide +kernel)) (by decide +kernel) (by unfold NamedValues; decide +kernel) quietStart_ok
    quietStart_quiet, by decide +kernel, by decide +kernel, by decide +kernel⟩

end Metatab
