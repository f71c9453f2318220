import Verif.Props.OutlineFind
/-! # C98: searching documents that were built and edited -/
namespace Metatab
open Py _root_.Spec

mutual
theorem at_addKid : ∀ (i : Item) {t : Nat} {s : St}, t < s.next → AT (addKid t i) (fun _ _ => True) s
  | .mk n v ks, t, s, ht => by
    rw [addKid]
    exact at_bind (at_newChild ht) fun c s' _ _ h => at_addKids ks h.2
theorem at_addKids : ∀ (ks : List Item) {t : Nat} {s : St}, t < s.next → AT (addKids t ks) (fun _ _ => True) s
  | [], t, s, _ => by rw [addKids]; exact at_pure trivial
  | k :: ks, t, s, ht => by
    rw [addKids]
    exact at_bind (at_addKid k ht) fun _ s' _ e _ => at_addKids ks (e.lt ht)
end

theorem at_addItem {i : Item} (hg : i.given) {x : Nat} {s : St} (hx : HasSec s x) : AT (addItem x i) (fun _ _ => True) s := by
  obtain ⟨n, v, ks⟩ := i
  rw [Item.given] at hg
  rw [addItem]
  exact at_bind (at_newTerm hx (.inl hg.1.nodot)) fun t s' w' _ h => at_addKids ks (w'.termsLt t h).1

theorem at_addItems : ∀ {is : List Item}, givenL is → ∀ {x : Nat} {s : St}, HasSec s x → AT (addItems x is) (fun _ _ => True) s
  | [], _, x, s, _ => by rw [addItems]; exact at_pure trivial
  | i :: is, hg, x, s, hx => by
    rw [givenL] at hg
    rw [addItems]
    exact at_bind (at_addItem hg.1 hx) fun _ s' _ e _ => at_addItems hg.2 (e.inDoc x hx)

theorem at_edit {s : St} (h : Editable s) {D : List Part} (hD : Shows s D) {e : Edit} (hok : e.ok D) (he : ∀ i, e ≠ .dropPart i) :
    AT e.run (fun _ _ => True) s := by
  have w := h.wf
  have hsec : ∀ {i : Nat} {kv : Str × Nat}, s.sections[i]? = some kv → HasSec s kv.2 := fun hi =>
    ⟨_, Dict.get?_of_mem w.secsNodup (List.mem_of_getElem? hi)⟩
  cases e with
  | value i j p v =>
    obtain ⟨k, hk⟩ := Option.isSome_iff_exists.1 hok
    obtain ⟨kv, d, t, h1, -, -, -, h5, -, h7⟩ := docAt_shows w h.terms hD hk
    unfold Edit.run
    refine at_get ?_
    rw [h5]
    exact at_mono (at_setValue h7.lt h7.notSec) fun _ _ _ _ _ => trivial
  | child i j p it =>
    obtain ⟨k, hk⟩ := Option.isSome_iff_exists.1 hok.1
    obtain ⟨kv, d, t, h1, -, -, -, h5, -, h7⟩ := docAt_shows w h.terms hD hk
    unfold Edit.run
    refine at_get ?_
    rw [h5]
    exact at_addKid it h7.lt
  | dropChild i j p m =>
    obtain ⟨n, v, ks, hk, -, -⟩ := hok
    obtain ⟨kv, d, t, h1, -, -, -, h5, -, h7⟩ := docAt_shows w h.terms hD hk
    unfold Edit.run
    refine at_get ?_
    rw [h5]
    dsimp only
    split
    · next c hc =>
      refine at_mono (at_removeChild h7.lt fun hm x hx _ => ?_) fun _ _ _ _ _ => trivial
      obtain ⟨-, -, -, -, g⟩ := showsItem_mk.1 h7.shows
      obtain ⟨⟨n', v', ks'⟩, -, hs⟩ := forall₂_right (showsItems_forall₂ g) c hm
      rw [(showsItem_mk.1 hs).2.2.1] at hx
      cases hx
      exact hsec h1
    · exact at_raise
  | term i it =>
    unfold Edit.run
    refine at_get ?_
    split
    · next kv hkv => exact at_addItem hok.2 (hsec hkv)
    · exact at_raise
  | dropTerm i j =>
    obtain ⟨-, n, v, ks, hk, -⟩ := hok
    obtain ⟨kv, d, t, h1, -, -, -, h5, -, h7⟩ := docAt_shows w h.terms hD hk
    unfold Edit.run
    refine at_get ?_
    rw [h5]
    refine at_mono (at_removeTerm h7.lt fun x hx _ => ?_) fun _ _ _ _ _ => trivial
    rw [(showsItem_mk.1 h7.shows).2.2.1] at hx
    cases hx
    exact hsec h1
  | part d =>
    obtain ⟨hg, -, hn⟩ := hok
    refine at_bind (at_newSection ⟨hg.stripped, hg.name, ?_⟩ ?_) fun x s' _ _ hx => at_addItems hg.items hx
    · cases hk : s.sections.get? (lower d.name) with
      | none => rfl
      | some x =>
        obtain ⟨i, hi⟩ := List.getElem?_of_mem (Dict.mem_of_get? hk)
        obtain ⟨e, he, h1⟩ := forall₂_get? hD.parts hi
        exact absurd h1.key.symm (hn e (List.mem_of_getElem? he))
    · intro a ha
      rw [hg.cols a ha]
      intro e
      exact hg.free (List.mem_map.2 ⟨a, ha, e⟩)
  | dropPart i => exact absurd rfl (he i)
  | order names => exact at_sortSections
  | sort i names =>
    unfold Edit.run
    refine at_get ?_
    split
    · next kv hkv => exact at_sortByTerm (w.secsLt kv (List.mem_of_getElem? hkv)).1
    · exact at_raise
  | setChild i j p n v =>
    obtain ⟨m, u, ks, hk, -⟩ := hok
    obtain ⟨kv, d, t, h1, -, -, -, h5, -, h7⟩ := docAt_shows w h.terms hD hk
    unfold Edit.run
    refine at_get ?_
    rw [h5]
    exact at_bind (at_getOrNewChild h7.lt) fun _ _ _ _ _ => at_pure trivial

theorem inv_edit {s s' : St} (h : Editable s) {D : List Part} (hD : Shows s D) {e : Edit} (hok : e.ok D) (w : Inv s) (hr : e.run s = .ok () s') : Inv s' := by
  by_cases he : ∃ i, e = .dropPart i
  · obtain ⟨i, rfl⟩ := he
    obtain ⟨d, hd⟩ : ∃ d, D[i]? = some d := ⟨_, List.getElem?_eq_getElem hok⟩
    obtain ⟨kv, h1, h2⟩ := forall₂_get? hD.parts.flip hd
    obtain ⟨s1, e1, w1⟩ := inv_delSection w (name := kv.1) (by rw [h2.key, lower_lower])
    unfold Edit.run at hr
    dsimp only at hr
    rw [bind_run, get_run] at hr
    dsimp only at hr
    rw [h1] at hr
    dsimp only at hr
    rw [e1] at hr
    cases hr
    exact w1
  · have hw := at_edit h hD hok (fun i e => he ⟨i, e⟩) w
    unfold wp at hw
    rw [hr] at hw
    exact hw.1

theorem inv_edits : ∀ (es : List Edit) {s : St}, Editable s → ∀ {D : List Part}, Shows s D → okEdits D es → Inv s → ∀ {s' : St},
    runEdits es s = .ok () s' → Inv s'
  | [], s, _, _, _, _, w, s', hr => by cases hr; exact w
  | e :: es, s, h, D, hD, hok, w, s', hr => by
    obtain ⟨s1, e1, h1, h2, -⟩ := edit_step h hD hok.1
    refine inv_edits es h2 h1 hok.2 (inv_edit h hD hok.1 w e1) (s' := s') ?_
    have : (do e.run; runEdits es : M Unit) s = _ := hr
    rw [bind_run, e1] at this
    exact this

/-- **C98** (edits). After any number of edits of a new document, a search finds exactly the items of the edited outline that are asked
for. -/
theorem C98_edited {env : Env} {classes : Dict Cls} (hcl : PlainClasses classes) {es : List Edit} (hok : okEdits blank es) :
    ∃ s, runEdits es (newDoc env classes) = .ok () s ∧ Indexed s ∧
      ∀ A B, PlainPart A → PlainPart B → A ≠ py!"*" → ∀ value secs, ∃ l m, find s (dotJoin A B) value secs = .ok l ∧ m.Perm l ∧
        List.Forall₂ (FoundAs s) (outlineFind (applyEdits blank es) (A, B) value secs) m := by
  obtain ⟨s, e1, h1, h2, -⟩ := C97_edits es (editable_new (env := env) hcl) (shows_new env classes) hok
  have w := inv_edits es (editable_new (env := env) hcl) (shows_new env classes) hok (newDoc_inv env classes) e1
  exact ⟨s, e1, indexed_inv w, fun A B hA hB hst value secs => find_outline h2.reach h1 (indexed_inv w) hA hB hst value secs⟩

/-! ## Documents that were read -/

theorem noSectionRow_kind {row : List Str} (hk : kind row ≠ .special) : NoSectionRow row := by
  intro hn p r hc hr
  cases row with
  | nil => exact absurd rfl hn
  | cons c rest =>
    have hfree : ∀ {l : List Str}, freeColumns l = true → NoSectionColumn l := by
      intro l hl a ha e
      unfold freeColumns at hl
      rw [Bool.not_eq_true'] at hl
      have : (l.map fun c => lower (strip c)).contains (py!"section") = true :=
        List.contains_iff_mem.2 (List.mem_map.2 ⟨a, ha, e⟩)
      rw [hl] at this
      cases this
    have hd : (c :: rest).drop 2 = rest.drop 1 := rfl
    rw [hd]
    unfold kind at hk hn
    dsimp only at hk hn
    split at hk
    · next h0 => rw [if_pos h0] at hn; exact absurd rfl hn
    rw [show cellNames c = some (p, r) from hc] at hk
    dsimp only at hk
    split at hk
    · split at hk
      · next h => exact hfree h.2.2
      · exact absurd rfl hk
    split at hk
    · split at hk
      · next h => exact hfree h.2.2
      · exact absurd rfl hk
    split at hk
    · next h =>
      exfalso
      have ho := h.1
      unfold ordinary at ho
      simp only [Bool.and_eq_true, Bool.not_eq_true', decide_eq_true_eq] at ho
      rcases hr with rfl | rfl | hr
      · exact absurd ho.1.2 (by decide)
      · exact absurd ho.1.2 (by decide)
      · exact hr (Option.isNone_iff_eq_none.1 ho.2)
    · exact absurd rfl hk

theorem plainFrom_rows : ∀ {rows : List (List Str)} {known : List Str}, plainFrom known rows = true → ∀ row ∈ rows, kind row ≠ .special
  | [], _, _, row, hm => by cases hm
  | r :: rows, known, h, row, hm => by
    obtain ⟨h1, k, h2⟩ := plainFrom_head h
    rcases List.mem_cons.1 hm with rfl | hm
    · exact h1
    · exact plainFrom_rows h2 row hm

/-- Reading plain rows is an orderly call, whatever other files there are. -/
theorem plain_inv {rows : List (List Str)} (hr : plainFile rows = true) {env : Env} {classes : Dict Cls} (hcl : PlainClasses classes)
    (hrr : classes.get? (py!"root.root") ≠ some .section) (files : Files) (fuel : Nat) (path : Str) {s : St}
    (hs : parseRows files (fuel + 1) path rows (newDoc env classes) = .ok () s) : Inv s := by
  obtain ⟨s1, h1⟩ := plainFile_rows (env := env) hcl hr
  have hp := parse_plain hcl h1 files fuel path
  rw [hs] at hp
  have hp' := parse_plain hcl h1 noFiles fuel path
  rw [← hp] at hp'
  have ho : Orderly (newDoc env classes) (.parse noFiles (fuel + 1) path rows) := by
    refine ⟨⟨fun _ _ => rfl, fun row h => noSectionRow_kind (plainFrom_rows hr row h), fun _ _ h => by cases h⟩, ⟨py!"root", rfl⟩, fun n hn => ?_⟩
    rcases hcl.only n _ hn rfl with h | h
    · exact h
    · rw [h] at hn; exact absurd hn hrr
  have := orderly_inv (OrderlyHistory.step (.parse noFiles (fuel + 1) path rows) (.new env classes) trivial ho)
  have e : after (Op.run (.parse noFiles (fuel + 1) path rows)) (newDoc env classes) = s := by
    show after (parseRows noFiles (fuel + 1) path rows) _ = s
    unfold after
    rw [hp']
  rw [e] at this
  exact this

/-- **C98** (files and edits). A document is written as CSV text and read again, and the document read is edited. A search of the edited
document finds exactly the items of the edited outline that are asked for. -/
theorem C98_loaded_edited {s : St} (h : Reach Op.noAddChild s) {D : List Part} (hD : Shows s D) (hw : writable D = true) (hv : NamedValues s D)
    {env : Env} {classes : Dict Cls} (hcl : PlainClasses classes) (hrr : classes.get? (py!"root.root") ≠ some .section) (files : Files)
    (fuel : Nat) (path : Str) :
    ∃ text s1, docCsv s = .ok text ∧ parseRows files (fuel + 1) path (readCsv text) (newDoc env classes) = .ok () s1 ∧ Shows s1 (D.map Part.norm) ∧
      ∀ es, okEdits (D.map Part.norm) es → ∃ s2, runEdits es s1 = .ok () s2 ∧ Indexed s2 ∧
        ∀ A B, PlainPart A → PlainPart B → A ≠ py!"*" → ∀ value secs, ∃ l m, find s2 (dotJoin A B) value secs = .ok l ∧ m.Perm l ∧
          List.Forall₂ (FoundAs s2) (outlineFind (applyEdits (D.map Part.norm) es) (A, B) value secs) m := by
  have w : WF True s := h.wf fun _ op ha => ha
  obtain ⟨rows, s1, h1, h2, h3, h4, hpt⟩ := roundtrip w hD hw hv hcl files fuel path (env := env)
  obtain ⟨s1', h5, h6, -⟩ := read_editable hw (env := env) hcl files fuel path
  rw [h3] at h5
  cases h5
  refine ⟨asCsv (D.flatMap partRows), s1, ?_, ?_, h4, fun es hok => ?_⟩
  · unfold docCsv
    rw [h1]
    show (cellRows rows >>= _) = _
    rw [h2]
    rfl
  · rw [C07_roundtrip]
    exact h3
  · obtain ⟨s2, e2, g1, g2, g3⟩ := C97_edits es h6 h4 hok
    have w2 := indexed_inv (inv_edits es h6 h4 hok (plain_inv (writable_plain hw) hcl hrr files fuel path h3) e2)
    exact ⟨s2, e2, w2, fun A B hA hB hst value secs => find_outline g2.reach g1 w2 hA hB hst value secs⟩

/-! ## Concrete cases -/

/-- The names in the examples. -/
theorem fe_plain {n : Str} (h : ('.' ∉ n ∧ n ≠ []) ∧ strip n = n) : PlainPart n := ⟨h.1.1, h.1.2, h.2⟩

theorem rt_indexed : Indexed (exParse rtRows) := by
  have hr : plainFile rtRows = true := by decide +kernel
  obtain ⟨s1, h1⟩ := plainFile_rows (env := exEnv) plainClasses_init hr
  have hp := parse_plain plainClasses_init h1 noFiles 2 (py!"doc.csv")
  have e : exParse rtRows = after finishLoad s1 := by
    unfold exParse exDoc
    have : after (parseRows noFiles 3 (py!"doc.csv") rtRows) (newDoc exEnv) = after finishLoad s1 := by
      conv_lhs => unfold after
      rw [hp]
    exact this
  rw [e]
  exact C98_read hr plainClasses_init noFiles 2 (py!"doc.csv") hp

/-- Searching a document that was read: the columns of all tables, in the order of the file. -/
example : ∃ l, find (exParse rtRows) (py!"Table.Column") .fls none = .ok l ∧
    List.Forall₂ (FoundAs (exParse rtRows)) [.mk (py!"column") (some (py!"c")) [.mk (py!"datatype") (some (py!"int")) [], .mk (py!"note") (some (py!"first")) [],
      .mk (py!"width") (some (py!"3")) []], .mk (py!"column") (some (py!"d")) [.mk (py!"note") (some (py!"last")) []]] l := by
  have := C98_nested (exParse_reach _ trivial) rt_shows rt_indexed (A := py!"Table") (B := py!"Column") (fe_plain (by decide)) (fe_plain (by decide))
    (by decide) (by decide) .fls none
  have e : outlineFind rtOutline (py!"Table", py!"Column") .fls none = [.mk (py!"column") (some (py!"c")) [.mk (py!"datatype") (some (py!"int")) [],
    .mk (py!"note") (some (py!"first")) [], .mk (py!"width") (some (py!"3")) []], .mk (py!"column") (some (py!"d")) [.mk (py!"note") (some (py!"last")) []]] := by rfl
  rw [e] at this
  exact this

/-- After the edits of the example of C97 a search for `Email.Kind` finds the grandchild with its new value, and one for `Root.Note`, which was
removed, finds nothing. -/
example : ∃ s, runEdits edSteps (newDoc exEnv) = .ok () s ∧
    (∃ t, find s (py!"email.Kind") (.str (py!"work")) (some [py!"CONTACTS"]) = .ok [t] ∧ FoundAs s (.mk (py!"kind") (some (py!"work")) []) t) ∧
    find s (py!"Root.Note") .fls none = .ok [] := by
  obtain ⟨s, e, -, hf⟩ := C98_edited (env := exEnv) plainClasses_init ed_ok
  refine ⟨s, e, ?_, ?_⟩
  · obtain ⟨l, m, h1, h2, h3⟩ := hf (py!"email") (py!"Kind") (fe_plain (by decide)) (fe_plain (by decide)) (by decide) (.str (py!"work")) (some [py!"CONTACTS"])
    have e : outlineFind (applyEdits blank edSteps) (py!"email", py!"Kind") (.str (py!"work")) (some [py!"CONTACTS"]) =
      [.mk (py!"kind") (some (py!"work")) []] := by rfl
    rw [e] at h3
    cases h3 with
    | cons a b =>
      cases b
      rw [← List.singleton_perm.1 h2] at h1
      exact ⟨_, h1, a⟩
  · obtain ⟨l, m, h1, h2, h3⟩ := hf (py!"Root") (py!"Note") (fe_plain (by decide)) (fe_plain (by decide)) (by decide) .fls none
    have e : outlineFind (applyEdits blank edSteps) (py!"Root", py!"Note") .fls none = [] := by rfl
    rw [e] at h3
    cases h3
    rw [List.nil_perm.1 h2] at h1
    exact h1

/-- A name `*.Section` also finds the sections, which are not items of the outline. -/
theorem C98_star_witness : find (exParse rtRows) (py!"*.Section") .fls none = .ok [2] ∧
    outlineFind rtOutline (py!"*", py!"Section") .fls none = [] ∧ ((exParse rtRows).heap 2).cls = .section := by
  decide +kernel

/-- A row of a term may have a cell `Section`; only rows that name columns may not. -/
example : ∀ row ∈ [[py!"Title", py!"T", py!"Section"], [py!"Section", py!"S", py!"Note"]], NoSectionRow row := fun row h =>
  noSectionRow_kind (by revert row; decide)

end Metatab
