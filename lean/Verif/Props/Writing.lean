import Verif.Model.Write
import Verif.Props.RoundTrip
import Verif.Props.UpdateName
/-! # C54, C55: writing files -/
namespace Metatab
open Py _root_.Spec

/-- The last component of the path is some name followed by this extension. Empty components and `.` at the end do not count. -/
def _root_.Spec.EndsIn (q ext : Str) : Prop :=
  ∃ base before after, base ≠ [] ∧ splitOn '/' q = before ++ (base ++ ext) :: after ∧ ∀ c ∈ after, c = [] ∨ c = py!"."

theorem pathName_iff {q n : Str} (h1 : n ≠ []) (h2 : n ≠ py!".") :
    pathName q = n ↔ ∃ before after, splitOn '/' q = before ++ n :: after ∧ ∀ c ∈ after, c = [] ∨ c = py!"." := by
  have hlast : ∀ l : List Str, l.getLastD [] = n ↔ ∃ ys, l = ys ++ [n] := by
    intro l
    rcases List.eq_nil_or_concat l with rfl | ⟨ys, a, rfl⟩
    · simp [Ne.symm h1]
    · simp
  unfold pathName
  rw [hlast]
  constructor
  · rintro ⟨ys, h⟩
    obtain ⟨l1, l2, e, -, h⟩ := List.filter_eq_append_iff.1 h
    obtain ⟨m1, m2, rfl, -, -, h⟩ := List.filter_eq_cons_iff.1 h
    refine ⟨l1 ++ m1, m2, by rw [e]; simp, fun c hc => ?_⟩
    have := List.filter_eq_nil_iff.1 h c hc
    simpa [or_iff_not_imp_left] using this
  · rintro ⟨b, a, e, h⟩
    refine ⟨b.filter fun c => c ≠ [] ∧ c ≠ ['.'], ?_⟩
    have hn : a.filter (fun c => decide (c ≠ [] ∧ c ≠ ['.'])) = [] :=
      List.filter_eq_nil_iff.2 fun c hc => by rcases h c hc with rfl | rfl <;> simp
    rw [e, List.filter_append, List.filter_cons_of_pos (by simp [h1, h2]), hn]

theorem endsIn_iff {q e : Str} : EndsIn q ('.' :: e) ↔ ∃ base, base ≠ [] ∧ pathName q = base ++ '.' :: e := by
  constructor
  · rintro ⟨base, b, a, h1, h2, h3⟩
    exact ⟨base, h1, (pathName_iff (by simp) (by rcases base with _ | ⟨c, _ | _⟩ <;> simp_all)).2 ⟨b, a, h2, h3⟩⟩
  · rintro ⟨base, h1, h2⟩
    obtain ⟨b, a, h3, h4⟩ := (pathName_iff (by simp) (by rcases base with _ | ⟨c, _ | _⟩ <;> simp_all)).1 h2
    exact ⟨base, b, a, h1, h3, h4⟩

theorem takeWhile_append_stop {p : Char → Bool} {a b : Str} {c : Char} (h : ∀ x ∈ a, p x = true) (hc : p c = false) :
    (a ++ c :: b).takeWhile p = a ∧ (a ++ c :: b).dropWhile p = c :: b := by
  constructor
  · rw [List.takeWhile_append_of_pos h, List.takeWhile_cons_of_neg (by simp [hc])]; simp
  · rw [List.dropWhile_append_of_pos h, List.dropWhile_cons_of_neg (by simp [hc])]

theorem lastDot_append {b e : Str} (he : '.' ∉ e) : lastDot (b ++ '.' :: e) = some (b, '.' :: e) := by
  unfold lastDot
  rw [if_pos (by simp)]
  have h := takeWhile_append_stop (p := fun c => decide (c ≠ '.')) (a := e.reverse) (b := b.reverse) (c := '.')
    (fun x hx => by simpa using fun hh => he (by rw [← hh]; simpa using hx)) (by simp)
  have hr : (b ++ '.' :: e).reverse = e.reverse ++ '.' :: b.reverse := by simp
  rw [hr, h.1, h.2]
  simp

theorem exists_lastDot {n : Str} (h : '.' ∈ n) : ∃ b e, n = b ++ '.' :: e ∧ '.' ∉ e := by
  induction n with
  | nil => cases h
  | cons c n ih =>
    by_cases hn : '.' ∈ n
    · obtain ⟨b, e, h1, h2⟩ := ih hn
      exact ⟨c :: b, e, by rw [h1]; rfl, h2⟩
    · rcases List.mem_cons.1 h with hc | hc
      · exact ⟨[], n, by rw [← hc]; rfl, hn⟩
      · exact absurd hc hn

theorem suffix_iff {q e : Str} (he : '.' ∉ e) (hne : e ≠ []) : suffix q = '.' :: e ↔ EndsIn q ('.' :: e) := by
  rw [endsIn_iff]
  unfold suffix
  by_cases hd : '.' ∈ pathName q
  · obtain ⟨b, e', h1, h2⟩ := exists_lastDot hd
    rw [h1, lastDot_append h2]
    simp only
    constructor
    · split
      · next h => intro hh; exact ⟨b, h.1, by rw [hh]⟩
      · intro hh; cases hh
    · rintro ⟨base, hb, hh⟩
      have := lastDot_append (b := base) he
      rw [← hh, lastDot_append h2] at this
      simp only [Option.some.injEq, Prod.mk.injEq] at this
      rw [if_pos ⟨by rw [this.1]; exact hb, by rw [this.2]; simpa using hne⟩, this.2]
  · have : lastDot (pathName q) = none := by unfold lastDot; rw [if_neg hd]
    rw [this]
    simp only
    constructor
    · intro hh; cases hh
    · rintro ⟨base, hb, hh⟩
      exact absurd (by rw [hh]; simp) hd

theorem suffix_csv (q : Str) : suffix q = py!".csv" ↔ EndsIn q (py!".csv") := suffix_iff (by decide) (by decide)
theorem suffix_txt (q : Str) : suffix q = py!".txt" ↔ EndsIn q (py!".txt") := suffix_iff (by decide) (by decide)

/-- The two outcomes of writing: an exception and no effect on any file, or the text of the document as it was before the call. -/
theorem writeAs_cases (ext : Str) (text : St → Except Err Str) (D : Disk) (ref : Option Ref) (path : Option Str) (s : St) :
    (∃ e s', writeAs ext text D ref path s = (.err e s', [])) ∨
    ∃ q content s', writePath D ref path = .ok q ∧ suffix q = ext ∧ text s = .ok content ∧ cleanse s = .ok () s' ∧ D.canOpen q = true ∧
      writeAs ext text D ref path s = (.ok q s', [.truncate q, .put q content]) := by
  unfold writeAs
  cases hp : writePath D ref path with
  | error e => exact .inl ⟨e, s, rfl⟩
  | ok q =>
    simp only
    by_cases hs : suffix q = ext
    · rw [if_neg (by simpa using hs)]
      cases ht : text s with
      | error e => exact .inl ⟨e, s, rfl⟩
      | ok content =>
        simp only
        unfold writeContent
        cases hc : cleanse s with
        | err e s' => exact .inl ⟨e, s', rfl⟩
        | ok u s' =>
          simp only
          cases ho : D.canOpen q with
          | true => exact .inr ⟨q, content, s', rfl, hs, rfl, rfl, ho, by simp⟩
          | false => exact .inl ⟨.osError, s', by simp⟩
    · rw [if_pos (by simpa using hs)]; exact .inl ⟨_, s, rfl⟩

/-- The path names a file: parsing it gives that path again. -/
def Plain (D : Disk) (q : Str) : Prop := q ≠ [] ∧ (D.parse q).isFile = true ∧ (D.parse q).fspath = some q

theorem Plain.writePath {D : Disk} {q : Str} (h : Plain D q) (ref : Option Ref) : writePath D ref (some q) = .ok q := by
  unfold Metatab.writePath
  simp only [ne_eq, h.1, not_false_eq_true, if_true, h.2.1, Bool.not_true, Bool.false_eq_true, if_false, h.2.2]

theorem writeDoc_cases {D : Disk} {ref : Option Ref} {path : Option Str} {q : Str} (hq : writePath D ref path = .ok q) (hp : Plain D q) (s : St) :
    (∃ e s', writeDoc D ref path s = (.err e s', [])) ∨
    ∃ content s', (EndsIn q (py!".csv") ∧ docCsv s = .ok content ∨ EndsIn q (py!".txt") ∧ docText s = .ok content) ∧ cleanse s = .ok () s' ∧
      writeDoc D ref path s = (.ok () s', [.truncate q, .put q content]) := by
  unfold writeDoc
  rw [hq]
  simp only
  by_cases h1 : suffix q = py!".txt"
  · rw [if_pos h1]
    rcases writeAs_cases (py!".txt") docText D ref (some q) s with ⟨e, s', h⟩ | ⟨q', c, s', g1, g2, g3, g4, g5, g6⟩
    · exact .inl ⟨e, s', by unfold writeLines; rw [h]; rfl⟩
    · rw [hp.writePath ref] at g1
      cases g1
      exact .inr ⟨c, s', .inr ⟨(suffix_txt q).1 h1, g3⟩, g4, by unfold writeLines; rw [g6]; rfl⟩
  · rw [if_neg h1]
    by_cases h2 : suffix q = py!".csv"
    · rw [if_pos h2]
      rcases writeAs_cases (py!".csv") docCsv D ref (some q) s with ⟨e, s', h⟩ | ⟨q', c, s', g1, g2, g3, g4, g5, g6⟩
      · exact .inl ⟨e, s', by unfold writeCsv; rw [h]; rfl⟩
      · rw [hp.writePath ref] at g1
        cases g1
        exact .inr ⟨c, s', .inl ⟨(suffix_csv q).1 h2, g3⟩, g4, by unfold writeCsv; rw [g6]; rfl⟩
    · rw [if_neg h2]; exact .inl ⟨_, s, rfl⟩

/-- **C54.** Whatever happens, `write` touches no file but the one it is to write: a call that raises has touched no file at all, and one
that returns has left the serialisation of the document, as it was when the call was made, in that file: CSV for `.csv`, Lines for
`.txt`. If it is cut short, the file is as before, or empty, or holds the whole text. -/
theorem C54_write {D : Disk} {ref : Option Ref} {path : Option Str} {q : Str} (hq : writePath D ref path = .ok q) (hp : Plain D q) (s : St) :
    (∀ e s', (writeDoc D ref path s).1 = .err e s' → (writeDoc D ref path s).2 = []) ∧
    (∀ s', (writeDoc D ref path s).1 = .ok () s' → ∃ content,
      (EndsIn q (py!".csv") ∧ docCsv s = .ok content ∨ EndsIn q (py!".txt") ∧ docText s = .ok content) ∧
      (applySteps D.files (writeDoc D ref path s).2 q = some content ∧
        ∀ l, l <+: (writeDoc D ref path s).2 → applySteps D.files l q ∈ [D.files q, some [], some content])) ∧
    (∀ l, l <+: (writeDoc D ref path s).2 → ∀ p, p ≠ q → applySteps D.files l p = D.files p) := by
  rcases writeDoc_cases hq hp s with ⟨e, s', h⟩ | ⟨c, s', h1, h2, h3⟩
  · rw [h]
    refine ⟨fun _ _ _ => rfl, fun s2 hh => (by cases hh), fun l hl p _ => ?_⟩
    rw [List.prefix_nil.1 hl]; rfl
  · rw [h3]
    have hpre : ∀ l, l <+: [FsStep.truncate q, FsStep.put q c] → l = [] ∨ l = [.truncate q] ∨ l = [.truncate q, .put q c] := by
      intro l hl
      rcases l with _ | ⟨a, _ | ⟨b, l⟩⟩
      · exact .inl rfl
      · right; left
        obtain ⟨t, ht⟩ := hl
        simp only [List.cons_append, List.cons.injEq] at ht
        rw [ht.1]
      · right; right
        obtain ⟨t, ht⟩ := hl
        simp only [List.cons_append, List.cons.injEq, List.append_eq_nil_iff] at ht
        rw [ht.1, ht.2.1, ht.2.2.1]
    refine ⟨fun e s2 hh => (by cases hh), fun s2 _ => ⟨c, h1, ?_, fun l hl => ?_⟩, fun l hl p hne => ?_⟩
    · simp [applySteps, FsStep.apply]
    · rcases hpre l hl with rfl | rfl | rfl <;> simp [applySteps, FsStep.apply]
    · rcases hpre l hl with rfl | rfl | rfl <;> simp [applySteps, FsStep.apply, hne]

/-- **C54.** `write` succeeds when the extension is known, the document can be serialised and cleaned and the file can be opened. -/
theorem C54_succeeds {D : Disk} {ref : Option Ref} {path : Option Str} {q : Str} (hq : writePath D ref path = .ok q) (hp : Plain D q) {s s' : St}
    {content : Str} (ho : D.canOpen q = true) (hc : cleanse s = .ok () s')
    (ht : EndsIn q (py!".csv") ∧ docCsv s = .ok content ∨ EndsIn q (py!".txt") ∧ docText s = .ok content) :
    (writeDoc D ref path s).1 = .ok () s' := by
  unfold writeDoc
  rw [hq]
  simp only
  rcases ht with ⟨h1, h2⟩ | ⟨h1, h2⟩
  · have hs := (suffix_csv q).2 h1
    rw [if_neg (by rw [hs]; decide), if_pos hs]
    unfold writeCsv writeAs
    rw [hp.writePath ref]
    simp only
    rw [if_neg (by simpa using hs), h2]
    simp only
    unfold writeContent
    rw [hc]
    simp only [ho, if_true]
    rfl
  · have hs := (suffix_txt q).2 h1
    rw [if_pos hs]
    unfold writeLines writeAs
    rw [hp.writePath ref]
    simp only
    rw [if_neg (by simpa using hs), h2]
    simp only
    unfold writeContent
    rw [hc]
    simp only [ho, if_true]
    rfl

/-- **C54.** With any other extension `write` raises `FormatError`, having changed neither a file nor the document. -/
theorem C54_format {D : Disk} {ref : Option Ref} {path : Option Str} {q : Str} (hq : writePath D ref path = .ok q)
    (h1 : ¬ EndsIn q (py!".csv")) (h2 : ¬ EndsIn q (py!".txt")) (s : St) : writeDoc D ref path s = (.err .formatError s, []) := by
  unfold writeDoc
  rw [hq]
  simp only
  rw [if_neg (fun h => h2 ((suffix_txt q).1 h)), if_neg (fun h => h1 ((suffix_csv q).1 h))]

/-- **C54.** `write_csv` to a file that is not `.csv`, and `write_lines` to one that is not `.txt`, raise `MetatabError`, having changed
neither a file nor the document. -/
theorem C54_mismatch {D : Disk} {ref : Option Ref} {path : Option Str} {q : Str} (hq : writePath D ref path = .ok q) (s : St) :
    (¬ EndsIn q (py!".csv") → writeCsv D ref path s = (.err .metatabError s, [])) ∧
    (¬ EndsIn q (py!".txt") → writeLines D ref path s = (.err .metatabError s, [])) := by
  constructor
  · intro h
    unfold writeCsv writeAs
    rw [hq]
    simp only
    rw [if_pos (fun hh => h ((suffix_csv q).1 hh))]
  · intro h
    unfold writeLines writeAs
    rw [hq]
    simp only
    rw [if_pos (fun hh => h ((suffix_txt q).1 hh))]

/-- **C54.** Writing to a URL that is no file raises `MetatabError`, having changed nothing. -/
theorem C54_url {D : Disk} {p : Str} (hp : p ≠ []) (h : (D.parse p).isFile = false) (ref : Option Ref) (s : St) :
    writeDoc D ref (some p) s = (.err .metatabError s, []) ∧ writeCsv D ref (some p) s = (.err .metatabError s, []) ∧
      writeLines D ref (some p) s = (.err .metatabError s, []) := by
  have hw : writePath D ref (some p) = .error .metatabError := by
    unfold writePath
    simp [hp, h]
  refine ⟨?_, ?_, ?_⟩
  · unfold writeDoc; rw [hw]
  · unfold writeCsv writeAs; rw [hw]
  · unfold writeLines writeAs; rw [hw]

/-- **C54** (what is in the file). If cleaning does not change the document, the file holds what the document serialises to afterwards.
Otherwise it holds the document as it was before it was given its identifier and name, see the witness. -/
theorem C54_current_partial {D : Disk} {ref : Option Ref} {path : Option Str} {q : Str} (hq : writePath D ref path = .ok q) (hp : Plain D q) {s s' : St}
    (hc : cleanse s = .ok () s) (h : (writeDoc D ref path s).1 = .ok () s') :
    ∃ content, applySteps D.files (writeDoc D ref path s).2 q = some content ∧
      (EndsIn q (py!".csv") ∧ docCsv s' = .ok content ∨ EndsIn q (py!".txt") ∧ docText s' = .ok content) := by
  obtain ⟨c, h1, h2, -⟩ := (C54_write hq hp s).2.1 s' h
  rcases writeDoc_cases hq hp s with ⟨e, s2, h3⟩ | ⟨c2, s2, h3, h4, h5⟩
  · rw [h3] at h; cases h
  · rw [h5] at h
    cases h
    rw [hc] at h4
    cases h4
    exact ⟨c, h2, h1⟩

/-- **C54** (reading back). The file written as CSV, read as a new document, has the outline of the document written. -/
theorem C54_read_back_partial {D : Disk} {ref : Option Ref} {path : Option Str} {q : Str} (hq : writePath D ref path = .ok q) (hp : Plain D q)
    (he : EndsIn q (py!".csv")) {s s' : St} (hr : Reach Op.noAddChild s) {O : List Part} (hO : Shows s O) (hw : writable O = true) (hv : NamedValues s O)
    (h : (writeDoc D ref path s).1 = .ok () s') {env : Env} {classes : Dict Cls} (hcl : PlainClasses classes) (files : Files) (fuel : Nat) :
    ∃ text s2 O2, applySteps D.files (writeDoc D ref path s).2 q = some text ∧
      parseRows files (fuel + 1) q (readCsv text) (newDoc env classes) = .ok () s2 ∧ Shows s2 O2 ∧ List.Forall₂ PartReordered O O2 := by
  obtain ⟨c, h1, h2, -⟩ := (C54_write hq hp s).2.1 s' h
  obtain ⟨text, s2, O2, g1, g2, g3, g4⟩ := C50_roundtrip_partial hr hO hw hv hcl files fuel q (env := env)
  refine ⟨text, s2, O2, ?_, g2, g3, g4⟩
  rw [h2]
  rcases h1 with ⟨-, h1⟩ | ⟨h1, -⟩
  · rw [g1] at h1; cases h1; rfl
  · exfalso
    have a := (suffix_csv q).2 he
    have b := (suffix_txt q).2 h1
    rw [a] at b
    exact absurd b (by decide)

/-! ## C55 -/

/-- **C55.** If the file exists, `new_metatab_file` reports `False` and touches nothing. -/
theorem C55_exists {D : Disk} {files : Files} {fuel : Nat} {env : Env} {dir mtFile template : Str} (h : D.files mtFile ≠ none) :
    newMetatabFile D files fuel env dir mtFile template = (.ok false, []) := by
  unfold newMetatabFile
  simp only
  rw [if_pos (by rw [Option.isSome_iff_ne_none]; exact h)]

/-- The document that reading the template at a path gives. -/
def _root_.Spec.ReadsTemplate (D : Disk) (files : Files) (fuel : Nat) (env : Env) (p : Str) (s : St) : Prop :=
  ∃ text, D.files p = some text ∧ parseRows files fuel p (readCsv text) (newDoc env) = .ok () s

theorem template_iff {D : Disk} {files : Files} {fuel : Nat} {env : Env} {dir t : Str} {s : St} :
    makeMetatabFile D files fuel env dir t = .ok () s ↔ ReadsTemplate D files fuel env (dir ++ py!"/" ++ t ++ py!".csv") s := by
  have e : templatePath dir t = dir ++ py!"/" ++ t ++ py!".csv" := by unfold templatePath; simp
  unfold makeMetatabFile ReadsTemplate
  rw [e]
  cases D.files (dir ++ py!"/" ++ t ++ py!".csv") with
  | none => simp
  | some text => simp

/-- **C55.** If the file does not exist and its name is a plain path, then `new_metatab_file` either raises, having touched no file, or reports
`True`, having made that file and touched no other; the file holds the text of the document read from the template.

Missing for the full claim: names that the URL library reads as another path, see the witnesses. -/
theorem C55_new_partial {D : Disk} {files : Files} {fuel : Nat} {env : Env} {dir mtFile template : Str} (h : D.files mtFile = none) (hp : Plain D mtFile) :
    (∃ e, newMetatabFile D files fuel env dir mtFile template = (.error e, [])) ∨
    ∃ l s content, newMetatabFile D files fuel env dir mtFile template = (.ok true, l) ∧
      ReadsTemplate D files fuel env (dir ++ py!"/" ++ (if template = [] then py!"metatab" else template) ++ py!".csv") s ∧ docCsv s = .ok content ∧
      EndsIn mtFile (py!".csv") ∧ ∀ p, applySteps D.files l p = if p = mtFile then some content else D.files p := by
  unfold newMetatabFile
  simp only
  rw [if_neg (by rw [h]; simp)]
  have ht : (if template ≠ [] then template else py!"metatab") = if template = [] then py!"metatab" else template := by
    by_cases e : template = [] <;> simp [e]
  rw [ht]
  cases hm : makeMetatabFile D files fuel env dir (if template = [] then py!"metatab" else template) with
  | err e s => exact .inl ⟨e, rfl⟩
  | ok u s =>
    simp only
    rcases writeAs_cases (py!".csv") docCsv D (some (D.parse (templatePath dir (if template = [] then py!"metatab" else template)))) (some mtFile) s with
      ⟨e, s', g⟩ | ⟨q, c, s', g1, g2, g3, g4, g5, g6⟩
    · refine .inl ⟨e, ?_⟩
      unfold writeCsv
      rw [g]
    · rw [hp.writePath] at g1
      cases g1
      refine .inr ⟨[.truncate mtFile, .put mtFile c], s, c, ?_, template_iff.1 hm, g3, (suffix_csv _).1 g2, fun p => ?_⟩
      · unfold writeCsv; rw [g6]
      · simp only [applySteps, List.foldl, FsStep.apply]
        split <;> rfl

/-- **C55.** It raises only for a reason: a template that can be read and written as a document, a name ending in `.csv` and a file that can be
opened are enough. -/
theorem C55_succeeds {D : Disk} {files : Files} {fuel : Nat} {env : Env} {dir mtFile template : Str} (h : D.files mtFile = none)
    (hp : Plain D mtFile) (he : EndsIn mtFile (py!".csv")) (ho : D.canOpen mtFile = true) {s s' : St} {content : Str}
    (hs : ReadsTemplate D files fuel env (dir ++ py!"/" ++ (if template = [] then py!"metatab" else template) ++ py!".csv") s)
    (ht : docCsv s = .ok content) (hc : cleanse s = .ok () s') :
    newMetatabFile D files fuel env dir mtFile template = (.ok true, [.truncate mtFile, .put mtFile content]) := by
  have hs := template_iff.2 hs
  unfold newMetatabFile
  simp only
  rw [if_neg (by rw [h]; simp)]
  have e : (if template ≠ [] then template else py!"metatab") = if template = [] then py!"metatab" else template := by
    by_cases e : template = [] <;> simp [e]
  rw [e, hs]
  simp only
  unfold writeCsv writeAs
  rw [hp.writePath]
  simp only
  rw [if_neg (by simpa using (suffix_csv _).2 he), ht]
  simp only
  unfold writeContent
  rw [hc]
  simp only [ho, if_true]

/-! ## Examples -/

/-- A file system with the given files, and a URL library that knows `file:` and `http:`. -/
def exDisk (files : Dict Str) : Disk where
  parse := fun p => if (py!"file:").isPrefixOf p then ⟨true, some (p.drop 5)⟩ else if (py!"http:").isPrefixOf p then ⟨false, none⟩ else ⟨true, some p⟩
  files := fun p => files.get? p
  canOpen := fun _ => true

/-- A document with a title only: writing it gives it an identifier, which the file does not have. -/
def wrDoc : St := exParse [[py!"Title", py!"x"]]

/-- A document that has its name and identifier. -/
def wrClean : St := exParse [[py!"Title", py!"x"], [py!"Identifier", py!"i"], [py!"Name", py!"i"]]

theorem wr_title : docCsv wrDoc = .ok (py!"Title,x\r\n") := by decide +kernel

example : Plain (exDisk []) (py!"a/m.csv") ∧ writePath (exDisk []) none (some (py!"a/m.csv")) = .ok (py!"a/m.csv") ∧
    writePath (exDisk []) none (some (py!"file:/t/m.csv")) = .ok (py!"/t/m.csv") ∧
    writePath (exDisk []) (some ⟨true, some (py!"own.txt")⟩) none = .ok (py!"own.txt") := by
  refine ⟨⟨by decide, by decide, by decide⟩, by decide, by decide, by decide⟩
example : EndsIn (py!"a/b.c/m.x.csv") (py!".csv") ∧ ¬ EndsIn (py!"a.csv/m") (py!".csv") ∧ ¬ EndsIn (py!"a/.csv") (py!".csv") ∧
    ¬ EndsIn (py!"a/m.CSV") (py!".csv") := by
  simp only [← suffix_csv]; decide
example : (writeDoc (exDisk []) none (some (py!"m.csv")) wrDoc).2 = [.truncate (py!"m.csv"), .put (py!"m.csv") (py!"Title,x\r\n")] := by decide +kernel
example : (writeDoc (exDisk []) none (some (py!"m.txt")) wrDoc).2 = [.truncate (py!"m.txt"), .put (py!"m.txt") (py!"Title: x")] := by decide +kernel
example : cleanse wrClean = .ok () wrClean := by
  unfold cleanse
  have h1 : identifierTerm wrClean = .ok (some 2) := by decide +kernel
  have h2 := C46_kept h1 (by decide +kernel)
  simp only [bind_run, h2]
  unfold tryMetatab updateName
  simp only [bind_run, h2]
  have h3 : nameTerm false wrClean = .ok (some 3) wrClean := by
    unfold nameTerm
    have : findFirst wrClean (py!"Root.Name") = .ok (some 3) := by decide +kernel
    simp only [bind_run, lift_run, this]; rfl
  simp only [h3]
  have h4 : docGetValue wrClean (py!"Root.Identifier") = .ok (.str (py!"i")) := by decide +kernel
  have h5 : docGetValue wrClean (py!"Root.Dataset") = .ok .none := by decide +kernel
  have h6 : (wrClean.heap 3).value = .str (py!"i") := by decide +kernel
  unfold setName
  simp only [bind_run, obj_run, lift_run, h4, h5, h6]
  rfl

/-- After writing, the document serialises to something else than the file holds: it has been given an identifier. -/
theorem C54_stale_witness : ∃ s', (writeDoc (exDisk []) none (some (py!"m.csv")) wrDoc).1 = .ok () s' ∧
    applySteps (exDisk []).files (writeDoc (exDisk []) none (some (py!"m.csv")) wrDoc).2 (py!"m.csv") = some (py!"Title,x\r\n") ∧
    docCsv s' = .ok (py!"Title,x\r\nIdentifier,uuid-1\r\n") := by
  obtain ⟨s', h⟩ : ∃ s', cleanse wrDoc = .ok () s' := by
    cases h : cleanse wrDoc with
    | ok u s' => exact ⟨s', rfl⟩
    | err e s' =>
      have : (Res.val (cleanse wrDoc)) = .ok () := by decide +kernel
      rw [h] at this; cases this
  have hw := C54_succeeds (D := exDisk []) (ref := none) (path := some (py!"m.csv")) (q := py!"m.csv") (by decide) ⟨by decide, by decide, by decide⟩
    (by decide) h (.inl ⟨(suffix_csv _).1 (by decide), wr_title⟩)
  refine ⟨s', hw, by decide +kernel, ?_⟩
  have e : s' = after cleanse wrDoc := by unfold after; rw [h]
  rw [e]
  decide +kernel

/-- Cut short after opening the file, the call has lost what the file held. -/
theorem C54_crash_witness : let D := exDisk [(py!"m.csv", py!"old")]
    ∃ l, l <+: (writeDoc D none (some (py!"m.csv")) wrDoc).2 ∧ D.files (py!"m.csv") = some (py!"old") ∧ applySteps D.files l (py!"m.csv") = some [] :=
  ⟨[.truncate (py!"m.csv")], ⟨[.put (py!"m.csv") (py!"Title,x\r\n")], by decide +kernel⟩, by decide, by decide⟩

/-- `new_metatab_file` looks for a file under the name given, but writes to the path in the URL: a file that exists is overwritten. -/
theorem C55_url_witness : let D := exDisk [(py!"/t/m.csv", py!"old"), (py!"tpl/metatab.csv", py!"Title,x\r\n")]
    newMetatabFile D noFiles 3 exEnv (py!"tpl") (py!"file:/t/m.csv") [] =
      (.ok true, [.truncate (py!"/t/m.csv"), .put (py!"/t/m.csv") (py!"Title,x\r\n")]) ∧ D.files (py!"/t/m.csv") = some (py!"old") := by decide +kernel

/-- With an empty name the template itself is overwritten. -/
theorem C55_empty_witness : let D := exDisk [(py!"tpl/metatab.csv", py!"Title,x\r\n")]
    newMetatabFile D noFiles 3 exEnv (py!"tpl") [] [] =
      (.ok true, [.truncate (py!"tpl/metatab.csv"), .put (py!"tpl/metatab.csv") (py!"Title,x\r\n")]) := by decide +kernel

example : let D := exDisk [(py!"tpl/metatab.csv", py!"Title,x\r\n")]
    D.files (py!"n.csv") = none ∧ Plain D (py!"n.csv") ∧ newMetatabFile D noFiles 3 exEnv (py!"tpl") (py!"n.csv") [] =
      (.ok true, [.truncate (py!"n.csv"), .put (py!"n.csv") (py!"Title,x\r\n")]) ∧
    newMetatabFile D noFiles 3 exEnv (py!"tpl") (py!"n.txt") [] = (.error .metatabError, []) :=
  ⟨by decide, ⟨by decide, by decide, by decide⟩, by decide +kernel, by decide +kernel⟩

end Metatab
