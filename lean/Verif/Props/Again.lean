import Verif.Lemmas.Again
import Verif.Props.Reading
/-! # C86: reading several files into one document -/
namespace Metatab
open Py _root_.Spec

/-- Read files, given by path and rows, one after another into the document: `doc.load_terms(TermParser(f, doc=doc))` for each of them,
metatab/doc.py:464-512. -/
def loadFiles (files : Files) (fuel : Nat) : List (Str × List (List Str)) → M Unit
  | [] => pure ()
  | f :: fs => do
    parseRows files fuel f.1 f.2
    loadFiles files fuel fs

/-- What the reference reader makes of several files. Every file starts in the root section, with no names but `Root`; the sections and
terms of the files before it are there. -/
inductive _root_.Spec.ReadsFiles (files : Str → Option (List (List Str))) (n : Nat) : List (Str × List (List Str)) → Reader → Reader → Prop
  | nil {a : Reader} : ReadsFiles files n [] a a
  | file {path : Str} {rows : List (List Str)} {fs : List (Str × List (List Str))} {a b c : Reader}
      (first : Reads files n (dirname path) path (py!"root") rows a.again b) (more : ReadsFiles files n fs b c) :
      ReadsFiles files n ((path, rows) :: fs) a c

theorem loadFiles_run {files : Files} {n fuel : Nat} (hf : n ≤ fuel) {fs : List (Str × List (List Str))} {a c : Reader}
    (h : ReadsFiles files.rows n fs a c) : ∀ {s : St} {ids : List Nat}, Resumable s a ids →
    ∃ s' ids', loadFiles files (fuel + 1) fs s = .ok () s' ∧ Resumable s' c ids' := by
  induction h with
  | nil => intro s ids hr; exact ⟨s, ids, rfl, hr⟩
  | file h1 _ ih =>
    intro s ids hr
    obtain ⟨s1, ids1, e1, hr1⟩ := hr.load h1 hf
    obtain ⟨s2, ids2, e2, hr2⟩ := ih hr1
    refine ⟨s2, ids2, ?_, hr2⟩
    rw [loadFiles]
    simp only [bind_run, e1]
    exact e2

/-- **C86.** Any number of files of ordinary rows and include rows can be read one after another into a document, and the document then is
the one the reference reader describes: a file adds its terms after those of the files before it, sections it names again are continued with
the columns they had, and no row of it can refer to a term of an earlier file. -/
theorem C86_reads {env : Env} {classes : Dict Cls} (hcl : PlainClasses classes) {files : Files} {n : Nat} {fs : List (Str × List (List Str))}
    {b : Reader} (h : ReadsFiles files.rows n fs Reader.start b) {fuel : Nat} (hf : n < fuel) :
    ∃ s ids, loadFiles files fuel fs (newDoc env classes) = .ok () s ∧ Holds s b ids := by
  obtain ⟨f, rfl⟩ : ∃ f, fuel = f + 1 := ⟨fuel - 1, by omega⟩
  obtain ⟨s, ids, e, hr⟩ := loadFiles_run (fuel := f) (by omega) h (ready_new (env := env) hcl)
  exact ⟨s, ids, e, hr.holds⟩

/-- **C86, errors.** A file that cannot be read to its end is reported with the same error as in a new document: the files before it make
no difference. -/
theorem C86_stops {env : Env} {classes : Dict Cls} (hcl : PlainClasses classes) {files : Files} {n : Nat} {fs : List (Str × List (List Str))}
    {b : Reader} (h : ReadsFiles files.rows n fs Reader.start b) {fuel : Nat} (hf : n ≤ fuel) {path : Str} {rows : List (List Str)} {w : Stop}
    (hw : Stops files.rows files.decl fuel (dirname path) path (py!"root") rows b.again w) :
    ∃ s, loadFiles files (fuel + 1) (fs ++ [(path, rows)]) (newDoc env classes) = .err (stopErr w) s := by
  obtain ⟨s, ids, e, hr⟩ := loadFiles_run hf h (ready_new (env := env) hcl)
  obtain ⟨s', e'⟩ := hr.stops hw
  refine ⟨s', ?_⟩
  have happ : ∀ (fs : List (Str × List (List Str))) (s0 : St), loadFiles files (fuel + 1) fs s0 = .ok () s →
      loadFiles files (fuel + 1) (fs ++ [(path, rows)]) s0 = .err (stopErr w) s' := by
    intro fs
    induction fs with
    | nil =>
      intro s0 h0
      cases h0
      rw [List.nil_append, loadFiles]
      simp only [bind_run, e']
    | cons f fs ih =>
      intro s0 h0
      rw [loadFiles] at h0
      rw [List.cons_append, loadFiles]
      simp only [bind_run] at h0 ⊢
      cases h1 : parseRows files (fuel + 1) f.1 f.2 s0 with
      | err e s1 => rw [h1] at h0; cases h0
      | ok u s1 => rw [h1] at h0; exact ih s1 h0
  exact happ fs _ e

/-! ## Cutting a file into pieces -/

/-- The file starts with a section row. -/
def _root_.Spec.startsSection : List (List Str) → Bool
  | [] => false
  | row :: _ => match kind row with | .section _ _ => true | _ => false

/-- Ordinary rows are read as the reader reads them. -/
theorem reads_plain {files : Str → Option (List (List Str))} {n : Nat} {dir ref : Str} : ∀ {rows : List (List Str)} {known : List Str} {here : Str} {a : Reader},
    plainFrom known rows = true → (∀ k ∈ known, (Dict.get? a.known k).isSome) → Reads files n dir ref here rows a (rows.foldl Reader.row a)
  | [], _, _, _, _, _ => .nil
  | row :: rows, known, here, a, h, hk => by
    have hkeep : ∀ {b : Reader} {r : Str} {k : Nat} {vs : List Str}, (Reader.addArgs r k vs b).known = b.known := by
      intro b r k vs
      induction vs generalizing b k with
      | nil => rfl
      | cons v vs ih => rw [Reader.addArgs, ih]; split <;> rfl
    unfold plainFrom at h
    rw [List.foldl_cons]
    cases hkd : kind row with
    | special => rw [hkd] at h; cases h
    | named p r =>
      rw [hkd] at h
      simp only [Bool.and_eq_true, List.contains_eq_mem, decide_eq_true_eq] at h
      refine .row (by rw [hkd]; simp) (by rintro p' r' e; rw [hkd] at e; cases e; exact hk _ h.1) (reads_plain h.2 ?_)
      intro k hm
      unfold Reader.row
      rw [hkd]; dsimp only
      rw [hkeep]
      simp only [Dict.get?_cons]
      split
      · rfl
      · next hne => exact hk k ((List.mem_cons.1 hm).resolve_left (Ne.symm hne))
    | noise =>
      rw [hkd] at h
      refine .row (by rw [hkd]; simp) (by intro p r e; rw [hkd] at e; cases e) (reads_plain h ?_)
      unfold Reader.row; rw [hkd]; exact hk
    | header m cols =>
      rw [hkd] at h
      refine .row (by rw [hkd]; simp) (by intro p r e; rw [hkd] at e; cases e) (reads_plain h ?_)
      unfold Reader.row; rw [hkd]; exact hk
    | elided x =>
      rw [hkd] at h
      refine .row (by rw [hkd]; simp) (by intro p r e; rw [hkd] at e; cases e) (reads_plain h ?_)
      unfold Reader.row; rw [hkd]; dsimp only
      rw [hkeep]; exact hk
    | «section» m cols =>
      rw [hkd] at h
      refine .row (by rw [hkd]; simp) (by intro p r e; rw [hkd] at e; cases e) (reads_plain h ?_)
      unfold Reader.row; rw [hkd]; dsimp only
      split <;> exact hk

/-- Two readers agree on everything but names outside `K`. -/
structure Follows (K : List Str) (a b : Reader) : Prop where
  nodes : b.nodes = a.nodes
  secs : b.secs = a.secs
  cur : b.cur = a.cur
  cols : b.cols = a.cols
  vname : b.vname = a.vname
  last : b.last = a.last
  known : ∀ k ∈ K, Dict.get? b.known k = Dict.get? a.known k

theorem Follows.addArgs {K : List Str} {r : Str} : ∀ {vs : List Str} {k : Nat} {a b : Reader}, Follows K a b →
    Follows K (Reader.addArgs r k vs a) (Reader.addArgs r k vs b)
  | [], _, _, _, h => h
  | v :: vs, k, a, b, h => by
    rw [Reader.addArgs, Reader.addArgs]
    split
    · exact Follows.addArgs h
    · refine Follows.addArgs ⟨?_, h.secs, h.cur, h.cols, h.vname, h.last, h.known⟩
      simp only
      rw [h.nodes, h.cur, h.cols, h.vname, h.last]

theorem follows_rows : ∀ {rows : List (List Str)} {K : List Str} {a b : Reader}, Follows K a b → plainFrom K rows = true →
    ∃ K', Follows K' (rows.foldl Reader.row a) (rows.foldl Reader.row b)
  | [], K, _, _, h, _ => ⟨K, h⟩
  | row :: rows, K, a, b, h, hp => by
    unfold plainFrom at hp
    rw [List.foldl_cons, List.foldl_cons]
    cases hk : kind row with
    | special => rw [hk] at hp; cases hp
    | noise =>
      rw [hk] at hp
      refine follows_rows (K := K) ?_ hp
      unfold Reader.row; rw [hk]; exact h
    | header n cols =>
      rw [hk] at hp
      refine follows_rows (K := K) ?_ hp
      unfold Reader.row; rw [hk]; exact ⟨h.nodes, h.secs, h.cur, rfl, rfl, h.last, h.known⟩
    | «section» n cols =>
      rw [hk] at hp
      refine follows_rows (K := K) ?_ hp
      unfold Reader.row; rw [hk]; dsimp only
      rw [h.secs]
      split
      · exact ⟨h.nodes, rfl, rfl, rfl, rfl, rfl, h.known⟩
      · exact ⟨h.nodes, rfl, rfl, rfl, rfl, rfl, h.known⟩
    | elided r =>
      rw [hk] at hp
      refine follows_rows (K := K) ?_ hp
      unfold Reader.row; rw [hk]; dsimp only
      refine Follows.addArgs ⟨?_, h.secs, h.cur, h.cols, h.vname, h.last, h.known⟩
      simp only; rw [h.nodes, h.cur, h.vname, h.last]
    | named p r =>
      rw [hk] at hp
      simp only [Bool.and_eq_true, List.contains_eq_mem, decide_eq_true_eq] at hp
      refine follows_rows (K := r :: K) ?_ hp.2
      unfold Reader.row; rw [hk]; dsimp only
      refine Follows.addArgs ⟨?_, h.secs, h.cur, h.cols, h.vname, ?_, ?_⟩
      · simp only; rw [h.nodes, h.cur, h.vname, h.known p hp.1]
      · simp only [h.nodes]
      · intro k hm
        simp only [Dict.get?_cons, h.nodes]
        split
        · rfl
        · next hne => exact h.known k ((List.mem_cons.1 hm).resolve_left (Ne.symm hne))

/-- The name `Root` stays known. -/
theorem root_known : ∀ {rows : List (List Str)} {a : Reader}, Dict.get? a.known (py!"root") = some none →
    Dict.get? (rows.foldl Reader.row a).known (py!"root") = some none
  | [], _, h => h
  | row :: rows, a, h => by
    rw [List.foldl_cons]
    refine root_known ?_
    have hkeep : ∀ {b : Reader} {r : Str} {k : Nat} {vs : List Str}, (Reader.addArgs r k vs b).known = b.known := by
      intro b r k vs
      induction vs generalizing b k with
      | nil => rfl
      | cons v vs ih => rw [Reader.addArgs, ih]; split <;> rfl
    unfold Reader.row
    cases hk : kind row with
    | «section» n cols => dsimp only; split <;> exact h
    | named p r =>
      dsimp only
      rw [hkeep]
      simp only [Dict.get?_cons]
      have hne : r ≠ py!"root" := ordinary_root (kind_ordinary (.inr ⟨p, hk⟩))
      rw [if_neg hne]
      exact h
    | elided r => dsimp only; rw [hkeep]; exact h
    | _ => exact h

/-- The reader at the end of several files. -/
def _root_.Spec.readPieces (a : Reader) (pieces : List (List (List Str))) : Reader :=
  pieces.foldl (fun a rows => rows.foldl Reader.row a.again) a

theorem pieces_join : ∀ {pieces : List (List (List Str))} {a b : Reader}, (∀ rows ∈ pieces, plainFile rows = true ∧ startsSection rows = true) →
    b.nodes = a.nodes → b.secs = a.secs → Dict.get? b.known (py!"root") = some none →
    (pieces.flatten.foldl Reader.row b).nodes = (readPieces a pieces).nodes ∧ (pieces.flatten.foldl Reader.row b).secs = (readPieces a pieces).secs
  | [], _, _, _, hn, hs, _ => ⟨hn, hs⟩
  | rows :: pieces, a, b, h, hn, hs, hk => by
    obtain ⟨h1, h2⟩ := h rows List.mem_cons_self
    obtain ⟨row, more, rfl⟩ : ∃ row more, rows = row :: more := by
      cases rows with
      | nil => cases h2
      | cons row more => exact ⟨row, more, rfl⟩
    obtain ⟨n, cols, hsec⟩ : ∃ n cols, kind row = .section n cols := by
      unfold startsSection at h2
      dsimp only at h2
      cases hkd : kind row <;> rw [hkd] at h2 <;> first | exact ⟨_, _, rfl⟩ | cases h2
    have hpl : plainFrom [py!"root"] more = true := by
      unfold plainFile plainFrom at h1; rw [hsec] at h1; exact h1
    have hf : Follows [py!"root"] (a.again.row row) (b.row row) := by
      unfold Reader.row
      rw [hsec]; dsimp only
      rw [hs, show a.again.secs = a.secs from rfl]
      have hknown : ∀ k ∈ [py!"root"], Dict.get? b.known k = Dict.get? a.again.known k := by
        intro k hm; rw [List.mem_singleton.1 hm, hk]; rfl
      split
      · exact ⟨hn, rfl, rfl, rfl, rfl, rfl, hknown⟩
      · exact ⟨hn, rfl, rfl, rfl, rfl, rfl, hknown⟩
    obtain ⟨K, hK⟩ := follows_rows hf hpl
    rw [List.flatten_cons, List.foldl_append, List.foldl_cons]
    refine pieces_join (a := more.foldl Reader.row (a.again.row row)) (fun rows hm => h rows (List.mem_cons_of_mem _ hm)) hK.nodes hK.secs ?_
    rw [← List.foldl_cons]
    exact root_known hk

theorem plainFrom_join : ∀ {a b : List (List Str)} {known : List Str}, py!"root" ∈ known → plainFrom known a = true → plainFile b = true →
    plainFrom known (a ++ b) = true
  | [], b, known, hr, _, hb => plainFrom_mono (fun k hk => by rw [List.mem_singleton.1 hk]; exact hr) hb
  | row :: a, b, known, hr, ha, hb => by
    rw [List.cons_append]
    unfold plainFrom at ha ⊢
    cases hk : kind row <;> rw [hk] at ha <;> simp only [Bool.and_eq_true] at ha ⊢
    case special => cases ha
    case named => exact ⟨ha.1, plainFrom_join (List.mem_cons_of_mem _ hr) ha.2 hb⟩
    all_goals exact plainFrom_join hr ha hb

theorem plainFile_flatten : ∀ {pieces : List (List (List Str))}, (∀ rows ∈ pieces, plainFile rows = true) → plainFile pieces.flatten = true
  | [], _ => rfl
  | rows :: pieces, h => by
    rw [List.flatten_cons]
    exact plainFrom_join List.mem_cons_self (h rows List.mem_cons_self) (plainFile_flatten fun r hr => h r (List.mem_cons_of_mem _ hr))

theorem readsFiles_plain {files : Str → Option (List (List Str))} {n : Nat} : ∀ {fs : List (Str × List (List Str))} {a : Reader},
    (∀ f ∈ fs, plainFile f.2 = true) → ReadsFiles files n fs a (readPieces a (fs.map (·.2)))
  | [], _, _ => .nil
  | f :: fs, a, h => by
    refine .file (reads_plain (h f List.mem_cons_self) ?_) (readsFiles_plain fun g hg => h g (List.mem_cons_of_mem _ hg))
    intro k hk; rw [List.mem_singleton.1 hk]; rfl

/-- **C86, cutting.** A file of ordinary rows may be cut before section rows into any number of pieces that are files of ordinary rows
themselves: reading the pieces one after another, whatever their paths, gives the document that reading the whole file gives. -/
theorem C86_pieces {env : Env} {classes : Dict Cls} (hcl : PlainClasses classes) {p0 : Str} {first : List (List Str)}
    {fs : List (Str × List (List Str))} (h0 : plainFile first = true) (h : ∀ f ∈ fs, plainFile f.2 = true ∧ startsSection f.2 = true)
    (files : Files) (fuel : Nat) (path : Str) :
    ∃ s s', loadFiles files (fuel + 1) ((p0, first) :: fs) (newDoc env classes) = .ok () s ∧
      parseRows files (fuel + 1) path (first ++ (fs.map (·.2)).flatten) (newDoc env classes) = .ok () s' ∧ SameDoc s s' := by
  have hall : ∀ f ∈ (p0, first) :: fs, plainFile f.2 = true := by
    intro f hf
    rcases List.mem_cons.1 hf with rfl | hf
    · exact h0
    · exact (h f hf).1
  have hpieces : ∀ rows ∈ fs.map (·.2), plainFile rows = true ∧ startsSection rows = true := by
    intro rows hm
    obtain ⟨f, hf, rfl⟩ := List.mem_map.1 hm
    exact h f hf
  obtain ⟨s, ids, e, hr⟩ := loadFiles_run (Nat.zero_le fuel) (readsFiles_plain (files := files.rows) hall) (ready_new (env := env) hcl)
  have hwhole : plainFile (first ++ (fs.map (·.2)).flatten) = true :=
    plainFrom_join List.mem_cons_self h0 (plainFile_flatten fun rows hm => (hpieces rows hm).1)
  obtain ⟨s', ids', e', hh', hr', -⟩ := plain_holds (env := env) hcl hwhole files fuel path
  refine ⟨s, s', e, e', ?_⟩
  obtain ⟨j1, j2⟩ := pieces_join (a := readAll first) (b := readAll first) hpieces rfl rfl (root_known rfl)
  have e1 : readAll (first ++ (fs.map (·.2)).flatten) = (fs.map (·.2)).flatten.foldl Reader.row (readAll first) := by
    unfold readAll; rw [List.foldl_append]
  exact sameDoc_of_holds hr.holds hh' hr.inv.wf.rootSec hr' (by rw [e1]; exact j1) (by rw [e1]; exact j2) hr.sim.nodesOk

/-! ## Examples -/

def agFirst : List (List Str) := [[py!"Title", py!"T"], [py!"Section", py!"Things", py!"Size"], [py!"Thing", py!"a", py!"1"]]
def agSecond : List (List Str) := [[py!"Section", py!"Other"], [py!"Note", py!"n"]]
def agThird : List (List Str) := [[py!"Section", py!"things"], [py!"Thing", py!"b", py!"2"], [py!"Thing.Note", py!"m"]]

/-- The hypotheses are met by three files, the last of which goes on with a section of the first. -/
example : plainFile agFirst = true ∧ ∀ f ∈ [(py!"b.csv", agSecond), (py!"c.csv", agThird)], plainFile f.2 = true ∧ startsSection f.2 = true := by
  decide +kernel

/-- What they are read as: the columns of the section `Things` are those of the first file. -/
example : let a := readPieces Reader.start [agFirst, agSecond, agThird]
    a.secs.keys = [py!"root", py!"things", py!"other"] ∧
    a.nodes.map (fun n => (n.rt, n.value, n.parent, n.sec)) =
      [(py!"title", .str (py!"T"), none, py!"root"), (py!"thing", .str (py!"a"), none, py!"things"),
       (py!"size", .str (py!"1"), some 1, py!"things"), (py!"note", .str (py!"n"), none, py!"other"),
       (py!"thing", .str (py!"b"), none, py!"things"), (py!"size", .str (py!"2"), some 4, py!"things"),
       (py!"note", .str (py!"m"), some 4, py!"things")] := by decide +kernel

/-- And the code does so. -/
example : let s := after (loadFiles noFiles 5 [(py!"a.csv", agFirst), (py!"b.csv", agSecond), (py!"c.csv", agThird)]) (newDoc exEnv)
    s.sections.keys = [py!"root", py!"things", py!"other"] ∧ (s.terms.map fun t => ((s.heap t).rt, (s.heap t).value)) =
      [(py!"title", .str (py!"T")), (py!"thing", .str (py!"a")), (py!"note", .str (py!"n")), (py!"thing", .str (py!"b"))] := by decide +kernel

/-- Elsewhere a file cannot be cut. Before an elided row: the second piece puts the note below the root instead of the title. -/
theorem C86_elided_witness :
    let s := after (loadFiles noFiles 5 [([], [[py!"Title", py!"T"]]), ([], [[py!".Note", py!"n"]])]) (newDoc exEnv)
    let s' := after (loadFiles noFiles 5 [([], [[py!"Title", py!"T"], [py!".Note", py!"n"]])]) (newDoc exEnv)
    ((s.heap 2).rt = py!"note" ∧ (s.heap 2).parent = some 0) ∧ (s'.heap 2).rt = py!"note" ∧ (s'.heap 2).parent = some 1 := by decide +kernel

/-- Before the child of an earlier term: the second piece is rejected, since its parser does not know the term. -/
theorem C86_parent_witness :
    (loadFiles noFiles 5 [([], [[py!"Title", py!"T"]]), ([], [[py!"Title.Note", py!"n"]])] (newDoc exEnv)).val = .error .parserError ∧
    (loadFiles noFiles 5 [([], [[py!"Title", py!"T"], [py!"Title.Note", py!"n"]])] (newDoc exEnv)).val = .ok () := by decide +kernel

/-- Within a section: the second piece starts in the root section. -/
theorem C86_section_witness :
    let s := after (loadFiles noFiles 5 [([], [[py!"Section", py!"S"], [py!"Title", py!"T"]]), ([], [[py!"Note", py!"n"]])]) (newDoc exEnv)
    (s.heap 3).rt = py!"note" ∧ (s.heap 3).sec = some s.root ∧ s.sections.get? (py!"s") = some 1 := by decide +kernel

/-- One file on the disk. -/
def incAgain : Files := ⟨fun p => if p = py!"/d/b.csv" then some [[py!"Include", py!"b.csv"]] else none, fun _ _ => none⟩

/-- The hypotheses of `C86_stops` are met by a second file that includes itself. -/
example : ReadsFiles incAgain.rows 0 [(py!"/d/a.csv", agFirst)] Reader.start (readPieces Reader.start [agFirst]) ∧
    Stops incAgain.rows incAgain.decl 4 (dirname (py!"/d/b.csv")) (py!"/d/b.csv") (py!"root") [[py!"Include", py!"b.csv"]]
      (readPieces Reader.start [agFirst]).again .broken :=
  ⟨readsFiles_plain (fs := [(py!"/d/a.csv", agFirst)]) (by decide +kernel), .broken (v := py!"b.csv") (by decide +kernel) (by decide +kernel)⟩

end Metatab
