import Verif.Lemmas.WhereFile
import Verif.Props.Slug
import Verif.Lemmas.Examples
import Verif.Props.Noise
/-! # C89: terms know where they were read -/
namespace Metatab
open Py Spec

/-- **C89.** Keeping the list of places changes nothing: the result and the document are those of `parseRows`. -/
theorem C89_same (files : Files) (nm : Naming) (fuel : Nat) (path : Str) (rows : List (List Str)) (s : St) :
    (parseRowsL files nm fuel path rows s).2 = parseRows files fuel path rows s := (parseRowsL_run files nm fuel path rows).run s

/-- Where an object was read: `rows'` are the rows of the file, main file or included. -/
def StandsIn (files : Files) (nm : Naming) (path : Str) (rows : List (List Str)) (b : Built) (o : Obj) : Prop :=
  ∃ rows' row, (b.src = path ∧ b.place.file = nm.main path ∧ rows' = rows ∨ files.rows b.src = some rows' ∧ b.place.file = nm.sub b.src) ∧
    1 ≤ b.place.row ∧ rows'[b.place.row - 1]? = some row ∧ ¬ NoiseRow row ∧ AtCell row b.place o

/-- **C89.** Whatever is read into whatever document, also when an error stops it: every object the parser builds is new and is listed once,
in the order of building. Its row number is that of a row of the file it was read from, which is not blank and not a comment. It is
either the object of that row, with its name and its cells and column 1, or the term of a cell of that row that is not blank, in that column. -/
theorem C89_rows {files : Files} {nm : Naming} {fuel : Nat} {path : Str} {rows : List (List Str)} {s s' : St} {l : List Built} {r : Res Unit}
    (h : parseRowsL files nm fuel path rows s = (l, r)) (hr : r.st = s') :
    (l.Pairwise fun b b' => b.id < b'.id) ∧ (∀ b ∈ l, s.next ≤ b.id ∧ b.id < s'.next) ∧
    ∀ b ∈ l, StandsIn files nm path rows b (s'.heap b.id) := by
  have hP : Steady (StandsIn files nm path rows) := by
    rintro b o o' hs ⟨rows', row, h1, h2, h3, h4, h5⟩
    exact ⟨rows', row, h1, h2, h3, h4, hs.atCell h5⟩
  have noise : ∀ {row}, skipRow row = false → ¬ NoiseRow row := fun {row} hn hx => by rw [(skipRow_iff row).2 hx] at hn; cases hn
  have key : Lists (StandsIn files nm path rows) (parseRowsL files nm fuel path rows) s := by
    unfold parseRowsL
    refine .bind hP (.silent (fx_modify (f := fun s => { s with p := initP s.root }) fun _ => ⟨rfl, rfl⟩) _) fun _ _ _ _ _ => .bind hP (lists_gen hP ?_ ?_) fun _ _ _ _ _ => .silent fx_finishLoad _
    · intro t rows' hf i row b o hi hn h1 h2 h3 h4
      refine ⟨rows', row, .inr ⟨by rw [h2]; exact hf, by rw [h2]; exact h1⟩, by omega, ?_, noise hn, h4⟩
      rw [show b.place.row - 1 = i by omega]; exact hi
    · intro i row b o hi hn h1 h2 h3 h4
      refine ⟨rows, row, .inl ⟨h2, h1, rfl⟩, by omega, ?_, noise hn, h4⟩
      rw [show b.place.row - 1 = i by omega]; exact hi
  refine ⟨?_, ?_, ?_⟩
  · have := key.order; rw [h] at this; exact this
  · have := key.new; rw [h] at this; rw [← hr]; exact this
  · have := key.holds; rw [h] at this; rw [← hr]; exact this

theorem mem_builts {f : Source} : ∀ {is : List Nat} {ps : List (Nat × Nat)} {i id r c : Nat}, is[i]? = some id → ps[i]? = some (r, c) →
    (⟨id, ⟨f.file, r, c⟩, f.ref⟩ : Built) ∈ builts f is ps
  | [], _, _, _, _, _, h, _ => by simp at h
  | _ :: _, [], _, _, _, _, _, h => by simp at h
  | j :: is, (r', c') :: ps, 0, id, r, c, h, h' => by
    cases h; cases h'
    exact List.mem_cons_self
  | j :: is, (r', c') :: ps, i + 1, id, r, c, h, h' =>
    List.mem_cons_of_mem _ (mem_builts (by simpa using h) (by simpa using h'))

/-- **C89.** A file of ordinary rows, read into a new document: the document is the one the reference reader describes, and the i-th of its
terms has the name made of the path of the file, and the row and column at which the file has it. -/
theorem C89_plain_partial {env : Env} {classes : Dict Cls} (hcl : PlainClasses classes) {rows : List (List Str)} (h : plainFile rows = true)
    (files : Files) (nm : Naming) (fuel : Nat) (path : Str) :
    ∃ s ids l, parseRowsL files nm (fuel + 1) path rows (newDoc env classes) = (l, .ok () s) ∧ Holds s (readAll rows) ids ∧
      ids.length = (placesOf rows).length ∧
      ∀ (i id r c : Nat), ids[i]? = some id → (placesOf rows)[i]? = some (r, c) →
        (∃ b ∈ l, b.id = id) ∧ ∀ b ∈ l, b.id = id → b.place = ⟨nm.main path, r, c⟩ := by
  obtain ⟨s', h'⟩ := plainFile_rows (env := env) hcl h
  have i0 := pinv_new (F := True) (env := env) hcl
  have hsub : ∀ t d, Erases (includedL files nm true fuel t d) (included files true fuel t d) := by
    intro t d
    unfold includedL included
    cases files.rows t with
    | none => exact .silent _
    | some rows' => exact genL_run files nm true fuel d [] _ rows'
  obtain ⟨ids, l, ls', a1, a2, a3, a4⟩ := sim_rowsL (files := files) hsub (f := nm.top path) (dir := dirname path) (n := 1)
    (ls := (newDoc env classes).root) i0 (sim_start env classes) h' h
  have run : parseRowsL files nm (fuel + 1) path rows (newDoc env classes) = (l, .ok () (after finishLoad s')) := by
    unfold parseRowsL
    have e0 : ({ newDoc env classes with p := initP (newDoc env classes).root } : St) = newDoc env classes := rfl
    rw [silent_bind (modify_run _ _), e0]
    rw [pbind_run, genL_succ, pbind_run, a2]
    simp only [ppure_run, silent_run, List.append_nil]
    rfl
  rw [List.nil_append] at a4
  obtain ⟨ord, -, -⟩ := C89_rows run rfl
  refine ⟨_, ids, l, run, holds_finish a4.toHolds, a1, fun i id r c hi hp => ?_⟩
  have hm := a3.subset (mem_builts hi hp)
  refine ⟨⟨_, hm, rfl⟩, fun b hb e => ?_⟩
  have : b = ⟨id, ⟨nm.main path, r, c⟩, path⟩ := by
    obtain ⟨i, hi, rfl⟩ := List.mem_iff_getElem.1 hb
    obtain ⟨j, hj, ej⟩ := List.mem_iff_getElem.1 hm
    rw [List.pairwise_iff_getElem] at ord
    have e' : (l[i]).id = (l[j]).id := by rw [e, ej]
    rcases Nat.lt_trichotomy i j with h | h | h
    · exact absurd (ord i j hi hj h) (by rw [e']; exact Nat.lt_irrefl _)
    · subst h; exact ej
    · exact absurd (ord j i hj hi h) (by rw [e']; exact Nat.lt_irrefl _)
  rw [this]

theorem columns_mem : ∀ {vs : List Str} {k c : Nat}, c ∈ columns k vs ↔ k ≤ c ∧ ∃ v, vs[c - k]? = some v ∧ strip v ≠ []
  | [], k, c => by simp [columns]
  | v :: vs, k, c => by
    have ih := columns_mem (vs := vs) (k := k + 1) (c := c)
    unfold columns
    have shift : k + 1 ≤ c → (v :: vs)[c - k]? = vs[c - (k + 1)]? := fun h => by
      rw [show c - k = (c - (k + 1)) + 1 by omega, List.getElem?_cons_succ]
    by_cases hv : strip v = []
    · rw [if_pos hv, ih]
      refine ⟨fun ⟨h1, h2⟩ => ⟨by omega, by rw [shift h1]; exact h2⟩, fun ⟨h1, w, h2, h3⟩ => ?_⟩
      rcases Nat.eq_or_lt_of_le h1 with e | e
      · subst e; rw [Nat.sub_self] at h2; cases h2; exact absurd hv h3
      · exact ⟨e, w, by rw [← shift e]; exact h2, h3⟩
    · rw [if_neg hv, List.mem_cons, ih]
      constructor
      · rintro (rfl | ⟨h1, h2⟩)
        · exact ⟨Nat.le_refl _, v, by rw [Nat.sub_self]; rfl, hv⟩
        · exact ⟨by omega, by rw [shift h1]; exact h2⟩
      · rintro ⟨h1, w, h2, h3⟩
        rcases Nat.eq_or_lt_of_le h1 with e | e
        · exact .inl e.symm
        · exact .inr ⟨e, w, by rw [← shift e]; exact h2, h3⟩

theorem columns_order : ∀ (vs : List Str) (k : Nat), (columns k vs).Pairwise (· < ·)
  | [], _ => .nil
  | v :: vs, k => by
    unfold columns
    split
    · exact columns_order vs _
    · exact List.pairwise_cons.2 ⟨fun c hc => (columns_mem.1 hc).1, columns_order vs _⟩

theorem rowPlaces_nodup (n : Nat) (row : List Str) : (rowPlaces n row).Nodup := by
  have key : ((n, 1) :: (columns 2 (row.drop 2)).map fun c => (n, c)).Nodup := by
    refine List.nodup_cons.2 ⟨?_, ?_⟩
    · intro hm
      obtain ⟨c, hc, e⟩ := List.mem_map.1 hm
      cases e
      have := (columns_mem.1 hc).1
      omega
    · have ho := columns_order (row.drop 2) 2
      unfold List.Nodup
      rw [List.pairwise_map]
      exact ho.imp fun h e => by cases e; exact Nat.lt_irrefl _ h
  unfold rowPlaces
  split
  · exact key
  · exact key
  · exact .nil

theorem rowPlaces_row {n : Nat} {row : List Str} {p : Nat × Nat} (h : p ∈ rowPlaces n row) : p.1 = n := by
  have key : p ∈ ((n, 1) :: (columns 2 (row.drop 2)).map fun c => (n, c)) → p.1 = n := by
    intro h
    rcases List.mem_cons.1 h with rfl | h
    · rfl
    · obtain ⟨c, -, rfl⟩ := List.mem_map.1 h; rfl
  unfold rowPlaces at h
  split at h
  · exact key h
  · exact key h
  · cases h

theorem placesFrom_row : ∀ {rows : List (List Str)} {n : Nat} {p : Nat × Nat}, p ∈ placesFrom n rows → n ≤ p.1
  | [], _, _, h => by cases h
  | row :: rows, n, p, h => by
    rcases List.mem_append.1 h with h | h
    · rw [rowPlaces_row h]; exact Nat.le_refl _
    · have := placesFrom_row h; omega

theorem placesFrom_nodup : ∀ (rows : List (List Str)) (n : Nat), (placesFrom n rows).Nodup
  | [], _ => .nil
  | row :: rows, n => by
    unfold placesFrom
    refine List.nodup_append.2 ⟨rowPlaces_nodup n row, placesFrom_nodup rows _, fun p hp q hq e => ?_⟩
    subst e
    have h1 := rowPlaces_row hp
    have h2 := placesFrom_row hq
    omega

theorem natStr_inj {m n : Nat} (h : natStr m = natStr n) : m = n := by
  have := pyInt_natStr m
  rw [h, pyInt_natStr] at this
  have := Option.some.inj this
  omega

theorem split_at {a b c d : Str} {x : Char} (ha : x ∉ a) (hc : x ∉ c) (h : a ++ x :: b = c ++ x :: d) : a = c ∧ b = d := by
  induction a generalizing c with
  | nil =>
    cases c with
    | nil => cases h; exact ⟨rfl, rfl⟩
    | cons y c => cases h; exact absurd List.mem_cons_self hc
  | cons z a ih =>
    cases c with
    | nil => cases h; exact absurd List.mem_cons_self ha
    | cons y c =>
      obtain ⟨e0, h⟩ := List.cons.inj h
      obtain ⟨e1, e2⟩ := ih (fun hm => ha (List.mem_cons_of_mem _ hm)) (fun hm => hc (List.mem_cons_of_mem _ hm)) h
      exact ⟨by rw [e0, e1], e2⟩

theorem slash_slug (nfkd : Str → Str) (x : Str) : '/' ∉ slugify nfkd x := by
  intro h
  rcases C03_chars nfkd x _ h with e | e | e | e | e <;> revert e <;> decide

theorem basename_plain {name : Str} (hn : '/' ∉ name) : basename name = name := by
  have hall : ∀ x ∈ name.reverse, (decide (x ≠ '/')) = true := fun x hx => by
    have : x ∈ name := List.mem_reverse.1 hx
    simp; rintro rfl; exact hn this
  unfold basename
  have := List.takeWhile_append_of_pos (l₂ := []) hall
  rw [List.append_nil] at this
  rw [this]
  simp

theorem basename_path {dir name : Str} (hn : '/' ∉ name) : basename (dir ++ '/' :: name) = name := by
  unfold basename
  have hall : ∀ x ∈ name.reverse, (decide (x ≠ '/')) = true := fun x hx => by
    have : x ∈ name := List.mem_reverse.1 hx
    simp; rintro rfl; exact hn this
  simp only [List.reverse_append, List.reverse_cons, List.append_assoc]
  rw [List.takeWhile_append_of_pos (by simpa using hall)]
  simp

theorem fileRef_plain {file : Str} (hn : '/' ∉ file) (r c : Nat) : fileRef ⟨file, r, c⟩ = file ++ ' ' :: natStr r ++ ':' :: natStr c ++ [' '] := by
  unfold fileRef
  dsimp only
  rw [show (List.takeWhile (fun x => decide (x ≠ '/')) file.reverse).reverse = basename file from rfl, basename_plain hn]

/-- **C89.** The terms of a file have the slug of its name, without its directory, for their `file_name`; `file_ref` is this name with row
and column. -/
theorem C89_file_ref (nm : Naming) {dir name : Str} (hn : '/' ∉ name) (h0 : name ≠ []) (r c : Nat) :
    fileRef ⟨nm.main (dir ++ '/' :: name), r, c⟩ = slugify nm.nfkd name ++ ' ' :: natStr r ++ ':' :: natStr c ++ [' '] ∧
    fileRef ⟨nm.main name, r, c⟩ = slugify nm.nfkd name ++ ' ' :: natStr r ++ ':' :: natStr c ++ [' '] := by
  have h1 : nm.main (dir ++ '/' :: name) = slugify nm.nfkd name := by
    unfold Naming.main fileName; rw [if_neg (by simp), basename_path hn]
  have h2 : nm.main name = slugify nm.nfkd name := by
    unfold Naming.main fileName; rw [if_neg h0, basename_plain hn]
  rw [h1, h2, fileRef_plain (slash_slug _ _)]
  exact ⟨rfl, rfl⟩

/-- **C89.** For a name of lower-case letters, digits, `_`, `.` and single hyphens it is the name itself. -/
theorem C89_file_ref_plain_partial {nm : Naming} (hu : AsciiStable nm.nfkd) {dir name : Str} (h0 : name ≠ []) (hc : ∀ c ∈ name, SlugChar c) (hd : NoDoubleHyphen name)
    (r c : Nat) : fileRef ⟨nm.main (dir ++ '/' :: name), r, c⟩ = name ++ ' ' :: natStr r ++ ':' :: natStr c ++ [' '] ∧
    fileRef ⟨nm.main name, r, c⟩ = name ++ ' ' :: natStr r ++ ':' :: natStr c ++ [' '] := by
  have hn : '/' ∉ name := fun h => by rcases hc _ h with e | e | e | e | e <;> revert e <;> decide
  have h := C89_file_ref nm (dir := dir) hn h0 r c
  rw [(C03_fixed_iff hu name).2 ⟨hc, hd⟩] at h
  exact h

/-- **C89.** `file_ref` tells the places in one file apart. -/
theorem C89_file_ref_distinct {file : Str} {r c r' c' : Nat} (h : fileRef ⟨file, r, c⟩ = fileRef ⟨file, r', c'⟩) : r = r' ∧ c = c' := by
  unfold fileRef at h
  dsimp only at h
  simp only [List.append_assoc, List.cons_append] at h
  have h := List.append_cancel_left h
  have h := (List.cons.inj h).2
  obtain ⟨e1, e2⟩ := split_at (not_mem_natStr (by decide) r) (not_mem_natStr (by decide) r') h
  have e3 := List.append_cancel_right e2
  exact ⟨natStr_inj e1, natStr_inj e3⟩

/-- **C89.** No two terms of a file of ordinary rows stand at the same place. -/
theorem C89_places_distinct (rows : List (List Str)) : (placesOf rows).Nodup := placesFrom_nodup rows 1

/-- No included files. -/
def noNaming : Naming := ⟨id, fun _ => []⟩

/-- A file with a blank row, a comment, a section, a blank cell and a child row. -/
def placeRows : List (List Str) :=
  [[py!"Title", py!"T"], [], [py!"Section", py!"Data", py!"Url", py!"Note"], [py!"# c"], [py!"Datafile", py!"x", py!" ", py!"n"], [py!".Part", py!"y", py!"u"]]

example : plainFile placeRows = true ∧ placesOf placeRows = [(1, 1), (5, 1), (5, 3), (6, 1), (6, 2)] := by decide +kernel

/-- The list for this file: entry 3 is the section. -/
example : (parseRowsL noFiles noNaming 3 (py!"d/doc.csv") placeRows exDoc).1.map (fun b => (b.id, b.place.row, b.place.col)) =
    [(1, 1, 1), (2, 3, 3), (3, 5, 1), (4, 5, 3), (5, 6, 1), (6, 6, 2)] := by decide +kernel

example : fileRef ⟨noNaming.main (py!"/d/doc.csv"), 5, 3⟩ = py!"doc.csv 5:3 " := by decide +kernel

/-- **C89.** Two files whose terms cannot be told apart by `file_name`: neither has the name of its file. -/
theorem C89_name_witness : noNaming.main (py!"/d/My Data.csv") = py!"my-data.csv" ∧ noNaming.main (py!"/e/my - data.csv") = py!"my-data.csv" := by
  decide +kernel

/-- **C89.** The column of a section is its row number. -/
theorem C89_section_witness : (parseRowsL noFiles noNaming 3 (py!"doc.csv") placeRows exDoc).1[1]? =
    some ⟨2, ⟨py!"doc.csv", 3, 3⟩, py!"doc.csv"⟩ ∧ ((exParse placeRows).heap 2).cls.isSection = true ∧ ((exParse placeRows).heap 2).value = .str (py!"Data") := by
  decide +kernel

/-- A file that is included. -/
def partFiles : Files := ⟨fun t => if t = py!"http://x.org/part.csv" then some [[py!"Part", py!"p"]] else none, fun _ _ => none⟩

/-- **C89.** The terms of an included file, here the last one, have the class name of the row generator, in lower case, for the name of their file. -/
theorem C89_include_witness : (parseRowsL partFiles ⟨id, fun _ => py!"CsvSource"⟩ 3 (py!"doc.csv")
      [[py!"Title", py!"T"], [py!"Include", py!"http://x.org/part.csv"]] exDoc).1 =
    [⟨1, ⟨py!"doc.csv", 1, 1⟩, py!"doc.csv"⟩, ⟨2, ⟨py!"doc.csv", 2, 1⟩, py!"doc.csv"⟩,
     ⟨3, ⟨py!"csvsource", 1, 1⟩, py!"http://x.org/part.csv"⟩] := by
  decide +kernel

end Metatab
