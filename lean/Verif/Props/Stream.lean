import Verif.Lemmas.StreamFile
import Verif.Props.Cli
/-! # C88: `metatab -t` -/
namespace Metatab
open Py _root_.Spec

/-- **C88**, the lines for a file of ordinary rows: the root section first, then for every row the section it opens or the terms it adds, in
the order of the file. Each line starts with the name of the file, the row and the column. The argument cells before the first section or
header row are named after the columns that were in force at the end of the file. -/
theorem C88_lines {env : Env} {classes : Dict Cls} (hcl : PlainClasses classes) {files : Files} (nm : Naming) {fuel : Nat} {path : Str}
    {rows : List (List Str)} (h : plainFile rows = true) : ∃ l s s', parseRowsL files nm (fuel + 1) path rows (newDoc env classes) = (l, .ok () s) ∧
      printAgain files nm l (fuel + 1) path rows s = (py!"<none> 0:0 None:root.root=Root" ::
        Reader.placed (frontAt (nm.main path)) (secFront (nm.main path) rows) 1 (readAll rows).rerun rows, .ok () s') :=
  printAgain_plain hcl nm h

/-- **C88.** What is printed are the terms of the file as the document has them, and where they stand.

Missing for the full claim: files with argument cells before the first section or header row whose last section or header row names columns;
see the witness. -/
theorem C88_listing_partial {env : Env} {classes : Dict Cls} (hcl : PlainClasses classes) {files : Files} (nm : Naming) {fuel : Nat} {path : Str}
    {rows : List (List Str)} (h : plainFile rows = true) (hb : bareStart rows = true ∨ (readAll rows).cols = []) :
    ∃ l s s', parseRowsL files nm (fuel + 1) path rows (newDoc env classes) = (l, .ok () s) ∧
      printAgain files nm l (fuel + 1) path rows s = (placedListing (nm.main path) rows, .ok () s') := by
  obtain ⟨l, s, s', h1, h2⟩ := printAgain_plain (env := env) hcl nm (files := files) (fuel := fuel) (path := path) h
  rw [lines_rerun hb] at h2
  exact ⟨l, s, s', h1, h2⟩

theorem argNodes_length (a : Reader) (r : Str) : ∀ (vs : List Str) (k m : Nat), (argNodes a r k vs).length = (columns m vs).length
  | [], _, _ => rfl
  | v :: vs, k, m => by
    unfold argNodes columns
    rw [List.length_append, argNodes_length a r vs (k + 1) (m + 1)]
    split
    · simp
    · simp [Nat.add_comm]

/-- A row adds as many terms as it has places. -/
theorem rowLines_length (a : Reader) (n : Nat) {row : List Str} (h : ∀ m cols, kind row ≠ .section m cols) :
    (rowPlaces n row).length = (a.rowLines row).length := by
  unfold rowPlaces Reader.rowLines Reader.row
  cases hk : kind row with
  | noise => simp
  | special => simp
  | header => simp
  | «section» m cols => exact absurd hk (h _ _)
  | elided r =>
    dsimp only
    rw [addArgs_eq]
    simp [argNodes_length _ r (row.drop 2) 0 2]
  | named p r =>
    dsimp only
    rw [addArgs_eq]
    simp [argNodes_length _ r (row.drop 2) 0 2]

theorem zipWith_second {α β : Type} : ∀ {l : List α} {m : List β}, l.length = m.length → List.zipWith (fun _ b => b) l m = m
  | [], [], _ => rfl
  | [], _ :: _, h => by cases h
  | _ :: _, [], h => by cases h
  | _ :: l, b :: m, h => by rw [List.zipWith_cons_cons, zipWith_second (by simpa using h)]

/-- **C88.** Without the places the listing has one line for the root section, for each section row and for each term of the file. -/
theorem C88_fronts : ∀ (rows : List (List Str)) (a : Reader) (n : Nat), Reader.placed (fun _ _ => []) (fun _ => []) n a rows = a.lines rows
  | [], _, _ => rfl
  | row :: rows, a, n => by
    unfold Reader.placed Reader.lines
    rw [C88_fronts rows]
    congr 1
    unfold Reader.placedRow
    cases hk : kind row with
    | «section» m cols => simp
    | _ => exact zipWith_second (rowLines_length a n (by rw [hk]; rintro _ _ ⟨⟩))

theorem main_csv {W : World} {a : Args} {dir base : Str} (hf : CsvFile W a dir base) :
    W.naming.main (dir ++ base ++ py!".csv") = slugify W.env.nfkd (base ++ py!".csv") := by
  have hn : '/' ∉ base ++ py!".csv" := by
    intro h
    rcases List.mem_append.1 h with h | h
    · exact hf.noSlash h
    · revert h; decide
  unfold Naming.main fileName
  rw [if_neg (by simp), List.append_assoc]
  rcases hf.dirEnd with e | ⟨d, e⟩
  · rw [e, List.nil_append, basename_plain hn]; rfl
  · rw [e, List.append_assoc, List.singleton_append, basename_path hn]; rfl

/-- **C88** for the program: `metatab -t` with a local `.csv` file prints the listing and ends with 0.

Missing for the full claim: as for `C88_listing_partial`. -/
theorem C88_command_partial {W : World} {a : Args} {dir base : Str} (hf : CsvFile W a dir base) (hc : a.create = none) (hd : a.showDecl = false)
    (hff : a.findFirst = []) (ho : a.outType = .terms) (hcl : PlainClasses W.classes) (hfuel : W.fuel ≠ 0) {text : Str}
    (ht : W.D.files (dir ++ base ++ py!".csv") = some text) (h : plainFile (readCsv text) = true)
    (hb : bareStart (readCsv text) = true ∨ (readAll (readCsv text)).cols = []) :
    runCli W a = { out := (placedListing (slugify W.env.nfkd (base ++ py!".csv")) (readCsv text)).map printed, exit := .code 0 } := by
  have hn : a.named.create = none ∧ a.named.showDecl = false ∧ a.named.findFirst = [] ∧ a.named.outType = .terms := by
    unfold Args.named; split <;> exact ⟨hc, hd, hff, ho⟩
  have hs : suffix (dir ++ base ++ py!".csv") = py!".csv" :=
    suffix_ext hf.dirEnd hf.noSlash hf.nonempty (ext := py!"csv") (by decide) (by decide) (by decide)
  obtain ⟨f, hw⟩ : ∃ f, W.fuel = f + 1 := Nat.exists_eq_succ_of_ne_zero hfuel
  obtain ⟨l, s, s', h0, h2⟩ := C88_listing_partial (env := W.env) hcl (files := W.files) W.naming (fuel := f) (path := dir ++ base ++ py!".csv") h hb
  rw [← hw] at h0 h2
  have h1 : parseRows W.files W.fuel (dir ++ base ++ py!".csv") (readCsv text) (newDoc W.env W.classes) = .ok () s := by
    rw [← C89_same W.files W.naming, h0]
  have hl : W.built (dir ++ base ++ py!".csv") (readCsv text) = l := by unfold World.built; rw [h0]
  unfold runCli
  rw [hn.1]
  simp only
  rw [openDoc_csv hf.isFile hf.fspath hs ht, h1]
  simp only
  unfold showDoc
  rw [hn.2.1, hn.2.2.1, hn.2.2.2]
  simp only [Bool.false_eq_true, if_false, ne_eq, not_true]
  unfold showTerms termLines
  rw [hf.isFile, hf.fspath]
  simp only
  rw [if_pos hs, ht]
  simp only
  rw [hl, h2, main_csv hf]

/-- The file of the witness. -/
def strayRows : List (List Str) :=
  [[py!"Title", py!"T", py!"extra"], [py!"Section", py!"Data", py!"Url"], [py!"Datafile", py!"x", py!"u"], [py!".Note"]]

/-- What the first run builds. -/
def exBuilt (rows : List (List Str)) : List Built := (parseRowsL noFiles noNaming 3 (py!"doc.csv") rows exDoc).1

/-- **C88.** The columns of the last section are applied to the argument cells at the start of the file: the document has the term
`title.0`, the listing shows `title.url`. -/
theorem C88_columns_witness : plainFile strayRows = true ∧
    (printAgain noFiles noNaming (exBuilt strayRows) 3 (py!"doc.csv") strayRows (exParse strayRows)).1 ≠ placedListing (py!"doc.csv") strayRows ∧
    (printAgain noFiles noNaming (exBuilt strayRows) 3 (py!"doc.csv") strayRows (exParse strayRows)).1 =
      [py!"<none> 0:0 None:root.root=Root", py!"doc.csv 1:1 Root:root.title=T", py!"doc.csv 1:2 Root:title.url=extra",
       py!"doc.csv 2:2 None:root.section=Data", py!"doc.csv 3:1 Data:root.datafile=x", py!"doc.csv 3:2 Data:datafile.url=u",
       py!"doc.csv 4:1 Data:datafile.note=None"] ∧
    ((exParse strayRows).heap 2).pt = py!"title" ∧ ((exParse strayRows).heap 2).rt = py!"0" := by
  decide +kernel

/-- A file in which every argument cell has a column. -/
def neatRows : List (List Str) :=
  [[py!"Title", py!"T"], [py!"Section", py!"Data", py!"Url"], [py!"Datafile", py!" x ", py!"u"], [py!".Note"], [py!"Section", py!"data"],
   [py!"Section", py!"Other"], [py!"# c"], [py!"Thing", py!"z", py!"q"], [py!"Thing.Part", py!"y"]]

example : plainFile neatRows = true ∧ bareStart neatRows = true ∧ placedListing (py!"m.csv") neatRows =
    [py!"<none> 0:0 None:root.root=Root", py!"m.csv 1:1 Root:root.title=T", py!"m.csv 2:2 None:root.section=Data",
     py!"m.csv 3:1 Data:root.datafile=x", py!"m.csv 3:2 Data:datafile.url=u", py!"m.csv 4:1 Data:datafile.note=None",
     py!"m.csv 2:2 None:root.section=Data", py!"m.csv 6:6 None:root.section=Other", py!"m.csv 8:1 Other:root.thing=z",
     py!"m.csv 8:2 Other:thing.0=q", py!"m.csv 9:1 Other:thing.part=y"] := by
  decide +kernel

/-- The same file read and listed. -/
example : (printAgain noFiles noNaming (exBuilt neatRows) 3 (py!"doc.csv") neatRows (exParse neatRows)).1 = placedListing (py!"doc.csv") neatRows := by
  obtain ⟨l, s, s', h0, h2⟩ := C88_listing_partial (env := exEnv) plainClasses_init (files := noFiles) noNaming (fuel := 2) (path := py!"doc.csv")
    (rows := neatRows) (by decide +kernel) (.inl (by decide +kernel))
  have h1 : parseRows noFiles 3 (py!"doc.csv") neatRows (newDoc exEnv initClasses) = .ok () s := by
    rw [← C89_same noFiles noNaming, h0]
  have hs : exParse neatRows = s := by
    unfold exParse exDoc after
    rw [h1]
  have hl : exBuilt neatRows = l := by
    unfold exBuilt exDoc
    rw [h0]
  have hm : noNaming.main (py!"doc.csv") = py!"doc.csv" := by decide +kernel
  rw [hs, hl, h2, hm]

/-- The program. -/
example : runCli (cliWorld cliText) { file := py!"/d/m.csv", outType := .terms } =
    { out := [py!"<none> 0:0 None:root.root=Root\n", py!"m.csv 1:1 Root:root.title=T\n", py!"m.csv 3:3 None:root.section=Schema\n",
        py!"m.csv 4:1 Schema:root.table=t\n", py!"m.csv 5:1 Schema:table.column=c\n", py!"m.csv 5:2 Schema:column.datatype=int\n"], exit := .code 0 } := by
  have hl : (placedListing (slugify (cliWorld cliText).env.nfkd (py!"m" ++ py!".csv")) (readCsv cliText)).map printed =
      [py!"<none> 0:0 None:root.root=Root\n", py!"m.csv 1:1 Root:root.title=T\n", py!"m.csv 3:3 None:root.section=Schema\n",
       py!"m.csv 4:1 Schema:root.table=t\n", py!"m.csv 5:1 Schema:table.column=c\n", py!"m.csv 5:2 Schema:column.datatype=int\n"] := by
    decide +kernel
  have hp : plainFile (readCsv cliText) = true := by decide +kernel
  have hb : bareStart (readCsv cliText) = true := by decide +kernel
  have := C88_command_partial (cli_csvFile { file := py!"/d/m.csv", outType := .terms } rfl) rfl rfl rfl rfl plainClasses_init (by decide)
    (text := cliText) rfl hp (.inl hb)
  rw [hl] at this
  exact this

/-- A file that can be read once, but not twice: the declarations it names are in force from the start of the second run. -/
def staleWorld : World := { cliWorld (py!"Ref,x\r\nDeclare,d.csv\r\nSection,Data,Title\r\n") with
  files := ⟨fun t => if t = py!"d.csv" then some [[py!"Section", py!"DeclaredTerms", py!"Section", py!"Synonym"],
      [py!"DeclareSection", py!"Data", py!"Title"], [py!"DeclareTerm", py!"Ref", py!"Data", py!"Foo.Bar"]] else none,
    fun _ n => if n = py!"d.csv" then some (py!"d.csv") else none⟩ }

/-- **C72, C88.** `metatab -t` prints a line and then fails, although the file can be opened. -/
theorem C72_terms_witness : (∃ s, openDoc staleWorld (py!"/d/m.csv") = .ok () s) ∧
    runCli staleWorld { file := py!"/d/m.csv", outType := .terms } =
      { out := [py!"<none> 0:0 None:root.root=Root\n"], exit := .raised .parserError } := by
  refine ⟨⟨after (fun _ => openDoc staleWorld (py!"/d/m.csv")) exDoc, ok_after (m := fun _ => openDoc staleWorld (py!"/d/m.csv")) (s := exDoc) (a := ()) ?_⟩, ?_⟩
  · decide +kernel
  · decide +kernel

end Metatab
