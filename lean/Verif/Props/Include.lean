import Verif.Lemmas.Splice
import Verif.Lemmas.Examples
/-! # Included files (C32) -/
namespace Metatab
open Py Spec

theorem cur_row {a : Reader} {row : List Str} : (a.row row).cur = sectionAfter a.cur row := by
  unfold Reader.row sectionAfter
  cases kind row with
  | «section» n cols => dsimp only; split <;> rfl
  | elided r => exact known_addArgs.2.1
  | named p r => exact known_addArgs.2.1
  | _ => rfl

theorem cur_rows : ∀ {rows : List (List Str)} {a : Reader}, (rows.foldl Reader.row a).cur = rows.foldl sectionAfter a.cur
  | [], _ => rfl
  | row :: rows, a => by rw [List.foldl_cons, List.foldl_cons, cur_rows, cur_row]

theorem fresh_rows : ∀ {rows : List (List Str)} {a : Reader}, Dict.get? a.known (py!"include") = none →
    Dict.get? (rows.foldl Reader.row a).known (py!"include") = none
  | [], _, h => h
  | row :: rows, a, h => by
    rw [List.foldl_cons]
    refine fresh_rows ?_
    rw [known_row]
    cases hk : kind row with
    | named p r =>
      have hor := kind_ordinary (.inr ⟨p, hk⟩)
      have hri : r ≠ py!"include" := by rintro rfl; exact absurd hor (by decide)
      simp only [Dict.get?_cons, if_neg hri]; exact h
    | _ => exact h

theorem termRows_same : ∀ {rows : List (List Str)} {a : Reader}, termRows rows = true → (rows.foldl Reader.row a).cur = a.cur ∧
    (rows.foldl Reader.row a).cols = a.cols ∧ (rows.foldl Reader.row a).vname = a.vname ∧ (rows.foldl Reader.row a).secs = a.secs
  | [], _, _ => ⟨rfl, rfl, rfl, rfl⟩
  | row :: rows, a, h => by
    rw [termRows, List.all_cons, Bool.and_eq_true] at h
    obtain ⟨h1, h2, h3, h4⟩ := termRows_same (rows := rows) (a := a.row row) h.2
    rw [List.foldl_cons, h1, h2, h3, h4]
    have h := h.1
    unfold Reader.row
    cases hk : kind row <;> rw [hk] at h
    case noise => exact ⟨rfl, rfl, rfl, rfl⟩
    case elided r => obtain ⟨-, e1, e2, e3, e4⟩ := known_addArgs (R := r) (vs := row.drop 2) (k := 0) (a := { a with nodes := a.nodes ++ [⟨a.last.1, r, cellValue (row.getD 1 []), a.last.2, a.cur, a.vname⟩] }); exact ⟨e1, e3, e4, e2⟩
    case named p r => obtain ⟨-, e1, e2, e3, e4⟩ := known_addArgs (R := r) (vs := row.drop 2) (k := 0) (a := { a with nodes := a.nodes ++ [⟨p, r, cellValue (row.getD 1 []), ((Dict.get? a.known p).getD none), a.cur, a.vname⟩], known := (r, some a.nodes.length) :: a.known, last := (r, some a.nodes.length) }); exact ⟨e1, e3, e4, e2⟩
    all_goals cases h

/-- **C32, any depth.** A file in which include rows stand among ordinary rows is read as the reference reader says: the include term, then
the rows of the included file in its place, then the section of the including file again. -/
theorem C32_reads {env : Env} {classes : Dict Cls} (hcl : PlainClasses classes) {files : Files} {n : Nat} {path : Str}
    {rows : List (List Str)} {b : Reader} (h : Reads files.rows n (dirname path) path (py!"root") rows Reader.start b) {fuel : Nat} (hf : n < fuel) :
    ∃ s ids, parseRows files fuel path rows (newDoc env classes) = .ok () s ∧ Holds s b ids := by
  obtain ⟨f, rfl⟩ : ∃ f, fuel = f + 1 := ⟨fuel - 1, by omega⟩
  obtain ⟨s, ids, e, hh, -⟩ := reads_holds (env := env) hcl h (fuel := f) (by omega)
  exact ⟨s, ids, e, hh⟩

/-- **C32.** Let a file consist of the rows `pre`, an include row and the rows `post`, and let the included file `inc` consist of term rows.
If the rows stay ordinary when `inc` is put in place of the include row, then both files can be read, and the two documents are the same once
the include term, which has no children, is removed. Elided rows must not be torn from the term they belong to, so the first term row of
`inc` and the first one of `post` have to be named; and since a section is opened anew after the include, no header row may have changed
its columns. -/
theorem C32_spliced {env : Env} {classes : Dict Cls} (hcl : PlainClasses classes) {files : Files} {path v t : Str} {row : List Str}
    {pre inc post : List (List Str)} (hrow : includeRow row = some v) (ht : includeTarget (dirname path) v = some t) (hne : t ≠ path)
    (hfile : files.rows t = some inc) (hplain : plainFile (pre ++ inc ++ post) = true) (hinc : termRows inc = true)
    (ha : anchored inc = true) (hb : anchored post = true) (hcols : (readAll pre).OwnColumns) (fuel : Nat) :
    ∃ s s' x, parseRows files (fuel + 2) path (pre ++ row :: post) (newDoc env classes) = .ok () s ∧
      parseRows files (fuel + 1) path (pre ++ inc ++ post) (newDoc env classes) = .ok () s' ∧
      ((s.heap x).pt = py!"root" ∧ (s.heap x).rt = py!"include" ∧ (s.heap x).value = .str v ∧ (s.heap x).children = [] ∧ x ∈ s.terms) ∧
      SameDoc (without s x) s' := by
  obtain ⟨s', ids', e', hh', hr', hok'⟩ := plain_holds (env := env) hcl hplain files fuel path
  have ok : RowsOk Reader.start (pre ++ inc ++ post) := rowsOk_plain hplain (by
    intro k hk
    obtain rfl : k = py!"root" := by simpa using hk
    rfl)
  rw [rowsOk_append, rowsOk_append] at ok
  obtain ⟨⟨ok1, ok2⟩, ok3⟩ := ok
  rw [List.foldl_append] at ok3
  obtain ⟨a0, ha0⟩ : ∃ a0, a0 = readAll pre := ⟨_, rfl⟩
  change RowsOk (readAll pre) inc at ok2
  change RowsOk (inc.foldl Reader.row (readAll pre)) post at ok3
  rw [← ha0] at ok2 ok3 hcols
  have hfresh : Dict.get? a0.known (py!"include") = none := by rw [ha0]; exact fresh_rows rfl
  obtain ⟨n, hn⟩ : ∃ n : Node, n = ⟨py!"root", py!"include", .str v, none, a0.cur, a0.vname⟩ := ⟨_, rfl⟩
  have h0 : ∀ i, a0.nodes.length ≤ i → ∀ o, RefOk a0.nodes.length o → shiftRef i o = o := by
    intro i hi o ho
    cases o with
    | none => rfl
    | some j => have : j < a0.nodes.length := ho; simp only [shiftRef, Option.map_some]; rw [if_pos (by omega)]
  -- references made so far point to what has been read
  obtain ⟨hn0, hk0⟩ : (∀ m ∈ a0.nodes, RefOk a0.nodes.length m.parent) ∧ ∀ k i, Dict.get? a0.known k = some i → RefOk a0.nodes.length i := by
    have hpl := plainFrom_append (plainFrom_append hplain)
    obtain ⟨s0, h'⟩ := plainFile_rows (env := env) hcl hpl
    obtain ⟨ids0, hs0⟩ := sim_rows (pinv_new (F := True) (env := env) hcl) (sim_start env classes) h' hpl
    have e : ids0.length = a0.nodes.length := by rw [ha0]; exact hs0.count
    rw [← e, ha0]
    exact ⟨hs0.nodesOk, hs0.knownOk⟩
  have x0 : Extra a0.nodes.length n false a0 (a0.includeTerm v) := by
    refine ⟨Nat.le_refl _, ?_, rfl, rfl, rfl, rfl, ?_, hfresh, by intro h; cases h⟩
    · unfold withNode
      rw [List.take_length, List.drop_length, List.map_nil]
      show a0.nodes ++ [_] = _
      rw [← hn]
      congr 1
      symm
      refine (List.map_congr_left (g := id) fun m hm => ?_).trans (List.map_id _)
      unfold shiftNode
      rw [h0 _ (Nat.le_refl _) m.parent (hn0 m hm)]; rfl
    · intro k hk
      show Dict.get? ((py!"include", some a0.nodes.length) :: a0.known) k = _
      rw [Dict.get?_cons, if_neg (Ne.symm hk)]
      cases hg : Dict.get? a0.known k with
      | none => rfl
      | some i => rw [Option.map_some, h0 _ (Nat.le_refl _) i (hk0 k i hg)]
  obtain ⟨okb1, st1, x1⟩ := extra_rows x0 ok2 (.inr ha)
  obtain ⟨a1, ha1⟩ : ∃ a1, a1 = inc.foldl Reader.row a0 := ⟨_, rfl⟩
  obtain ⟨b1, hb1⟩ : ∃ b1, b1 = inc.foldl Reader.row (a0.includeTerm v) := ⟨_, rfl⟩
  rw [← ha1, ← hb1] at x1
  rw [← ha1] at ok3
  obtain ⟨c1, c2, c3, c4⟩ := termRows_same (a := a0) hinc
  rw [← ha1] at c1 c2 c3 c4
  have x2 : Extra a0.nodes.length n false a1 (b1.reopen a0.cur) := by
    unfold Reader.reopen
    by_cases hr : a0.cur = py!"root"
    · rw [if_pos hr]
      exact { le := x1.le, nodes := x1.nodes, secs := x1.secs, cur := by rw [c1, hr], cols := x1.cols, vname := x1.vname, known := x1.known, fresh := x1.fresh, last := fun h => by cases h }
    · rw [if_neg hr]
      rcases hcols with h | ⟨hv, m, hm⟩
      · exact absurd h hr
      · rw [x1.secs, c4, hm]
        exact { le := x1.le, nodes := x1.nodes, secs := c4.symm, cur := c1.symm, cols := c2.symm, vname := (c3.trans hv).symm, known := x1.known, fresh := x1.fresh, last := fun h => by cases h }
  obtain ⟨okb2, st2, x3⟩ := extra_rows x2 ok3 (.inr hb)
  have hcur : pre.foldl sectionAfter (py!"root") = a0.cur := by rw [ha0]; exact (cur_rows (a := Reader.start)).symm
  have hreads : Reads files.rows 1 (dirname path) path (py!"root") (pre ++ row :: post) Reader.start
      (post.foldl Reader.row (b1.reopen a0.cur)) := by
    refine reads_rows ok1 ?_
    rw [hcur]
    change Reads _ _ _ _ _ _ (readAll pre) _
    rw [← ha0]
    refine .include (b := b1) hrow ht hne hfile ?_ ?_
    · have := reads_rows (files := files.rows) (m := 0) (dir := []) (ref := t) (here := py!"root") (more := []) (b := b1) okb1 (by rw [← hb1]; exact .nil)
      rwa [List.append_nil] at this
    · have := reads_rows (files := files.rows) (m := 1) (dir := dirname path) (ref := path) (here := a0.cur) (more := []) okb2 .nil
      rwa [List.append_nil] at this
  obtain ⟨s, ids, e, hh, hr, hok, hsk⟩ := reads_holds (env := env) hcl hreads (fuel := fuel + 1) (by omega)
  have hread : readAll (pre ++ inc ++ post) = post.foldl Reader.row a1 := by
    unfold readAll; rw [List.foldl_append, List.foldl_append, ha1, ha0]; rfl
  have hnm : n ∈ (post.foldl Reader.row (b1.reopen a0.cur)).nodes := by rw [x3.nodes]; unfold withNode; simp
  obtain ⟨x, ids2, hx1, hx2, hx3, hx4, hx5⟩ := holds_without hh hr x3.nodes x3.le x3.secs (by rw [hn]) (by rw [hn]) (hsk n hnm) hok
  obtain ⟨t1, t2, t3, -⟩ := hh.term n x hx2
  refine ⟨s, s', x, e, e', ⟨by rw [t1, hn], by rw [t2, hn], by rw [t3, hn], hx4, ?_⟩, ?_⟩
  · rw [hh.terms]
    unfold pick
    exact List.mem_map.2 ⟨(n, x), List.mem_filter.2 ⟨hx2, by rw [hn]; rfl⟩, rfl⟩
  · refine sameDoc_of_holds hx3 hh' ?_ hr' (by rw [hread]) (by rw [hread]) hx5
    exact hr

/-- The files of the examples: a plain file on the web, one that includes another, and one that starts with an elided row. -/
def incFiles : Files :=
  ⟨fun p => if p = py!"http://x/a.csv" then some [[py!"Title", py!"T", py!"x"], [py!".Note", py!"n"]]
            else if p = py!"/d/sub.csv" then some [[py!"Title", py!"T"]]
            else if p = py!"http://x/b.csv" then some [[py!".Note", py!"n"]]
            else none, fun _ _ => none⟩

def incPre : List (List Str) := [[py!"Section", py!"Things", py!"Size"], [py!"Creator", py!"C"]]
def incRow : List Str := [py!"Include", py!"sub.csv"]
def incPost : List (List Str) := [[py!"Publisher", py!"P", py!"9"], [py!".Note", py!"m"]]

/-- The hypotheses are met by a file with a section, columns and arguments. -/
example : includeRow incRow = some (py!"sub.csv") ∧ includeTarget (dirname (py!"/d/meta.csv")) (py!"sub.csv") = some (py!"/d/sub.csv") ∧
    plainFile (incPre ++ [[py!"Title", py!"T"]] ++ incPost) = true ∧ termRows [[py!"Title", py!"T"]] = true ∧
    anchored [[py!"Title", py!"T"]] = true ∧ anchored incPost = true := by decide +kernel

example : (readAll incPre).OwnColumns := .inr ⟨by decide +kernel, py!"Things", by decide +kernel⟩

example (fuel : Nat) : ∃ s s' x, parseRows incFiles (fuel + 2) (py!"/d/meta.csv") (incPre ++ incRow :: incPost) (newDoc exEnv) = .ok () s ∧
    parseRows incFiles (fuel + 1) (py!"/d/meta.csv") (incPre ++ [[py!"Title", py!"T"]] ++ incPost) (newDoc exEnv) = .ok () s' ∧
    SameDoc (without s x) s' := by
  obtain ⟨s, s', x, h1, h2, -, h3⟩ := C32_spliced (env := exEnv) (files := incFiles) (path := py!"/d/meta.csv") (row := incRow) (pre := incPre) (post := incPost) (t := py!"/d/sub.csv") (v := py!"sub.csv") plainClasses_init (by decide +kernel) (by decide +kernel) (by decide) rfl (by decide +kernel)
    (by decide +kernel) (by decide +kernel) (by decide +kernel) (.inr ⟨by decide +kernel, py!"Things", by decide +kernel⟩) fuel
  exact ⟨s, s', x, h1, h2, h3⟩

/-- A file whose included file includes another one. -/
example : ∃ b, Reads (fun p => if p = py!"http://x" then some [[py!"Include", py!"http://y"], [py!"A", py!"1"]]
      else if p = py!"http://y" then some [[py!"B", py!"2"]] else none) 2 [] (py!"z") (py!"root")
      [[py!"Section", py!"S"], [py!"Include", py!"http://x"], [py!"C", py!"3"]] Reader.start b ∧
    b.nodes.map (fun n => (n.rt, n.sec)) = [(py!"include", py!"s"), (py!"include", py!"s"), (py!"b", py!"s"), (py!"a", py!"root"), (py!"c", py!"s")] := by
  refine ⟨_, .row (by decide +kernel) (fun p r h => by cases h) (.include (t := py!"http://x") (v := py!"http://x") (by decide +kernel) (by decide +kernel) (by decide) rfl
    (.include (t := py!"http://y") (v := py!"http://y") (by decide +kernel) (by decide +kernel) (by decide) rfl
      (.row (by decide +kernel) (fun p r h => by cases h; rfl) .nil) (.row (by decide +kernel) (fun p r h => by cases h; rfl) .nil))
    (.row (by decide +kernel) (fun p r h => by cases h; rfl) .nil)), ?_⟩
  decide +kernel

/-- Elided rows at the start of an included file go below the include term, not below the term before it. -/
theorem C32_elided_witness :
    let s := after (parseRows incFiles 5 (py!"/d/m.csv") [[py!"Title", py!"T"], [py!"Include", py!"http://x/b.csv"]]) (newDoc exEnv)
    let s' := after (parseRows incFiles 5 (py!"/d/m.csv") [[py!"Title", py!"T"], [py!".Note", py!"n"]]) (newDoc exEnv)
    (s.heap 1).rt = py!"title" ∧ (s.heap 1).children = [] ∧ (s.heap 2).rt = py!"include" ∧ (s.heap 2).children = [3] ∧
    (s'.heap 1).rt = py!"title" ∧ (s'.heap 1).children = [2] := by decide +kernel

/-- The columns set by a header row are forgotten after an include: the argument of the last row is `note` with the rows in place, and
`size` with the include. -/
theorem C32_header_witness :
    let s := after (parseRows incFiles 5 (py!"/d/m.csv") [[py!"Section", py!"S", py!"Size"], [py!"Header", py!"H", py!"Note"],
      [py!"Include", py!"sub.csv"], [py!"Publisher", py!"P", py!"9"]]) (newDoc exEnv)
    let s' := after (parseRows incFiles 5 (py!"/d/m.csv") [[py!"Section", py!"S", py!"Size"], [py!"Header", py!"H", py!"Note"],
      [py!"Title", py!"T"], [py!"Publisher", py!"P", py!"9"]]) (newDoc exEnv)
    ((s.heap 6).value = .str (py!"9") ∧ (s.heap 6).rt = py!"size") ∧ ((s'.heap 5).value = .str (py!"9") ∧ (s'.heap 5).rt = py!"note") := by
  decide +kernel

end Metatab
