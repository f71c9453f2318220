import Verif.Lemmas.SameDoc
import Verif.Props.Elided
/-! # Reading files of ordinary rows (C30, C31, C53, C59) -/
namespace Metatab
open Py Spec

/-- **C59**. A file of ordinary rows is read without error, and the document is the one the reference reader builds: the same sections
with the same columns in the same order, the same terms with the same names, values, value names, parents and sections, and every list
of terms is in the order of the rows and cells. -/
theorem C59_reads {env : Env} {classes : Dict Cls} (hcl : PlainClasses classes) {rows : List (List Str)} (h : plainFile rows = true)
    (files : Files) (fuel : Nat) (path : Str) :
    ∃ s ids, parseRows files (fuel + 1) path rows (newDoc env classes) = .ok () s ∧ Holds s (readAll rows) ids := by
  obtain ⟨s, ids, h1, h2, -⟩ := plain_holds (env := env) hcl h files fuel path
  exact ⟨s, ids, h1, h2⟩

/-- **C59** (nothing else). Every term that can be reached in the document is one the reference reader built. -/
theorem C59_complete {s : St} {a : Reader} {ids : List Nat} (h : Holds s a ids) {t : Nat} (ht : InDoc s t) :
    ∃ i, ∃ hi : i < ids.length, t = ids[i] ∧ ∃ n, a.nodes[i]? = some n ∧ (s.heap t).pt = n.pt ∧ (s.heap t).rt = n.rt ∧
      (s.heap t).value = n.value := by
  obtain ⟨i, hi, rfl⟩ := List.getElem_of_mem (inDoc_mem h ht)
  have hin : i < a.nodes.length := by rw [← h.count]; exact hi
  refine ⟨i, hi, rfl, a.nodes[i], by simp [hin], ?_⟩
  obtain ⟨a1, a2, a3, -⟩ := h.term a.nodes[i] ids[i] (by
    rw [List.mem_iff_getElem]; exact ⟨i, by rw [List.length_zip]; omega, by simp⟩)
  exact ⟨a1, a2, a3⟩

/-- What the reference reader makes of a small file. -/
example : plainFile [[py!"Title", py!"t"], [py!"Section", py!"S", py!"A"], [py!"Table", py!"x", py!"1"], [py!".Note", py!"n"],
      [py!"Table.Col", py!"c"]] = true ∧
    ((readAll [[py!"Title", py!"t"], [py!"Section", py!"S", py!"A"], [py!"Table", py!"x", py!"1"], [py!".Note", py!"n"],
      [py!"Table.Col", py!"c"]]).nodes.map fun n => (n.pt, n.rt, n.value, n.parent, n.sec)) =
    [(py!"root", py!"title", .str (py!"t"), none, py!"root"), (py!"root", py!"table", .str (py!"x"), none, py!"s"),
     (py!"table", py!"a", .str (py!"1"), some 1, py!"s"), (py!"table", py!"note", .str (py!"n"), some 1, py!"s"),
     (py!"table", py!"col", .str (py!"c"), some 1, py!"s")] := by decide +kernel

/-! ## C30 -/

/-- The rows `.Prop, value` that say the same as argument cells from number `k` on. -/
def elidedRows (cols : List Str) : Nat → List Str → List (List Str)
  | _, [] => []
  | k, v :: vs => (if strip v = [] then [] else [['.' :: colName cols k, v]]) ++ elidedRows cols (k + 1) vs

/-- The rows `Term.Prop, value` that say the same as argument cells from number `k` on. -/
def explicitRows (name : Str) (cols : List Str) : Nat → List Str → List (List Str)
  | _, [] => []
  | k, v :: vs => (if strip v = [] then [] else [[name ++ '.' :: colName cols k, v]]) ++ explicitRows name cols (k + 1) vs

/-- Every filled argument cell from number `k` on has a column with an ordinary name. -/
def Fits (cols : List Str) : Nat → List Str → Prop
  | _, [] => True
  | k, v :: vs => (strip v ≠ [] → PlainName (colName cols k) ∧ ordinary (colName cols k) = true) ∧ Fits cols (k + 1) vs

theorem strip_head {c : Char} (h : isSpace c = false) (x : Str) : (strip (c :: x)).head? = some c := by
  have h1 : lstrip (c :: x) = c :: x := by unfold lstrip; simp [h]
  unfold strip; rw [h1]
  unfold rstrip
  rw [List.reverse_cons, List.dropWhile_append]
  split
  · simp [h]
  · simp

theorem kind_of {c : Str} {rest : List Str} {p r : Str} {h : Char} (hh : (strip c).head? = some h) (hc : h ≠ '#')
    (hn : cellNames c = some (p, r)) (ho : ordinary r = true) (hp : p ≠ r) (he : p ≠ py!"<elided_term>") :
    kind (c :: rest) = if p = [] then .elided r else .named p r := by
  unfold kind
  have h0 : ¬ (strip c = [] ∨ (strip c).head? = some '#') := by
    rintro (e | e)
    · rw [e] at hh; cases hh
    · rw [hh] at e; cases e; exact hc rfl
  have h1 : ¬ (p = py!"root" ∧ r = py!"section") := by rintro ⟨-, rfl⟩; exact absurd ho (by decide)
  have h2 : ¬ (p = py!"root" ∧ r = py!"header") := by rintro ⟨-, rfl⟩; exact absurd ho (by decide)
  simp only [if_neg h0, hn, if_neg h1, if_neg h2, if_pos (show _ ∧ _ ∧ _ from ⟨ho, hp, he⟩)]

theorem kind_elidedRow {x : Str} (h : GoodName x) (ho : ordinary x = true) (rest : List Str) : kind (('.' :: x) :: rest) = .elided x := by
  have hn : cellNames ('.' :: x) = some ([], x) := by
    unfold cellNames
    have : splitOn '.' ('.' :: x) = [[], x] := by
      have := splitOn_append_sep (sep := '.') (p := []) (fun h => by cases h) x
      rw [List.nil_append] at this
      rw [this, splitOn_not_mem h.nodot]
    rw [this]
    simp only [h.stripped, h.low]
    rfl
  rw [kind_of (strip_head (by decide) _) (by decide) hn ho (Ne.symm h.nonempty) (by decide), if_pos rfl]

theorem kind_explicitRow {r x : Str} (hr : GoodName r) (h : GoodName x) (ho : ordinary x = true) (hne : r ≠ x)
    (hor : ordinary r = true) (hh : r.head? ≠ some '#') (rest : List Str) : kind ((r ++ '.' :: x) :: rest) = .named r x := by
  have hn : cellNames (r ++ '.' :: x) = some (r, x) := by
    unfold cellNames
    rw [splitOn_append_sep hr.nodot, splitOn_not_mem h.nodot]
    simp only [hr.stripped, h.stripped, hr.low, h.low]
  have hel : r ≠ py!"<elided_term>" := by rintro rfl; exact absurd hor (by decide)
  obtain ⟨c, y, rfl⟩ : ∃ c y, r = c :: y := by
    cases r with
    | nil => exact absurd rfl hr.nonempty
    | cons c y => exact ⟨c, y, rfl⟩
  have hc : isSpace c = false := by
    have h1 : lstrip (c :: y) = c :: y := by
      conv_lhs => rw [← hr.stripped]
      rw [lstrip_strip, hr.stripped]
    cases hs : isSpace c with
    | false => rfl
    | true =>
      unfold lstrip at h1
      rw [List.dropWhile_cons_of_pos hs] at h1
      have h2 : y.dropWhile isSpace <:+ y := List.dropWhile_suffix _
      have := h2.length_le
      rw [h1] at this
      simp at this
      omega
  have h1 : (strip (c :: y ++ '.' :: x)).head? = some c := strip_head hc _
  rw [kind_of h1 (fun e => hh (by rw [e]; rfl)) hn ho hne hel, if_neg hr.nonempty]

theorem addArgs_fields (r : Str) : ∀ (vs : List Str) (k : Nat) (a : Reader), (Reader.addArgs r k vs a).last = a.last ∧
    (Reader.addArgs r k vs a).known = a.known ∧ (Reader.addArgs r k vs a).cols = a.cols
  | [], _, _ => ⟨rfl, rfl, rfl⟩
  | v :: vs, k, a => by
    rw [Reader.addArgs]
    obtain ⟨h1, h2, h3⟩ := addArgs_fields r vs (k + 1) (if strip v = [] then a
       else { a with nodes := a.nodes ++ [⟨r, colName a.cols k, .str (strip v), a.last.2, a.cur, a.vname⟩] })
    rw [h1, h2, h3]
    split <;> exact ⟨rfl, rfl, rfl⟩

theorem cellValue_full {v : Str} (h : strip v ≠ []) : cellValue v = .str (strip v) := by
  unfold cellValue; rw [if_neg]; rintro rfl; exact h rfl

/-- Elided rows instead of argument cells. -/
theorem foldl_elidedRows {r : Str} : ∀ (vs : List Str) (k : Nat) (a : Reader), a.last.1 = r → Fits a.cols k vs →
    (elidedRows a.cols k vs).foldl Reader.row a = Reader.addArgs r k vs a
  | [], _, _, _, _ => rfl
  | v :: vs, k, a, hl, hf => by
    rw [elidedRows, List.foldl_append, Reader.addArgs]
    by_cases hv : strip v = []
    · rw [if_pos hv, if_pos hv]
      exact foldl_elidedRows vs (k + 1) a hl hf.2
    · rw [if_neg hv, if_neg hv]
      obtain ⟨h1, h2⟩ := hf.1 hv
      have e : a.row [('.' :: colName a.cols k), v] =
          { a with nodes := a.nodes ++ [⟨r, colName a.cols k, .str (strip v), a.last.2, a.cur, a.vname⟩] } := by
        unfold Reader.row
        rw [kind_elidedRow h1.toGoodName h2]
        simp [Reader.addArgs, hl, cellValue_full hv]
      simp only [List.foldl_cons, List.foldl_nil, e]
      exact foldl_elidedRows vs (k + 1) _ hl hf.2

theorem kind_named_rest {c p r : Str} {rest : List Str} (h : kind (c :: rest) = .named p r) (rest' : List Str) :
    kind (c :: rest') = .named p r := by
  unfold kind at h ⊢
  simp only at h ⊢
  split at h
  · cases h
  · next h0 =>
    rw [if_neg h0]
    split at h
    · cases h
    · next p' r' hc =>
      split at h
      · split at h <;> cases h
      · next h1 =>
        split at h
        · split at h <;> cases h
        · next h2 =>
          rw [if_neg h1, if_neg h2]; exact h

theorem row_named {a : Reader} {c v p r : Str} {vs : List Str} (hk : kind (c :: v :: vs) = .named p r) :
    a.row (c :: v :: vs) = Reader.addArgs r 0 vs { a with
        nodes := a.nodes ++ [⟨p, r, cellValue v, ((Dict.get? a.known p).getD none), a.cur, a.vname⟩]
        known := (r, some a.nodes.length) :: a.known, last := (r, some a.nodes.length) } := by
  unfold Reader.row
  rw [hk]
  rfl

theorem plainFrom_tail {X Y : List (List Str)} (h : ∀ known, plainFrom known X = true → plainFrom known Y = true) :
    ∀ {before : List (List Str)} {known : List Str}, plainFrom known (before ++ X) = true → plainFrom known (before ++ Y) = true
  | [], _, hx => h _ hx
  | row :: before, known, hx => by
    rw [List.cons_append] at hx ⊢
    unfold plainFrom at hx ⊢
    cases hk : kind row <;> rw [hk] at hx <;> simp only [Bool.and_eq_true] at hx ⊢
    case special => cases hx
    case named => exact ⟨hx.1, plainFrom_tail h hx.2⟩
    all_goals exact plainFrom_tail h hx

theorem plainFrom_elidedRows {cols : List Str} {rows : List (List Str)} : ∀ {vs : List Str} {k : Nat} {known : List Str},
    Fits cols k vs → plainFrom known rows = true → plainFrom known (elidedRows cols k vs ++ rows) = true
  | [], _, _, _, h => h
  | v :: vs, k, known, hf, h => by
    have ih := plainFrom_elidedRows (k := k + 1) hf.2 h
    rw [elidedRows]
    by_cases hv : strip v = []
    · rw [if_pos hv]; exact ih
    · rw [if_neg hv]
      obtain ⟨h1, h2⟩ := hf.1 hv
      show plainFrom known (_ :: (elidedRows cols (k + 1) vs ++ rows)) = true
      unfold plainFrom
      rw [kind_elidedRow h1.toGoodName h2]
      exact ih

/-- **C30** (elided rows). In a file of ordinary rows, a term row with argument cells under columns with ordinary names may be replaced by
the term row with its value only, followed by a row `.Column, cell` for each filled cell: the document is the same. -/
theorem C30_elided {env : Env} {classes : Dict Cls} (hcl : PlainClasses classes) {before after_ : List (List Str)} {c v p r : Str}
    {vs : List Str} (hk : kind (c :: v :: vs) = .named p r) (hf : Fits (readAll before).cols 0 vs)
    (h : plainFile (before ++ (c :: v :: vs) :: after_) = true) (files : Files) (fuel : Nat) (path : Str) :
    ∃ s s', parseRows files (fuel + 1) path (before ++ (c :: v :: vs) :: after_) (newDoc env classes) = .ok () s ∧
      parseRows files (fuel + 1) path (before ++ [c, v] :: (elidedRows (readAll before).cols 0 vs ++ after_)) (newDoc env classes) =
        .ok () s' ∧ SameDoc s s' := by
  have hk' : kind [c, v] = .named p r := kind_named_rest hk _
  have h' : plainFile (before ++ [c, v] :: (elidedRows (readAll before).cols 0 vs ++ after_)) = true := by
    refine plainFrom_tail ?_ h
    intro known hx
    unfold plainFrom at hx ⊢
    rw [hk] at hx; rw [hk']
    simp only [Bool.and_eq_true] at hx ⊢
    exact ⟨hx.1, plainFrom_elidedRows hf hx.2⟩
  have e : readAll (before ++ [c, v] :: (elidedRows (readAll before).cols 0 vs ++ after_)) = readAll (before ++ (c :: v :: vs) :: after_) := by
    unfold readAll
    rw [List.foldl_append, List.foldl_append, List.foldl_cons, List.foldl_cons, List.foldl_append]
    congr 1
    unfold readAll at hf
    rw [row_named hk, row_named hk']
    exact foldl_elidedRows vs 0 _ rfl hf
  exact plain_same hcl h h' (by rw [e]) (by rw [e]) files fuel path

/-- The columns of the filled argument cells from number `k` on. -/
def filled (cols : List Str) : Nat → List Str → List Str
  | _, [] => []
  | k, v :: vs => (if strip v = [] then [] else [colName cols k]) ++ filled cols (k + 1) vs

/-- Two readers agree, except on what the names in `P` and elided rows refer to. -/
structure Alike (P : List Str) (a b : Reader) : Prop where
  nodes : b.nodes = a.nodes
  secs : b.secs = a.secs
  cur : b.cur = a.cur
  cols : b.cols = a.cols
  vname : b.vname = a.vname
  known : ∀ k, k ∉ P → Dict.get? b.known k = Dict.get? a.known k

theorem Alike.addArgs {P : List Str} {r : Str} : ∀ {vs : List Str} {k : Nat} {a b : Reader}, Alike P a b → b.last = a.last →
    Alike P (Reader.addArgs r k vs a) (Reader.addArgs r k vs b)
  | [], _, _, _, h, _ => h
  | v :: vs, k, a, b, h, hl => by
    rw [Reader.addArgs, Reader.addArgs]
    split
    · exact Alike.addArgs h hl
    · refine Alike.addArgs ⟨?_, h.secs, h.cur, h.cols, h.vname, h.known⟩ hl
      simp only
      rw [h.nodes, h.cur, h.cols, h.vname, hl]

theorem addArgs_last {r : Str} {vs : List Str} {k : Nat} {a b : Reader} (h : b.last = a.last) :
    (Reader.addArgs r k vs b).last = (Reader.addArgs r k vs a).last := by
  rw [(addArgs_fields r vs k a).1, (addArgs_fields r vs k b).1, h]

/-- The row names a term or starts a section, so that elided rows after it no longer depend on what came before. -/
def Resets (row : List Str) : Prop := (∃ p r, kind row = .named p r) ∨ ∃ n cols, kind row = .section n cols

theorem Alike.row {P : List Str} {a b : Reader} (h : Alike P a b) {row : List Str} (hl : b.last = a.last ∨ Resets row)
    (hP : ∀ p r, kind row = .named p r → p ∉ P) : Alike P (a.row row) (b.row row) ∧ (b.row row).last = (a.row row).last := by
  have hl' : ¬ Resets row → b.last = a.last := fun hn => hl.resolve_right hn
  unfold Reader.row
  cases hk : kind row with
  | noise => exact ⟨h, hl' (by rintro (⟨p, r, e⟩ | ⟨p, r, e⟩) <;> rw [hk] at e <;> cases e)⟩
  | special => exact ⟨h, hl' (by rintro (⟨p, r, e⟩ | ⟨p, r, e⟩) <;> rw [hk] at e <;> cases e)⟩
  | header n cols =>
    exact ⟨⟨h.nodes, h.secs, h.cur, rfl, rfl, h.known⟩, hl' (by rintro (⟨p, r, e⟩ | ⟨p, r, e⟩) <;> rw [hk] at e <;> cases e)⟩
  | «section» n cols =>
    dsimp only
    rw [h.secs]
    split
    · exact ⟨⟨h.nodes, rfl, rfl, rfl, rfl, h.known⟩, rfl⟩
    · exact ⟨⟨h.nodes, rfl, rfl, rfl, rfl, h.known⟩, rfl⟩
  | elided r =>
    have e := hl' (by rintro (⟨p, r, e⟩ | ⟨p, r, e⟩) <;> rw [hk] at e <;> cases e)
    dsimp only
    refine ⟨Alike.addArgs ⟨?_, h.secs, h.cur, h.cols, h.vname, h.known⟩ e, addArgs_last e⟩
    simp only
    rw [h.nodes, h.cur, h.vname, e]
  | named p r =>
    have e := h.known p (hP p r hk)
    dsimp only
    refine ⟨Alike.addArgs ⟨?_, h.secs, h.cur, h.cols, h.vname, ?_⟩ ?_, addArgs_last ?_⟩
    · simp only; rw [h.nodes, h.cur, h.vname, e]
    · intro k hk'
      simp only [Dict.get?_cons, h.nodes]; rw [h.known k hk']
    · simp only [h.nodes]
    · simp only [h.nodes]

theorem alike_rows {P : List Str} : ∀ {rows : List (List Str)} {a b : Reader}, Alike P a b →
    (b.last = a.last ∨ rows = [] ∨ ∃ row rest, rows = row :: rest ∧ Resets row) →
    (∀ row ∈ rows, ∀ p r, kind row = .named p r → p ∉ P) → Alike P (rows.foldl Reader.row a) (rows.foldl Reader.row b)
  | [], _, _, h, _, _ => h
  | row :: rows, a, b, h, hl, hP => by
    have hl1 : b.last = a.last ∨ Resets row := by
      rcases hl with e | e | ⟨_, _, e, hr⟩
      · exact .inl e
      · cases e
      · cases e; exact .inr hr
    obtain ⟨h1, h2⟩ := h.row hl1 (hP row List.mem_cons_self)
    exact alike_rows (rows := rows) h1 (.inl h2) fun row hm => hP row (List.mem_cons_of_mem _ hm)

/-- Explicit rows instead of argument cells. -/
theorem foldl_explicitRows {r : Str} {i : Option Nat} {P : List Str} (hg : GoodName r) (ho : ordinary r = true) (hh : r.head? ≠ some '#') (hrP : r ∉ P) :
    ∀ (vs : List Str) (k : Nat) (a b : Reader), Alike P a b → a.last.2 = i → Dict.get? b.known r = some i → Fits a.cols k vs →
      (∀ x ∈ filled a.cols k vs, x ∈ P) →
      Alike P (Reader.addArgs r k vs a) ((explicitRows r a.cols k vs).foldl Reader.row b)
  | [], _, _, _, h, _, _, _, _ => h
  | v :: vs, k, a, b, h, hl, hi, hf, hP => by
    rw [explicitRows, List.foldl_append, Reader.addArgs]
    rw [filled] at hP
    by_cases hv : strip v = []
    · rw [if_pos hv, if_pos hv]
      exact foldl_explicitRows hg ho hh hrP vs (k + 1) a b h hl hi hf.2 fun x hx => hP x (List.mem_append_right _ hx)
    · rw [if_neg hv, if_neg hv]
      rw [if_neg hv] at hP
      obtain ⟨h1, h2⟩ := hf.1 hv
      have hin : colName a.cols k ∈ P := hP _ (List.mem_append_left _ (List.mem_singleton.2 rfl))
      have hne : r ≠ colName a.cols k := fun e => hrP (e ▸ hin)
      have e : b.row [r ++ '.' :: colName a.cols k, v] =
          { b with nodes := b.nodes ++ [⟨r, colName a.cols k, .str (strip v), i, b.cur, b.vname⟩]
                   known := (colName a.cols k, some b.nodes.length) :: b.known
                   last := (colName a.cols k, some b.nodes.length) } := by
        unfold Reader.row
        rw [kind_explicitRow hg h1.toGoodName h2 hne ho hh]
        simp [Reader.addArgs, hi, cellValue_full hv]
      simp only [List.foldl_cons, List.foldl_nil, e]
      have := foldl_explicitRows hg ho hh hrP vs (k + 1)
        { a with nodes := a.nodes ++ [⟨r, colName a.cols k, .str (strip v), a.last.2, a.cur, a.vname⟩] }
        { b with nodes := b.nodes ++ [⟨r, colName a.cols k, .str (strip v), i, b.cur, b.vname⟩]
                 known := (colName a.cols k, some b.nodes.length) :: b.known
                 last := (colName a.cols k, some b.nodes.length) }
        ⟨by simp only; rw [h.nodes, h.cur, h.vname, hl], h.secs, h.cur, h.cols, h.vname, by
          intro x hx
          simp only [Dict.get?_cons]
          rw [if_neg (fun e' : colName a.cols k = x => hx (e' ▸ hin))]; exact h.known x hx⟩ hl
        (by simp only [Dict.get?_cons]; rw [if_neg (Ne.symm hne)]; exact hi) hf.2 fun x hx => hP x (List.mem_append_right _ hx)
      exact this

theorem plainFrom_mono : ∀ {rows : List (List Str)} {known known' : List Str}, (∀ k ∈ known, k ∈ known') →
    plainFrom known rows = true → plainFrom known' rows = true
  | [], _, _, _, _ => rfl
  | row :: rows, known, known', hs, h => by
    unfold plainFrom at h ⊢
    cases hk : kind row <;> rw [hk] at h <;> simp only [Bool.and_eq_true, List.contains_eq_mem, decide_eq_true_eq] at h ⊢
    case special => cases h
    case named =>
      refine ⟨hs _ h.1, plainFrom_mono ?_ h.2⟩
      intro k hk
      rcases List.mem_cons.1 hk with rfl | hk
      · exact List.mem_cons_self
      · exact List.mem_cons_of_mem _ (hs k hk)
    all_goals exact plainFrom_mono hs h

theorem plainFrom_explicitRows {r : Str} (hg : GoodName r) (ho : ordinary r = true) (hh : r.head? ≠ some '#') {cols : List Str}
    {rows : List (List Str)} : ∀ {vs : List Str} {k : Nat} {known : List Str}, Fits cols k vs → r ∉ filled cols k vs → r ∈ known →
    plainFrom known rows = true → plainFrom known (explicitRows r cols k vs ++ rows) = true
  | [], _, _, _, _, _, h => h
  | v :: vs, k, known, hf, hr, hkn, h => by
    rw [explicitRows]
    rw [filled] at hr
    by_cases hv : strip v = []
    · rw [if_pos hv]
      exact plainFrom_explicitRows hg ho hh (k := k + 1) hf.2 (fun hm => hr (List.mem_append_right _ hm)) hkn h
    · rw [if_neg hv]
      rw [if_neg hv] at hr
      obtain ⟨h1, h2⟩ := hf.1 hv
      show plainFrom known (_ :: (explicitRows r cols (k + 1) vs ++ rows)) = true
      unfold plainFrom
      have hne : r ≠ colName cols k := fun e => hr (List.mem_append_left _ (List.mem_singleton.2 e))
      rw [kind_explicitRow hg h1.toGoodName h2 hne ho hh]
      simp only [Bool.and_eq_true, List.contains_eq_mem, decide_eq_true_eq]
      exact ⟨hkn, plainFrom_explicitRows hg ho hh (k := k + 1) hf.2 (fun hm => hr (List.mem_append_right _ hm)) (List.mem_cons_of_mem _ hkn)
        (plainFrom_mono (fun k hk => List.mem_cons_of_mem _ hk) h)⟩

/-- **C30** (explicit rows). In a file of ordinary rows, a term row `Name` with argument cells under columns with ordinary names other than
`Name` may be replaced by the term row with its value only, followed by a row `Name.Column, cell` for each filled cell: the document is
the same. The next row must name a term or start a section, and no later row may refer to one of the columns as a parent, because the
explicit rows make those names known. A name starting with `#` would turn the rows into comments. -/
theorem C30_explicit {env : Env} {classes : Dict Cls} (hcl : PlainClasses classes) {before after_ : List (List Str)} {c v p r : Str}
    {vs : List Str} (hk : kind (c :: v :: vs) = .named p r) (hf : Fits (readAll before).cols 0 vs)
    (hr : r ∉ filled (readAll before).cols 0 vs) (hh : r.head? ≠ some '#')
    (ha : after_ = [] ∨ ∃ row rest, after_ = row :: rest ∧ Resets row)
    (hP : ∀ row ∈ after_, ∀ p' r', kind row = .named p' r' → p' ∉ filled (readAll before).cols 0 vs)
    (h : plainFile (before ++ (c :: v :: vs) :: after_) = true) (files : Files) (fuel : Nat) (path : Str) :
    ∃ s s', parseRows files (fuel + 1) path (before ++ (c :: v :: vs) :: after_) (newDoc env classes) = .ok () s ∧
      parseRows files (fuel + 1) path (before ++ [c, v] :: (explicitRows r (readAll before).cols 0 vs ++ after_)) (newDoc env classes) =
        .ok () s' ∧ SameDoc s s' := by
  have hk' : kind [c, v] = .named p r := kind_named_rest hk _
  have ho : ordinary r = true := kind_ordinary (.inr ⟨p, hk⟩)
  have hg : GoodName r := by
    rcases kind_cases (c :: v :: vs) with ⟨k, -⟩ | ⟨c', rest, -, -, ⟨k, -⟩ | ⟨k, -⟩ | ⟨r', k, -⟩ | ⟨p', r', k, -, hg, -⟩ | k⟩ <;>
      rw [hk] at k <;> cases k
    exact hg.toGoodName
  have h' : plainFile (before ++ [c, v] :: (explicitRows r (readAll before).cols 0 vs ++ after_)) = true := by
    refine plainFrom_tail ?_ h
    intro known hx
    unfold plainFrom at hx ⊢
    rw [hk] at hx; rw [hk']
    simp only [Bool.and_eq_true] at hx ⊢
    exact ⟨hx.1, plainFrom_explicitRows hg ho hh hf hr List.mem_cons_self hx.2⟩
  have e : Alike (filled (readAll before).cols 0 vs) (readAll (before ++ (c :: v :: vs) :: after_))
      (readAll (before ++ [c, v] :: (explicitRows r (readAll before).cols 0 vs ++ after_))) := by
    obtain ⟨a, ha'⟩ : ∃ a, a = readAll before := ⟨_, rfl⟩
    rw [← ha'] at hf hr hP ⊢
    have e1 : ∀ x, readAll (before ++ x) = x.foldl Reader.row a := by
      intro x; unfold readAll; rw [List.foldl_append, ha']; rfl
    rw [e1, e1, List.foldl_cons, List.foldl_cons, List.foldl_append, row_named hk, row_named hk']
    refine alike_rows ?_ (.inr ha) hP
    refine foldl_explicitRows (i := some a.nodes.length) hg ho hh hr vs 0 _ _ ⟨rfl, rfl, rfl, rfl, rfl, fun _ _ => rfl⟩ rfl ?_ hf (fun x hx => hx)
    show Dict.get? ((r, _) :: _) r = _
    rw [Dict.get?_cons, if_pos rfl]
  exact plain_same hcl h h' e.nodes e.secs files fuel path

/-- A file meeting the hypotheses, and its two other forms. -/
example :
    let before := [[py!"Section", py!"S", py!"A", py!"B", py!"C"]]
    let vs := [py!"1", py!"", py!"3"]
    plainFile (before ++ [py!"Table", py!"t", py!"1", py!"", py!"3"] :: [[py!"Other", py!"o"]]) = true ∧
    kind [py!"Table", py!"t", py!"1", py!"", py!"3"] = .named (py!"root") (py!"table") ∧
    elidedRows (readAll before).cols 0 vs = [[py!".a", py!"1"], [py!".c", py!"3"]] ∧
    explicitRows (py!"table") (readAll before).cols 0 vs = [[py!"table.a", py!"1"], [py!"table.c", py!"3"]] ∧
    filled (readAll before).cols 0 vs = [py!"a", py!"c"] := by decide +kernel

/-- Why the next row matters for explicit rows: an elided row after `Table.A` goes below `A`, not below the table. -/
theorem C30_explicit_witness :
    let s := exParse [[py!"Section", py!"S", py!"A"], [py!"Table", py!"t", py!"1"], [py!".X", py!"x"]]
    let s' := exParse [[py!"Section", py!"S", py!"A"], [py!"Table", py!"t"], [py!"Table.A", py!"1"], [py!".X", py!"x"]]
    (s.heap 4).rt = py!"x" ∧ (s.heap 4).pt = py!"table" ∧ (s'.heap 4).rt = py!"x" ∧ (s'.heap 4).pt = py!"a" := by decide +kernel

/-! ## C31 -/

/-- The row starts no section. -/
def Stays (row : List Str) : Prop := ∀ n cols, kind row ≠ .section n cols

theorem plain_not_special : ∀ {rows : List (List Str)} {known : List Str}, plainFrom known rows = true → ∀ row ∈ rows, kind row ≠ .special
  | [], _, _, row, hm => by cases hm
  | r :: rows, known, h, row, hm => by
    obtain ⟨h1, known', h2⟩ := plainFrom_head h
    rcases List.mem_cons.1 hm with rfl | hm
    · exact h1
    · exact plain_not_special h2 row hm

theorem argsEffect_sections {t : Nat} : ∀ {vs : List Str} {k : Nat} {s : St}, (argsEffect t k vs s).sections = s.sections
  | [], _, _ => rfl
  | v :: vs, k, s => by
    rw [argsEffect, argsEffect_sections]
    unfold argEffect; split <;> rfl

theorem termEffect_sections {p r : Str} {rest : List Str} {s : St} : (termEffect p r rest s).sections = s.sections := by
  unfold termEffect; rw [argsEffect_sections]; rfl

theorem stays_p {s s' : St} {rows : List (List Str)} (h : PlainRows s rows s') (hsp : ∀ row ∈ rows, kind row ≠ .special)
    (hq : ∀ row ∈ rows, Stays row) : s'.p.lastSec = s.p.lastSec ∧ s'.sections = s.sections := by
  induction h with
  | nil => exact ⟨rfl, rfl⟩
  | cons hr _ ih =>
    obtain ⟨i1, i2⟩ := ih (fun row hm => hsp row (List.mem_cons_of_mem _ hm)) fun row hm => hq row (List.mem_cons_of_mem _ hm)
    rw [i1, i2]
    have hst := hq _ List.mem_cons_self
    rcases hr.by_kind with ⟨k, rfl⟩ | ⟨c, rest, -, -, k, -⟩ | ⟨c, rest, -, -, -, rfl⟩ | ⟨c, x', rest, -, -, -, rfl⟩ |
      ⟨c, p, r, rest, -, -, -, -, rfl⟩ | k
    · exact ⟨rfl, rfl⟩
    · exact absurd k (hst _ _)
    · exact ⟨rfl, rfl⟩
    · rw [termEffect_p, termEffect_sections]; exact ⟨by split <;> rfl, rfl⟩
    · rw [termEffect_p, termEffect_sections]; exact ⟨by split <;> rfl, rfl⟩
    · exact absurd k (hsp _ List.mem_cons_self)

/-- The document after reading some rows. -/
def docOf (files : Files) (fuel : Nat) (path : Str) (rows : List (List Str)) (doc : St) : St := after (parseRows files fuel path rows) doc

theorem docOf_plain {env : Env} {classes : Dict Cls} (hcl : PlainClasses classes) {rows : List (List Str)} {s' : St}
    (h : PlainRows (newDoc env classes) rows s') (files : Files) (fuel : Nat) (path : Str) :
    docOf files (fuel + 1) path rows (newDoc env classes) = after finishLoad s' := by
  unfold docOf
  rw [show after (parseRows files (fuel + 1) path rows) (newDoc env classes) = after finishLoad s' from by
    conv_lhs => unfold after
    rw [parse_plain hcl h]]

/-- **C31** (no new section). When a `Section` row names a section that has been read before, ignoring case, the document has the same
sections in the same order with the same columns and terms, and the same terms as before the row. -/
theorem C31_no_new {env : Env} {classes : Dict Cls} (hcl : PlainClasses classes) {before : List (List Str)} {row : List Str} {n : Str}
    {cols : List Str} (h : plainFile (before ++ [row]) = true) (hk : kind row = .section n cols) (files : Files) (fuel : Nat) (path : Str)
    {x : Nat} (hx : (docOf files (fuel + 1) path before (newDoc env classes)).sections.get? (lower n) = some x) :
    let s := docOf files (fuel + 1) path before (newDoc env classes)
    let s' := docOf files (fuel + 1) path (before ++ [row]) (newDoc env classes)
    s'.sections = s.sections ∧ s'.terms = s.terms ∧
    ∀ k y, s.sections.get? k = some y → (s'.heap y).value = (s.heap y).value ∧ (s'.heap y).args = (s.heap y).args ∧
      (s'.heap y).terms = (s.heap y).terms := by
  obtain ⟨s0, s1, s2, h0, i0, r0, -, h2, -⟩ := plainFile_split (env := env) (b := []) hcl h
  cases h2
  intro s s'
  have e0 : s = after finishLoad s0 := docOf_plain hcl h0 files fuel path
  have e1 : s' = after finishLoad s1 := docOf_plain hcl (h0.append (.cons r0 .nil)) files fuel path
  obtain ⟨c, rest, -, hc, hn, -, hs1⟩ := r0.of_section hk
  have kp := keep_section i0 hc
  rw [← hs1] at kp
  have hx : s.sections.get? (lower n) = some x := hx
  rw [e0] at hx ⊢
  rw [e1]
  have hx : s0.sections.get? (lower n) = some x := hx
  have hsec : s1.sections = s0.sections := by
    rw [hs1]
    show (if _ then _ else _) = _
    rw [if_pos]; rw [Dict.has, ← hn, hx]; rfl
  refine ⟨hsec, kp.terms', ?_⟩
  intro k y hy
  have hy : s0.sections.get? k = some y := hy
  have hlt := (i0.wf.secsLt _ (Dict.mem_of_get? hy)).1
  obtain ⟨-, -, a3, -, a5, -, -⟩ := kp.obj y hlt
  exact ⟨a3, a5, kp.secTerms' y hlt⟩

/-- **C31** (terms that follow). The root-level term of any row after the repeated `Section` row, with no other section row in between,
belongs to the section that was there before and is listed among its terms. -/
theorem C31_reopens {env : Env} {classes : Dict Cls} (hcl : PlainClasses classes) {before between after_ : List (List Str)}
    {row : List Str} {n c r : Str} {cols cells : List Str}
    (h : plainFile (before ++ row :: (between ++ (c :: cells) :: after_)) = true) (hk : kind row = .section n cols)
    (hq : ∀ row ∈ between, Stays row) (hc : kind (c :: cells) = .named (py!"root") r) (files : Files) (fuel : Nat) (path : Str)
    {x : Nat} (hx : (docOf files (fuel + 1) path before (newDoc env classes)).sections.get? (lower n) = some x) :
    ∃ s, parseRows files (fuel + 1) path (before ++ row :: (between ++ (c :: cells) :: after_)) (newDoc env classes) = .ok () s ∧
      let j := nextTerm files (fuel + 1) path (before ++ row :: between) (newDoc env classes)
      (s.heap j).rt = r ∧ (s.heap j).value = (Val.str (cells.headD [])).mk ∧ (s.heap j).sec = some x ∧ j ∈ (s.heap x).terms ∧
      j ∈ s.terms := by
  obtain ⟨s0, s1, s4, h0, i0, r0, i1, h4, i4⟩ := plainFile_split (env := env) hcl h
  obtain ⟨s2, h2, h3⟩ := h4.split
  have i2 := h2.inv i1
  cases h3 with
  | @cons _ s3 _ _ _ r3 h5 =>
  have i3 := r3.inv i2
  obtain ⟨_, rest, -, hsec, hn, -, e1⟩ := r0.of_section hk
  obtain ⟨_, _, e, hc', -, e3⟩ := r3.of_named hc
  cases e
  refine ⟨_, parse_plain hcl (h0.append (.cons r0 (h2.append (.cons r3 h5)))) files fuel path, ?_⟩
  rw [nextTerm_plain hcl (h0.append (.cons r0 h2))]
  have l34 : Later s3 (after finishLoad s4) := (h5.later i3).trans (later_finish s4)
  rw [docOf_plain hcl h0 files fuel path] at hx
  have hx : s0.sections.get? (lower n) = some x := hx
  have hls : s2.p.lastSec = x := by
    have hsp : ∀ row ∈ between, kind row ≠ .special := by
      intro row' hm
      exact plain_not_special h row' (List.mem_append_right _ (List.mem_cons_of_mem _ (List.mem_append_left _ hm)))
    rw [(stays_p h2 hsp hq).1, e1]
    show secOf s0 rest = x
    unfold secOf; rw [← hn, hx]; rfl
  have n3 := termEffect_new i2 hc' cells
  rw [← e3] at n3
  simp only at n3
  obtain ⟨b1, b2, b3, b4, b5, b6, b7⟩ := n3
  have hlt2 : s2.next < s3.next := by rw [e3]; exact termEffect_lt
  obtain ⟨g1, g2, g3, g4, g5, g6, g7⟩ := l34.obj _ hlt2
  obtain ⟨b8, b9⟩ := b7 (by rw [show finalPt s2.p (py!"root") = py!"root" from if_neg (by decide)]; decide)
  refine ⟨by rw [g2, b2], by rw [g3, b3], ?_, ?_, l34.terms.subset b8⟩
  · rw [l34.sec _ hlt2, b5, hls]
    rw [e3]; exact termEffect_cls i2 hc' cells
  · rw [← hls]; exact (l34.secTerms _ (Nat.lt_trans i2.wf.pSec.1 hlt2)).subset b9

/-- A file meeting the hypotheses; the name is repeated in another case. -/
example : plainFile ([[py!"Section", py!"Tables", py!"A"], [py!"Table", py!"t"], [py!"Section", py!"Other"]] ++
      [py!"Section", py!"TABLES"] :: ([[py!".X", py!"x"]] ++ [py!"Table", py!"u"] :: [])) = true ∧
    kind [py!"Section", py!"TABLES"] = .section (py!"TABLES") [] ∧ kind [py!"Table", py!"u"] = .named (py!"root") (py!"table") ∧
    (exParse [[py!"Section", py!"Tables", py!"A"], [py!"Table", py!"t"], [py!"Section", py!"Other"]]).sections.get?
      (lower (py!"TABLES")) = some 1 := by decide +kernel

/-! ## C53 -/

/-- The row changes neither the section nor the columns. -/
def KeepsColumns (row : List Str) : Prop := Stays row ∧ ∀ n cols, kind row ≠ .header n cols

theorem keepsColumns_p {s s' : St} {rows : List (List Str)} (h : PlainRows s rows s') (hsp : ∀ row ∈ rows, kind row ≠ .special)
    (hq : ∀ row ∈ rows, KeepsColumns row) : s'.p.paramMap = s.p.paramMap ∧ s'.p.defTvn = s.p.defTvn := by
  induction h with
  | nil => exact ⟨rfl, rfl⟩
  | cons hr _ ih =>
    obtain ⟨i1, i2⟩ := ih (fun row hm => hsp row (List.mem_cons_of_mem _ hm)) fun row hm => hq row (List.mem_cons_of_mem _ hm)
    rw [i1, i2]
    have hst := hq _ List.mem_cons_self
    rcases hr.by_kind with ⟨k, rfl⟩ | ⟨c, rest, -, -, k, -⟩ | ⟨c, rest, -, -, k, rfl⟩ | ⟨c, x', rest, -, -, -, rfl⟩ |
      ⟨c, p, r, rest, -, -, -, -, rfl⟩ | k
    · exact ⟨rfl, rfl⟩
    · exact absurd k (hst.1 _ _)
    · exact absurd k (hst.2 _ _)
    · rw [termEffect_p]; split <;> exact ⟨rfl, rfl⟩
    · rw [termEffect_p]; split <;> exact ⟨rfl, rfl⟩
    · exact absurd k (hsp _ List.mem_cons_self)

/-- **C53** (the header is no term). A `Header` row leaves the document's terms, its sections, their columns and terms, and the children of
every term as they were. -/
theorem C53_no_term {env : Env} {classes : Dict Cls} (hcl : PlainClasses classes) {before : List (List Str)} {row : List Str} {n : Str}
    {cols : List Str} (h : plainFile (before ++ [row]) = true) (hk : kind row = .header n cols) (files : Files) (fuel : Nat) (path : Str) :
    let s := docOf files (fuel + 1) path before (newDoc env classes)
    let s' := docOf files (fuel + 1) path (before ++ [row]) (newDoc env classes)
    s'.terms = s.terms ∧ s'.sections = s.sections ∧ s'.root = s.root ∧
    ∀ t, t < s.next → (s'.heap t).children = (s.heap t).children ∧ (s'.heap t).terms = (s.heap t).terms ∧
      (s'.heap t).args = (s.heap t).args ∧ (s'.heap t).value = (s.heap t).value := by
  obtain ⟨s0, s1, s2, h0, i0, r0, -, h2, -⟩ := plainFile_split (env := env) (b := []) hcl h
  cases h2
  intro s s'
  have e0 : s = after finishLoad s0 := docOf_plain hcl h0 files fuel path
  have e1 : s' = after finishLoad s1 := docOf_plain hcl (h0.append (.cons r0 .nil)) files fuel path
  obtain ⟨c, rest, -, hc, hn, -, hs1⟩ := r0.of_header hk
  have kp : Keep s0 s1 := by rw [hs1]; exact keep_header
  rw [e0, e1]
  refine ⟨kp.terms', by rw [hs1]; rfl, kp.root, ?_⟩
  intro t ht
  obtain ⟨-, -, a3, -, a5, -, -⟩ := kp.obj t ht
  exact ⟨kp.children' t ht, kp.secTerms' t ht, a5, a3⟩

theorem argsEffect_cell {F : Prop} {t : Nat} {R : Str} (hg : PlainName R) : ∀ {vs : List Str} {k : Nat} {s : St}, PInv F s → t < s.next →
    (s.heap t).rt = R → (∀ v ∈ vs, strip v = v) → ∀ {i : Nat} {v : Str}, vs[i]? = some v → v ≠ [] →
    ∃ u, u < (argsEffect t k vs s).next ∧ u ∈ ((argsEffect t k vs s).heap (lastTerm s)).children ∧
      ((argsEffect t k vs s).heap u).rt = remapRecord s.p.paramMap (natStr (k + i)) ∧ ((argsEffect t k vs s).heap u).pt = R ∧
      ((argsEffect t k vs s).heap u).value = .str v
  | [], _, _, _, _, _, _, i, v, h, _ => by simp at h
  | w :: vs, k, s, hp, ht, hR, hst, i, v, h, hv => by
    obtain ⟨i1, i2, i3⟩ := argEffect_inv (k := k) (v := w) hp ht (by rw [hR]; exact hg)
    rw [argsEffect]
    cases i with
    | zero =>
      simp only [List.getElem?_cons_zero, Option.some.injEq] at h
      subst h
      have hw := hst w List.mem_cons_self
      have e : argEffect t k w s = addTerm s (argCell s t k w) R (remapRecord s.p.paramMap (natStr k)) (lastTerm s) := by
        unfold argEffect; rw [if_neg (by rw [hw]; exact hv), hR]
      have hl : lastTerm s < s.next := by
        have := parent_lt hp ELIDED
        unfold parentOf at this; rwa [if_pos rfl] at this
      have l : Later (argEffect t k w s) (argsEffect t (k + 1) vs (argEffect t k w s)) := later_argsEffect
      have hlt : s.next < (argEffect t k w s).next := by rw [e]; exact Nat.lt_succ_self _
      have hne : R ≠ ELIDED := fun e => hg.plain (by rw [e]; decide)
      obtain ⟨a1, a2, a3, -⟩ := l.obj s.next hlt
      refine ⟨s.next, Nat.lt_of_lt_of_le hlt l.next, ?_, ?_, ?_, ?_⟩
      · refine (l.children _ (Nat.lt_trans hl hlt)).subset ?_
        rw [e, addTerm_heap_old hl]; simp
      · rw [a2, e, addTerm_heap_new, finalObj_rt]; rfl
      · rw [a1, e, addTerm_heap_new, finalObj_pt]; exact if_neg hne
      · rw [a3, e, addTerm_heap_new, finalObj_value]
        unfold argCell argObj
        simp only
        rw [cellValue_mk, cellValue_full (by rw [hw]; exact hv), hw]
    | succ i =>
      simp only [List.getElem?_cons_succ] at h
      obtain ⟨u, u1, u2, u3, u4, u5⟩ := argsEffect_cell hg (k := k + 1) i1 i2 (i3.trans hR) (fun v hm => hst v (List.mem_cons_of_mem _ hm)) h hv
      have hl : lastTerm (argEffect t k w s) = lastTerm s := by
        unfold lastTerm; rw [argEffect_p]; unfold argEffect; split <;> rfl
      rw [hl] at u2
      rw [argEffect_p, show k + 1 + i = k + (i + 1) by omega] at u3
      exact ⟨u, u1, u2, u3, u4, u5⟩

/-- **C53** (argument cells). After a `Header` row, every filled argument cell of a row naming a term in the same section becomes a child
of that term, named by the header's cell in the same position (or by its position if that cell is blank or missing), with the cell's
text as its value. -/
theorem C53_names {env : Env} {classes : Dict Cls} (hcl : PlainClasses classes) {before between after_ : List (List Str)}
    {row : List Str} {n c v p r : Str} {cols vs : List Str}
    (h : plainFile (before ++ row :: (between ++ (c :: v :: vs) :: after_)) = true) (hk : kind row = .header n cols)
    (hq : ∀ row ∈ between, KeepsColumns row) (hc : kind (c :: v :: vs) = .named p r)
    {i : Nat} {cell : Str} (hi : vs[i]? = some cell) (hb : strip cell ≠ []) (files : Files) (fuel : Nat) (path : Str) :
    ∃ s, parseRows files (fuel + 1) path (before ++ row :: (between ++ (c :: v :: vs) :: after_)) (newDoc env classes) = .ok () s ∧
      let j := nextTerm files (fuel + 1) path (before ++ row :: between) (newDoc env classes)
      (s.heap j).rt = r ∧ (s.heap j).value = (Val.str v).mk ∧
      ∃ u ∈ (s.heap j).children, (s.heap u).pt = r ∧ (s.heap u).rt = colName cols i ∧ (s.heap u).value = .str (strip cell) := by
  obtain ⟨s0, s1, s4, h0, i0, r0, i1, h4, i4⟩ := plainFile_split (env := env) hcl h
  obtain ⟨s2, h2, h3⟩ := h4.split
  have i2 := h2.inv i1
  cases h3 with
  | @cons _ s3 _ _ _ r3 h5 =>
  have i3 := r3.inv i2
  obtain ⟨_, rest, -, -, -, hcols, e1⟩ := r0.of_header hk
  obtain ⟨_, _, e, hc', hne, e3⟩ := r3.of_named hc
  cases e
  refine ⟨_, parse_plain hcl (h0.append (.cons r0 (h2.append (.cons r3 h5)))) files fuel path, ?_⟩
  rw [nextTerm_plain hcl (h0.append (.cons r0 h2))]
  have l34 : Later s3 (after finishLoad s4) := (h5.later i3).trans (later_finish s4)
  have hsp : ∀ row ∈ between, kind row ≠ .special := by
    intro row' hm
    exact plain_not_special h row' (List.mem_append_right _ (List.mem_cons_of_mem _ (List.mem_append_left _ hm)))
  have hpm : s2.p.paramMap = mungeParamMap cols := by
    rw [(keepsColumns_p h2 hsp hq).1, e1, hcols]; rfl
  have n3 := termEffect_new i2 hc' (v :: vs)
  rw [← e3] at n3
  simp only at n3
  obtain ⟨b1, b2, b3, b4, b5, b6, b7⟩ := n3
  have hlt2 : s2.next < s3.next := by rw [e3]; exact termEffect_lt
  obtain ⟨g1, g2, g3, -⟩ := l34.obj _ hlt2
  refine ⟨by rw [g2, b2], by rw [g3, b3]; rfl, ?_⟩
  obtain ⟨sa, hsa⟩ : ∃ sa, sa = addTerm s2 (rowObj (parserTermClass s2 (dotJoin p r)) p r (v :: vs)) p r (parentOf s2 p) := ⟨_, rfl⟩
  have ia : PInv True sa := by rw [hsa]; exact addTerm_row_inv i2 hc' (v :: vs)
  have e3' : s3 = argsEffect s2.next 0 (vs.map strip) sa := by rw [e3, hsa]; rfl
  have hpa : sa.p = { s2.p with lastParent := r, lastMap := (s2.p.lastMap.set ELIDED s2.next).set r s2.next } := by
    rw [hsa]
    show nextP .. = _
    unfold nextP
    rw [if_pos (show Named p (rowObj (parserTermClass s2 (dotJoin p r)) p r (v :: vs)).col from ⟨hne, Nat.le_refl 1⟩)]
  have hlast : lastTerm sa = s2.next := by
    unfold lastTerm; rw [hpa]
    show (Dict.get? (Dict.set _ _ _) _).getD _ = _
    rw [Dict.get?_set, if_pos rfl]; rfl
  obtain ⟨u, u1, u2, u3, u4, u5⟩ := argsEffect_cell hc'.name (t := s2.next) (k := 0) (vs := vs.map strip) ia
    (by rw [hsa]; exact Nat.lt_succ_self _) (by rw [hsa, addTerm_heap_new, finalObj_rt])
    (by intro v hv; obtain ⟨w, -, rfl⟩ := List.mem_map.1 hv; exact strip_strip w) (i := i) (v := strip cell)
    (by rw [List.getElem?_map, hi]; rfl) hb
  rw [← e3', hlast] at u2
  rw [← e3'] at u1 u3 u4 u5
  rw [hpa] at u3
  obtain ⟨f1, f2, f3, -⟩ := l34.obj u u1
  refine ⟨u, (l34.children _ hlt2).subset u2, by rw [f1, u4], ?_, by rw [f3, u5]⟩
  rw [f2, u3]
  show remapRecord s2.p.paramMap _ = _
  rw [hpm, Nat.zero_add, remap_colName]

/-- A file meeting the hypotheses. The section has a column `A`, which the header replaces. -/
example : plainFile ([[py!"Section", py!"S", py!"A"]] ++ [py!"Header", py!"Name", py!"X", py!"Y"] ::
      ([[py!"Table", py!"t"]] ++ [py!"Table", py!"u", py!"1", py!"2"] :: [])) = true ∧
    kind [py!"Header", py!"Name", py!"X", py!"Y"] = .header (py!"Name") [py!"X", py!"Y"] ∧
    kind [py!"Table", py!"u", py!"1", py!"2"] = .named (py!"root") (py!"table") ∧
    (let s := exParse [[py!"Section", py!"S", py!"A"], [py!"Header", py!"Name", py!"X", py!"Y"], [py!"Table", py!"t"],
      [py!"Table", py!"u", py!"1", py!"2"]]
     show_ s (s.heap 4).children = [(py!"table.x", .str (py!"1")), (py!"table.y", .str (py!"2"))]) := by decide +kernel

end Metatab
