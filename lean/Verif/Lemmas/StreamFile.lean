import Verif.Lemmas.Stream
import Verif.Props.Where
/-! Files of ordinary rows in the second run of the parser. -/
namespace Metatab
open Py Spec

/-- A row keeps the sections that are there. -/
theorem row_secs (a : Reader) (row : List Str) {k : Str} {v : Str × List Str} (h : Dict.get? a.secs k = some v) :
    Dict.get? (a.row row).secs k = some v := by
  unfold Reader.row
  cases hk : kind row with
  | noise => exact h
  | special => exact h
  | header n cols => exact h
  | elided r => dsimp only; rw [addArgs_eq]; exact h
  | named p r => dsimp only; rw [addArgs_eq]; exact h
  | «section» n cols =>
    dsimp only
    cases hg : a.secs.get? (lower n) with
    | some w => exact h
    | none =>
      dsimp only
      rw [show a.secs ++ [(lower n, n, cols)] = a.secs.set (lower n) (n, cols) from (Dict.set_append (Dict.get?_eq_none.1 hg) _).symm, Dict.get?_set]
      rw [if_neg (by rintro rfl; rw [h] at hg; cases hg)]
      exact h

theorem rows_secs : ∀ (rows : List (List Str)) (a : Reader) {k : Str} {v : Str × List Str}, Dict.get? a.secs k = some v →
    Dict.get? (rows.foldl Reader.row a).secs k = some v
  | [], _, _, _, h => h
  | row :: rows, a, _, _, h => rows_secs rows (a.row row) (row_secs a row h)

/-- A section row opens a section. -/
theorem row_section (a : Reader) {row : List Str} {n : Str} {cols : List Str} (hk : kind row = .section n cols) :
    ∃ m cs, Dict.get? (a.row row).secs (lower n) = some (m, cs) ∧ (a.row row).cols = cs ∧ (a.row row).cur = lower n ∧
      (a.row row).vname = py!"@value" ∧ (a.row row).last = (py!"root", none) ∧
      a.rowLines row = [py!"None:root.section=" ++ m] := by
  unfold Reader.rowLines Reader.row
  rw [hk]
  dsimp only
  cases hg : a.secs.get? (lower n) with
  | some w => exact ⟨w.1, w.2, hg, rfl, rfl, rfl, rfl, rfl⟩
  | none =>
    refine ⟨n, cols, ?_, rfl, rfl, rfl, rfl, rfl⟩
    dsimp only
    rw [show a.secs ++ [(lower n, n, cols)] = a.secs.set (lower n) (n, cols) from (Dict.set_append (Dict.get?_eq_none.1 hg) _).symm, Dict.get?_set, if_pos rfl]

/-- The rows of a file whose sections all exist, in the second run. -/
theorem genRowsP_rows {F : Prop} {files : Files} {sub : Str → Bool → PrintM Unit} {old : Nat → Option Place} {f : Source} {dir : Str} {sec : Str → Str}
    {rows : List (List Str)} : ∀ {s s' : St} {a : Reader} {ids : List Nat} {known : List Str} {n : Nat}, PInv F s → Sim s a ids → a.last.1 ≠ ELIDED →
    PlainRows s rows s' → plainFrom known rows = true →
    (∀ row ∈ rows, ∀ n cols, kind row = .section n cols → (a.secs.get? (lower n)).isSome) →
    (∀ k x, s.sections.get? k = some x → frontOf (old x) = sec k) → ∀ ls lp, ∃ ls',
      genRowsP files sub old f false dir n ls lp rows s = (Reader.placed (fun r c => fileRef ⟨f.file, r, c⟩) sec n a rows, .ok ls' s') := by
  induction rows with
  | nil => intro s s' a ids known n _ h _ hr _ _ _ ls lp; cases hr; exact ⟨ls, rfl⟩
  | cons row rows ih =>
    intro s s' a ids known n hp h hl hr hk hsec hold ls lp
    cases hr with
    | cons hr ht =>
      obtain ⟨k1, known', k2⟩ := plainFrom_head hk
      obtain ⟨ids', h'⟩ := sim_row hp h hr k1
      have hs := sections_row hp h hr k1 (hsec row List.mem_cons_self)
      obtain ⟨hl', ls1, lp1, e⟩ := genRowsP_row (files := files) (sub := sub) (dir := dir) (f := f) (n := n) (ls := ls) (lp := lp) hp h hl hr k1
        (hsec row List.mem_cons_self) hold
      obtain ⟨ls', e'⟩ := ih (n := n + 1) (hr.inv hp) h' hl' ht k2 (fun row' hm n cols hk' => by
        obtain ⟨v, hv⟩ := Option.isSome_iff_exists.1 (hsec row' (List.mem_cons_of_mem _ hm) n cols hk')
        rw [row_secs a row hv]; rfl) (by rw [hs]; exact hold) ls1 lp1
      refine ⟨ls', ?_⟩
      rw [e, e']
      rfl

/-- What the lines of the rows to come depend on. -/
structure SameLines (a b : Reader) (rows : List (List Str)) : Prop where
  secs : b.secs = (rows.foldl Reader.row a).secs
  cur : b.cur = a.cur
  known : (Dict.get? a.secs a.cur).isSome
  vname : b.vname = a.vname
  last : b.last.1 = a.last.1
  cols : b.cols = a.cols ∨ bareStart rows = true

theorem argNodes_blank (a : Reader) (r : Str) : ∀ {vs : List Str} {k : Nat}, (∀ v ∈ vs, strip v = []) → argNodes a r k vs = []
  | [], _, _ => rfl
  | v :: vs, k, h => by
    unfold argNodes
    rw [if_pos (h v List.mem_cons_self), argNodes_blank a r fun v hv => h v (List.mem_cons_of_mem _ hv)]
    rfl

/-- Argument cells give the same lines. -/
theorem argNodes_lines {a b : Reader} {sa sb : Dict (Str × List Str)} (hs : Dict.get? sb b.cur = Dict.get? sa a.cur)
    (hcur : b.cur = a.cur) (r : Str) {vs : List Str} (hc : b.cols = a.cols ∨ ∀ v ∈ vs, strip v = []) : ∀ k : Nat,
    (argNodes b r k vs).map (nodeLine sb) = (argNodes a r k vs).map (nodeLine sa) := by
  rcases hc with hc | hc
  · induction vs with
    | nil => intro k; rfl
    | cons v vs ih =>
      intro k
      unfold argNodes
      rw [List.map_append, List.map_append, ih, hc]
      by_cases hv : strip v = []
      · rw [if_pos hv, if_pos hv]; rfl
      · rw [if_neg hv, if_neg hv]
        simp only [List.map_cons, List.map_nil, nodeLine]
        rw [hs]
  · intro k
    rw [argNodes_blank b r hc, argNodes_blank a r hc]; rfl

theorem lines_same {at_ : Nat → Nat → Str} {sec : Str → Str} : ∀ {rows : List (List Str)} {a b : Reader} {n : Nat}, SameLines a b rows →
    Reader.placed at_ sec n b rows = Reader.placed at_ sec n a rows
  | [], _, _, _, _ => rfl
  | row :: rows, a, b, n, h => by
    have hsec : ∀ {k v}, Dict.get? (a.row row).secs k = some v → Dict.get? b.secs k = some v := by
      intro k v hv
      rw [h.secs]; exact rows_secs rows _ hv
    obtain ⟨v, hv⟩ := Option.isSome_iff_exists.1 h.known
    have hcur : Dict.get? b.secs b.cur = Dict.get? a.secs a.cur := by
      rw [h.cur, hv]; exact hsec (row_secs a row hv)
    have hkn : ∀ {k}, (Dict.get? a.secs k).isSome → (Dict.get? (a.row row).secs k).isSome := by
      intro k hk
      obtain ⟨w, hw⟩ := Option.isSome_iff_exists.1 hk
      rw [row_secs a row hw]; rfl
    have key : b.rowLines row = a.rowLines row ∧ SameLines (a.row row) (b.row row) rows := by
      cases hk : kind row with
      | noise =>
        have ea : a.row row = a := by unfold Reader.row; rw [hk]
        have eb : b.row row = b := by unfold Reader.row; rw [hk]
        refine ⟨by unfold Reader.rowLines; rw [hk, ea, eb]; simp, ?_⟩
        have hs := h.secs
        rw [List.foldl_cons, ea] at hs
        rw [ea, eb]
        refine ⟨hs, h.cur, h.known, h.vname, h.last, h.cols.imp id fun hb => ?_⟩
        unfold bareStart at hb; rw [hk] at hb
        simp only [Bool.and_eq_true] at hb; exact hb.2
      | special =>
        have ea : a.row row = a := by unfold Reader.row; rw [hk]
        have eb : b.row row = b := by unfold Reader.row; rw [hk]
        refine ⟨by unfold Reader.rowLines; rw [hk, ea, eb]; simp, ?_⟩
        have hs := h.secs
        rw [List.foldl_cons, ea] at hs
        rw [ea, eb]
        refine ⟨hs, h.cur, h.known, h.vname, h.last, h.cols.imp id fun hb => ?_⟩
        unfold bareStart at hb; rw [hk] at hb
        simp only [Bool.and_eq_true] at hb; exact hb.2
      | «section» n cols =>
        obtain ⟨m, cs, a1, a2, a3, a4, a5, a6⟩ := row_section a hk
        obtain ⟨m', cs', b1, b2, b3, b4, b5, b6⟩ := row_section b hk
        have hb := hsec a1
        have hbs : (b.row row).secs = b.secs := by
          unfold Reader.row; rw [hk]; dsimp only; rw [hb]
        rw [hbs, hb] at b1
        cases b1
        refine ⟨by rw [a6, b6], ⟨by rw [hbs, h.secs]; rfl, by rw [a3, b3], by rw [a3, a1]; rfl, by rw [a4, b4], by rw [a5, b5], .inl (by rw [a2, b2])⟩⟩
      | header n cols =>
        have ea : a.row row = { a with cols := cols, vname := lower n } := by unfold Reader.row; rw [hk]
        have eb : b.row row = { b with cols := cols, vname := lower n } := by unfold Reader.row; rw [hk]
        refine ⟨by unfold Reader.rowLines; rw [hk, ea, eb]; simp, ?_⟩
        have hs := h.secs
        rw [List.foldl_cons] at hs
        rw [eb]
        exact ⟨hs, by rw [ea]; exact h.cur, by rw [ea]; exact h.known, by rw [ea], by rw [ea]; exact h.last, .inl (by rw [ea])⟩
      | elided r =>
        have hc : b.cols = a.cols ∨ (∀ v ∈ row.drop 2, strip v = []) ∧ bareStart rows = true := by
          refine h.cols.imp id fun hb => ?_
          unfold bareStart at hb; rw [hk] at hb
          simpa using hb
        have hs := h.secs
        rw [List.foldl_cons] at hs
        have new : ∀ c : Reader, (c.row row) = { c with nodes := c.nodes ++ (⟨c.last.1, r, cellValue (row.getD 1 []), c.last.2, c.cur, c.vname⟩ :: argNodes c r 0 (row.drop 2)) } := by
          intro c
          unfold Reader.row; rw [hk]; dsimp only; rw [addArgs_eq]
          simp only [List.append_assoc, List.singleton_append]
          congr 3
          exact argNodes_congr _ (by rfl) (by rfl) (by rfl) (by rfl) _ _
        refine ⟨?_, ⟨by rw [new b]; exact hs, by rw [new a, new b]; exact h.cur, by rw [new a]; exact h.known, by rw [new a, new b]; exact h.vname, by rw [new a, new b]; exact h.last, ?_⟩⟩
        · unfold Reader.rowLines
          rw [hk, new a, new b]
          dsimp only
          rw [drop_argNodes, drop_argNodes, List.map_cons, List.map_cons, argNodes_lines hcur h.cur r (hc.imp id fun x => x.1)]
          simp only [nodeLine, hcur, h.last]
        · rw [new a, new b]; exact hc.imp id fun x => x.2
      | named p r =>
        have hc : b.cols = a.cols ∨ (∀ v ∈ row.drop 2, strip v = []) ∧ bareStart rows = true := by
          refine h.cols.imp id fun hb => ?_
          unfold bareStart at hb; rw [hk] at hb
          simpa using hb
        have hs := h.secs
        rw [List.foldl_cons] at hs
        have new : ∀ c : Reader, ∃ par d, d.cols = c.cols ∧ d.cur = c.cur ∧ (c.row row) = { c with nodes := c.nodes ++ (⟨p, r, cellValue (row.getD 1 []), par, c.cur, c.vname⟩ :: argNodes d r 0 (row.drop 2)), known := (r, some c.nodes.length) :: c.known, last := (r, some c.nodes.length) } := by
          intro c
          refine ⟨(Dict.get? c.known p).getD none, { c with last := (r, some c.nodes.length) }, rfl, rfl, ?_⟩
          unfold Reader.row; rw [hk]; dsimp only; rw [addArgs_eq]
          simp only [List.append_assoc, List.singleton_append]
          congr 3
          exact argNodes_congr _ (by rfl) (by rfl) (by rfl) (by rfl) _ _
        obtain ⟨pa, da, da1, da2, ea⟩ := new a
        obtain ⟨pb, db, db1, db2, eb⟩ := new b
        refine ⟨?_, ⟨by rw [eb]; exact hs, by rw [ea, eb]; exact h.cur, by rw [ea]; exact h.known, by rw [ea, eb]; exact h.vname, by rw [ea, eb], ?_⟩⟩
        · unfold Reader.rowLines
          rw [hk, ea, eb]
          dsimp only
          rw [drop_argNodes, drop_argNodes, List.map_cons, List.map_cons, argNodes_lines (a := da) (b := db) (sa := a.secs) (by rw [da2, db2]; exact hcur) (by rw [da2, db2]; exact h.cur) r (hc.imp (fun x => by rw [da1, db1]; exact x) fun x => x.1)]
          simp only [nodeLine, hcur]
        · rw [ea, eb]; exact hc.imp id fun x => x.2
    have hrow : b.placedRow at_ sec n row = a.placedRow at_ sec n row := by unfold Reader.placedRow; rw [key.1]
    show b.placedRow at_ sec n row ++ Reader.placed at_ sec (n + 1) (b.row row) rows =
      a.placedRow at_ sec n row ++ Reader.placed at_ sec (n + 1) (a.row row) rows
    rw [hrow, lines_same key.2]

theorem rootSec_args {F : Prop} {t : Nat} : ∀ {vs : List Str} {k : Nat} {s : St}, PInv F s → t < s.next → PlainName (s.heap t).rt →
    ((argsEffect t k vs s).heap s.root).sec = (s.heap s.root).sec
  | [], _, _, _, _, _ => rfl
  | v :: vs, k, s, hp, ht, hg => by
    obtain ⟨i1, i2, i3⟩ := argEffect_inv (k := k) (v := v) hp ht hg
    have hr : (argEffect t k v s).root = s.root := by unfold argEffect; split <;> rfl
    have e := rootSec_args (vs := vs) (k := k + 1) i1 i2 (by rw [i3]; exact hg)
    rw [hr] at e
    refine e.trans ?_
    unfold argEffect
    split
    · rfl
    · rw [addTerm_heap_old hp.wf.rootLt]

/-- A row leaves the section of the root section alone. -/
theorem rootSec_row {F : Prop} {s s' : St} {row : List Str} (hp : PInv F s) (hr : PlainRow s row s') :
    s'.root = s.root ∧ (s'.heap s.root).sec = (s.heap s.root).sec := by
  cases hr with
  | noise => exact ⟨rfl, rfl⟩
  | @term c p r rest hc =>
    have h1 := addTerm_row_inv hp hc rest
    have hroot : ∀ (vs : List Str) (k t : Nat) (s : St), (argsEffect t k vs s).root = s.root := by
      intro vs
      induction vs with
      | nil => intro k t s; rfl
      | cons v vs ih =>
        intro k t s
        refine (ih (k + 1) t (argEffect t k v s)).trans ?_
        unfold argEffect; split <;> rfl
    refine ⟨hroot _ _ _ _, ?_⟩
    refine (rootSec_args h1 (Nat.lt_succ_self _) (by rw [addTerm_heap_new, finalObj_rt]; exact hc.name)).trans ?_
    show ((addTerm ..).heap s.root).sec = _
    rw [addTerm_heap_old hp.wf.rootLt]
  | @«section» c rest hc =>
    have ok := secOf_ok hp hc
    refine ⟨rfl, ?_⟩
    rw [sectionEffect_heap, if_neg (Nat.ne_of_lt hp.wf.rootLt), if_neg (Ne.symm ok.2.2)]
  | @header c rest hc =>
    refine ⟨rfl, ?_⟩
    unfold headerEffect; simp only [if_neg (Nat.ne_of_lt hp.wf.rootLt)]
    split <;> rfl

theorem rootSec_rows {F : Prop} {s s' : St} {rows : List (List Str)} (hp : PInv F s) (hr : PlainRows s rows s') :
    s'.root = s.root ∧ (s'.heap s.root).sec = (s.heap s.root).sec := by
  induction hr with
  | nil => exact ⟨rfl, rfl⟩
  | cons hr _ ih =>
    obtain ⟨e1, e2⟩ := rootSec_row hp hr
    obtain ⟨f1, f2⟩ := ih (hr.inv hp)
    rw [e1] at f1 f2
    exact ⟨f1, f2.trans e2⟩

theorem rootOk_rows {F : Prop} {s s' : St} {rows : List (List Str)} (hp : PInv F s) (h : RootOk s) (hr : PlainRows s rows s') : RootOk s' := by
  induction hr with
  | nil => exact h
  | cons hr _ ih => exact ih (hr.inv hp) (rootOk_row hp h hr)

/-- The reader the second run starts from: a new parser, the sections and the terms of the first run, and the columns that were in force at
the end of it. -/
def _root_.Spec.Reader.rerun (a : Reader) : Reader := { a.again with cols := a.cols }

theorem foldl_section : ∀ {rows : List (List Str)} {a : Reader} {row : List Str} {n : Str} {cols : List Str}, row ∈ rows →
    kind row = .section n cols → (Dict.get? (rows.foldl Reader.row a).secs (lower n)).isSome
  | r :: rows, a, row, n, cols, hm, hk => by
    rcases List.mem_cons.1 hm with rfl | hm
    · obtain ⟨m, cs, h, -⟩ := row_section a hk
      rw [List.foldl_cons, rows_secs rows _ h]; rfl
    · exact foldl_section (rows := rows) (a := a.row r) hm hk

/-- The sections of a row: those that were there, and one that is built for the row. -/
theorem secs_rowL {F : Prop} {files : Files} {sub : Str → Bool → LogM Built Unit} {f : Source} {dir : Str} {n ls ls' : Nat} {s s' : St}
    (hp : PInv F s) {row : List Str} (hr : PlainRow s row s') (hk : kind row ≠ .special) {l : List Built}
    (hl : genRowsL files sub f true false dir n ls [row] s = (l, .ok ls' s')) {k : Str} {x : Nat} (hx : s'.sections.get? k = some x) :
    s.sections.get? k = some x ∨ s.sections.get? k = none ∧ (∃ m cols, kind row = .section m cols ∧ lower m = k) ∧
      (⟨x, ⟨f.file, n, n⟩, f.ref⟩ : Built) ∈ l := by
  have args : ∀ (vs : List Str) (k t : Nat) (s : St), (argsEffect t k vs s).sections = s.sections := by
    intro vs
    induction vs with
    | nil => intro k t s; rfl
    | cons v vs ih =>
      intro k t s
      refine (ih (k + 1) t (argEffect t k v s)).trans ?_
      unfold argEffect; split <;> rfl
  rcases hr.by_kind with ⟨k, rfl⟩ | ⟨c, rest, rfl, hc, k, rfl⟩ | ⟨c, rest, rfl, hc, k, rfl⟩ | ⟨c, x, rest, rfl, hc, k, rfl⟩ |
    ⟨c, p, r, rest, rfl, hc, he, k, rfl⟩ | k
  · exact .inl hx
  · have e : (sectionEffect rest s).sections = if s.sections.has (lower (strip (rest.headD []))) then s.sections else
        s.sections.set (lower (strip (rest.headD []))) s.next := rfl
    rw [e] at hx
    cases hh : s.sections.has (lower (strip (rest.headD []))) with
    | true => rw [hh, if_pos rfl] at hx; exact .inl hx
    | false =>
      rw [hh, if_neg (by decide), Dict.get?_set] at hx
      have hno : s.sections.get? (lower (strip (rest.headD []))) = none := by
        unfold Dict.has at hh
        cases hg : s.sections.get? (lower (strip (rest.headD []))) with
        | none => rfl
        | some _ => rw [hg] at hh; cases hh
      split at hx
      · next ek =>
        subst ek
        refine .inr ⟨hno, ⟨_, _, k, rfl⟩, ?_⟩
        have hxn : s.next = x := Option.some.inj hx
        rw [← hxn]
        have er : rowTermL f n false (c :: rest) s = ([⟨s.next, ⟨f.file, n, n⟩, f.ref⟩], .ok s.next ({ s with next := s.next + 1 }.setObj s.next (secObj s rest))) := by
          unfold rowTermL
          rw [rowTerm_section hp hc]
          dsimp only
          rw [heap_setObj_self, show (secObj s rest).cls.isSection = true from rfl]
          rfl
        unfold genRowsL at hl
        rw [show skipRow (c :: rest) = false from hc.noise] at hl
        simp only [Bool.false_eq_true, if_false] at hl
        rw [pbind_run, er] at hl
        dsimp only at hl
        have := congrArg Prod.fst hl
        dsimp only at this
        rw [← this]
        exact List.mem_append_left _ List.mem_cons_self
      · exact .inl hx
  · exact .inl hx
  · exact .inl (by rw [show (termEffect _ _ _ s).sections = s.sections from args _ _ _ _] at hx; exact hx)
  · exact .inl (by rw [show (termEffect _ _ _ s).sections = s.sections from args _ _ _ _] at hx; exact hx)
  · exact absurd k hk

theorem Sim.sec_iff {s : St} {a : Reader} {ids : List Nat} (h : Sim s a ids) (k : Str) : s.sections.get? k = none ↔ Dict.get? a.secs k = none := by
  rw [Dict.get?_eq_none, h.sections, ← Dict.get?_eq_none]

/-- The sections of a file: those that were there, and those built for the rows that open them. -/
theorem secs_rowsL {F : Prop} {files : Files} {sub : Str → Bool → LogM Built Unit} {sub' : Str → Bool → M Unit} (hsub : ∀ t d, Erases (sub t d) (sub' t d))
    {f : Source} {dir : Str} {rows : List (List Str)} : ∀ {n ls ls' : Nat} {s s' : St} {a : Reader} {ids : List Nat} {known : List Str} {l : List Built}, PInv F s →
    Sim s a ids → PlainRows s rows s' → plainFrom known rows = true →
    genRowsL files sub f true false dir n ls rows s = (l, .ok ls' s') → ∀ k x, s'.sections.get? k = some x →
      s.sections.get? k = some x ∨ s.sections.get? k = none ∧ ∃ r, openedFrom k n rows = some r ∧ (⟨x, ⟨f.file, r, r⟩, f.ref⟩ : Built) ∈ l := by
  induction rows with
  | nil =>
    intro n ls ls' s s' a ids known l _ _ hr _ _ k x hx
    cases hr
    exact .inl hx
  | cons row rows ih =>
    intro n ls ls' s s' a ids known l hp h hr hk hl k x hx
    cases hr with
    | @cons _ s1 _ _ _ hr ht =>
      obtain ⟨k1, known', k2⟩ := plainFrom_head hk
      obtain ⟨ids1, l1, ls1, -, a2, -, a4⟩ := sim_rowL (files := files) hsub (f := f) (dir := dir) (n := n) (ls := ls) hp h hr k1
      obtain ⟨ids2, l2, ls2, -, b2, -, -⟩ := sim_rowsL (files := files) hsub (f := f) (dir := dir) (n := n + 1) (ls := ls1) (hr.inv hp) a4 ht k2
      have el : l = l1 ++ l2 := by
        rw [genRowsL_row, pbind_run, a2] at hl
        dsimp only at hl
        rw [b2] at hl
        exact (congrArg Prod.fst hl).symm
      rcases ih (hr.inv hp) a4 ht k2 b2 k x hx with h1 | ⟨h1, r, h2, h3⟩
      · rcases secs_rowL hp hr k1 a2 h1 with h4 | ⟨h4, ⟨m, cols, h5, h6⟩, h7⟩
        · exact .inl h4
        · refine .inr ⟨h4, n, ?_, by rw [el]; exact List.mem_append_left _ h7⟩
          unfold openedFrom; rw [h5]; dsimp only; rw [if_pos h6]
      · refine .inr ⟨?_, r, ?_, by rw [el]; exact List.mem_append_right _ h3⟩
        · rw [h.sec_iff]
          cases hg : Dict.get? a.secs k with
          | none => rfl
          | some v => rw [a4.sec_iff, row_secs a row hg] at h1; cases h1
        · unfold openedFrom
          cases hkd : kind row with
          | «section» m cols =>
            dsimp only
            rw [if_neg]
            · exact h2
            · rintro rfl
              obtain ⟨_, _, hg, -⟩ := row_section a hkd
              rw [a4.sec_iff, hg] at h1; cases h1
          | _ => exact h2

theorem slash_main (nm : Naming) (path : Str) : '/' ∉ nm.main path := by
  unfold Naming.main fileName
  split
  · decide
  · exact slash_slug _ _

theorem frontAt_eq (nm : Naming) (path : Str) : (fun r c => fileRef ⟨nm.main path, r, c⟩) = frontAt (nm.main path) := by
  funext r c; exact fileRef_plain (slash_main nm path) r c

theorem placeIn_of {l : List Built} (h : l.Pairwise fun b b' => b.id < b'.id) {b : Built} (hb : b ∈ l) : placeIn l b.id = some b.place := by
  induction l with
  | nil => cases hb
  | cons a l ih =>
    obtain ⟨h1, h2⟩ := List.pairwise_cons.1 h
    unfold placeIn
    rcases List.mem_cons.1 hb with rfl | hb
    · rw [List.find?_cons_of_pos (by simp)]; rfl
    · rw [List.find?_cons_of_neg (by have := h1 b hb; simp; omega)]
      exact ih h2 hb

/-- The second run over a file of ordinary rows. -/
theorem printAgain_plain {env : Env} {classes : Dict Cls} (hcl : PlainClasses classes) {files : Files} (nm : Naming) {fuel : Nat} {path : Str}
    {rows : List (List Str)} (h : plainFile rows = true) : ∃ l s s', parseRowsL files nm (fuel + 1) path rows (newDoc env classes) = (l, .ok () s) ∧
      printAgain files nm l (fuel + 1) path rows s = (py!"<none> 0:0 None:root.root=Root" ::
        Reader.placed (frontAt (nm.main path)) (secFront (nm.main path) rows) 1 (readAll rows).rerun rows, .ok () s') := by
  obtain ⟨s, hrows⟩ := plainFile_rows (env := env) hcl h
  have hp0 := pinv_new (F := True) (env := env) hcl
  have hp : PInv True s := hrows.inv hp0
  obtain ⟨ids, hsim⟩ := sim_rows hp0 (sim_start env classes) hrows h
  have hsim : Sim s (readAll rows) ids := hsim
  have hd := hrows.sameDecls
  have hroot := rootOk_rows hp0 (rootOk_new env classes) hrows
  have hsec := rootSec_rows hp0 hrows
  have hre := ready_finish (a := readAll rows) (ids := ids) (by rw [hd.classes]; exact hcl) (hd.sup.trans rfl) (hd.pSecs.trans rfl) hp hsim hroot
  obtain ⟨f, hf⟩ : ∃ f, f = after finishLoad s := ⟨_, rfl⟩
  rw [← hf] at hre
  have hfp : f.p = s.p := by rw [hf]; rfl
  have hfh : f.heap = s.heap := by rw [hf]; rfl
  have hfr : f.root = s.root := by rw [hf]; rfl
  have hre1 : rerunP f = { initP f.root with paramMap := s.p.paramMap } := by
    unfold rerunP
    rw [hfp, hsim.decl, show s.p.declSecs = initDeclSecs from hd.pSecs.trans rfl]
    rfl
  set s2 : St := { f with p := rerunP f } with hs2
  have hp2 : PInv True s2 := by
    have i := hre.inv
    refine ⟨?_, ?_, ?_, ?_, ?_, ?_, ?_, ?_, ?_, ?_⟩
    · rw [hs2, hre1]; exact { i.wf with pLow := ⟨hp.wf.pLow.1, i.wf.pLow.2⟩ }
    · have := i.std; rw [hs2, hre1]; exact ⟨⟨this.tvn.parser, this.tvn.doc⟩, this.cls, this.syn⟩
    · rw [hs2, hre1]; exact i.rootKey
    · exact i.rootName
    · rw [hs2, hre1]; exact i.parent
    · rw [hs2, hre1]; exact i.name
    · rw [hs2, hre1]; exact fun _ => hp.cols trivial
    · have := i.secCls; rw [hs2, hre1]; exact this
    · exact i.secs
    · exact i.declared
  have hsim2 : Sim s2 (readAll rows).rerun ids := by
    have i := hre.sim
    rw [hs2, hre1]
    exact { i with cols := hsim.cols }
  obtain ⟨s3, hrows2⟩ := plainRows_of (known := [py!"root"]) hp2 (by
    intro k hk
    rw [List.mem_singleton.1 hk, hs2, hre1]; rfl) h
  have hsub : ∀ t d, Erases (includedL files nm true fuel t d) (included files true fuel t d) := by
    intro t d
    unfold includedL included
    cases files.rows t with
    | none => exact .silent _
    | some rows' => exact genL_run files nm true fuel d [] _ rows'
  obtain ⟨-, l, ls0, -, a2, -, -⟩ := sim_rowsL (files := files) hsub (f := nm.top path) (dir := dirname path) (n := 1)
    (ls := (newDoc env classes).root) hp0 (sim_start env classes) hrows h
  have run : parseRowsL files nm (fuel + 1) path rows (newDoc env classes) = (l, .ok () f) := by
    unfold parseRowsL
    have e0 : ({ newDoc env classes with p := initP (newDoc env classes).root } : St) = newDoc env classes := rfl
    rw [silent_bind (modify_run _ _), e0]
    rw [pbind_run, genL_succ, pbind_run, a2, hf]
    simp only [ppure_run, silent_run, List.append_nil]
    rfl
  obtain ⟨ord, hnew, -⟩ := C89_rows run rfl
  have hrt : s2.root = (newDoc env classes).root := hfr.trans hsec.1
  have hold : ∀ k x, s2.sections.get? k = some x →
      frontOf (if x = s2.root then some rootPlace else placeIn l x) = secFront (nm.main path) rows k := by
    intro k x hx
    have hx : s.sections.get? k = some x := by
      have : f.sections = s.sections := by rw [hf]; rfl
      rw [← this]; exact hx
    rcases secs_rowsL (files := files) hsub hp0 (sim_start env classes) hrows h a2 k x hx with h1 | ⟨h1, r, h2, h3⟩
    · have hs : (newDoc env classes).sections = [(py!"root", (newDoc env classes).root)] := rfl
      rw [hs, Dict.get?_cons] at h1
      split at h1
      · next ek =>
        cases h1
        rw [if_pos hrt.symm, ← ek]
        unfold secFront
        rw [if_pos rfl]
        decide
      · cases h1
    · have hk : k ≠ py!"root" := by
        rintro rfl
        cases h1
      have hne : x ≠ s2.root := by
        have := (hnew _ h3).1
        have h0 : (newDoc env classes).root < (newDoc env classes).next := hp0.wf.rootLt
        rw [hrt]; dsimp only at this; omega
      have hpl := placeIn_of ord h3
      dsimp only at hpl
      rw [if_neg hne, hpl]
      unfold secFront
      rw [if_neg hk, h2]
      exact fileRef_plain (slash_main nm path) r r
  obtain ⟨ls, e⟩ := genRowsP_rows (files := files) (dir := dirname path) (f := nm.top path) (n := 1) (sub := fun target d => do
      match files.rows target with
      | none => silent (M.raise .includeError)
      | some rows' => genP files nm (fun x => if x = s2.root then some rootPlace else placeIn l x) fuel d [] (nm.source target) rows')
    hp2 hsim2 (show (py!"root") ≠ ELIDED by decide) hrows2 h (fun row hm n cols hk => foldl_section hm hk) hold s2.root (some rootPlace)
  rw [show (nm.top path).file = nm.main path from rfl, frontAt_eq] at e
  refine ⟨l, f, s3, run, ?_⟩
  · have hline : termStr s2 s2.root = .ok (py!"None:root.root=Root") := by
      obtain ⟨n, hv, hn⟩ := hsim2.columns _ _ hre.root.key
      have hn' : Dict.get? (readAll rows).secs (py!"root") = some (n, (s2.heap s2.root).args) := hn
      rw [show readAll rows = rows.foldl Reader.row Reader.start from rfl, rows_secs rows Reader.start (k := py!"root") (v := (py!"Root", [])) rfl] at hn'
      have hn' : n = py!"Root" := (congrArg Prod.fst (Option.some.inj hn')).symm
      have h0 : (s2.heap s2.root).sec = none := by
        show (f.heap f.root).sec = none
        rw [hfh, hfr, hsec.1, hsec.2]; rfl
      have hv' : (s2.heap s2.root).value = .str (py!"Root") := by rw [← hn']; exact hv
      unfold termStr secLabel
      rw [h0, hv', show (s2.heap s2.root).pt = ROOT from hre.root.pt, show (s2.heap s2.root).rt = ROOT from hre.inv.rootName]
      simp only [Val.toStr]
      rw [if_neg (by decide)]
      rfl
    unfold printAgain
    rw [silent_bind (modify_run _ _), silent_bind (get_run _)]
    rw [pbind_run, ← hs2, printTerm_run hline]
    dsimp only
    unfold genP
    rw [silent_bind (get_run _), pbind_run]
    erw [e]
    show (_ :: (Reader.placed _ _ 1 (readAll rows).rerun rows ++ []), _) = _
    rw [List.append_nil]
    rfl

/-- If the file starts with bare rows, the second run prints what the rows say. -/
theorem lines_rerun {at_ : Nat → Nat → Str} {sec : Str → Str} {rows : List (List Str)} (h : bareStart rows = true ∨ (readAll rows).cols = []) :
    Reader.placed at_ sec 1 (readAll rows).rerun rows = Reader.placed at_ sec 1 Reader.start rows :=
  lines_same ⟨rfl, rfl, rfl, rfl, rfl, h.symm.imp (fun e => e) id⟩

end Metatab
