import Verif.Lemmas.Where
import Verif.Lemmas.SameDoc
import Verif.Spec.Where
/-! Files of ordinary rows: the terms stand where the file has them. -/
namespace Metatab
open Py Spec

/-- List entries for terms, given their numbers and places. -/
def builts (f : Source) : List Nat → List (Nat × Nat) → List Built
  | i :: is, (r, c) :: ps => ⟨i, ⟨f.file, r, c⟩, f.ref⟩ :: builts f is ps
  | _, _ => []

theorem builts_append (f : Source) : ∀ {is : List Nat} {ps : List (Nat × Nat)} (js : List Nat) (qs : List (Nat × Nat)), is.length = ps.length →
    builts f (is ++ js) (ps ++ qs) = builts f is ps ++ builts f js qs
  | [], [], _, _, _ => rfl
  | [], _ :: _, _, _, h => by cases h
  | _ :: _, [], _, _, h => by cases h
  | i :: is, (r, c) :: ps, js, qs, h => by
    simp only [List.cons_append, builts]
    rw [builts_append f js qs (by simpa using h)]

theorem argLoopL_cons (f : Source) (n : Nat) (load d : Bool) (t k : Nat) (v : Str) (vs : List Str) :
    argLoopL f n load d t k (v :: vs) = (do
      if strip v ≠ [] then do
        let c ← argTermL f n d t k v
        silent (consume load c)
      argLoopL f n load d t (k + 1) vs) := rfl

/-- The argument cells of a term. -/
theorem sim_argsL {F : Prop} {f : Source} {n t : Nat} {R : Str} (hg : PlainName R) (hv : R ≠ py!"declarevalueset") : ∀ {vs : List Str} {k : Nat}
    {s : St} {a : Reader} {ids : List Nat}, PInv F s → Sim s a ids → t < s.next → (s.heap t).rt = R →
    (∀ v ∈ vs, strip v = v) → ∃ ids', ids'.length = (columns (k + 2) vs).length ∧
      argLoopL f n true false t k vs s = (builts f ids' ((columns (k + 2) vs).map fun c => (n, c)), .ok () (argsEffect t k vs s)) ∧
      Sim (argsEffect t k vs s) (Reader.addArgs R k vs a) (ids ++ ids')
  | [], _, s, a, ids, _, h, _, _, _ => ⟨[], rfl, rfl, by rw [List.append_nil]; exact h⟩
  | v :: vs, k, s, a, ids, hp, h, ht, hR, hst => by
    obtain ⟨i1, i2, i3⟩ := argEffect_inv (k := k) (v := v) hp ht (by rw [hR]; exact hg)
    have hs := hst v List.mem_cons_self
    have hst' : ∀ w ∈ vs, strip w = w := fun w hw => hst w (List.mem_cons_of_mem _ hw)
    rw [argLoopL_cons]
    unfold argsEffect columns
    by_cases hb : strip v = []
    · have e : argEffect t k v s = s := by unfold argEffect; rw [if_pos hb]
      rw [e, if_pos hb, if_neg (by simp [hb])]
      unfold Reader.addArgs
      rw [if_pos hb]
      exact sim_argsL hg hv hp h ht hR hst'
    · obtain ⟨hcls, hca⟩ := canAdd_arg (k := k) (v := v) hp hR hg
      have hne : R ≠ ELIDED := fun e => hg.plain (by rw [e]; decide)
      have hfp : finalPt s.p R = R := if_neg hne
      have hroot : R ≠ ROOT := fun e => hg.plain (by rw [e]; decide)
      have hlast : lastTerm s = ref s ids a.last.2 := by
        unfold lastTerm; rw [h.lastName, h.lastRef]; rfl
      have hnew : NewTerm (argCell s t k v) := by unfold argCell; rw [hR]; exact newTerm_argObj hcls _ _ _ _
      have hnn : ¬ Named R (argCell s t k v).col := by
        intro hn; have := hn.2; simp [argCell, argObj] at this
      have h1 := sim_child hp h (p := R) (r := colName a.cols k) hnew h.lastOk
        (notDeclared hg.nodot (.inl hroot) hv) (fun _ => by rw [hfp]; exact notDeclared hg.nodot (.inl hroot) hv) (by rw [hfp]; exact hg.low) hnn
      rw [hfp, show (argCell s t k v).value = .str (strip v) by
        unfold argCell argObj
        simp only
        rw [cellValue_mk]; unfold cellValue; rw [if_neg (by intro e; rw [e] at hb; exact hb rfl)]] at h1
      have e : argEffect t k v s = addTerm s (argCell s t k v) R (remapRecord s.p.paramMap (natStr k)) (lastTerm s) := by
        unfold argEffect; rw [if_neg hb, hR]
      have h1' : Sim (argEffect t k v s) { a with nodes := a.nodes ++ [⟨R, colName a.cols k, .str (strip v), a.last.2, a.cur, a.vname⟩] }
          (ids ++ [s.next]) := by
        rw [e, hlast, h.cols, remap_colName]; exact h1
      obtain ⟨ids', l1, l2, l3⟩ := sim_argsL (f := f) (n := n) hg hv (vs := vs) (k := k + 1) i1 h1' i2 (i3.trans hR) hst'
      refine ⟨s.next :: ids', ?_, ?_, ?_⟩
      · rw [if_neg hb]; simpa using l1
      · rw [if_pos hb, if_neg hb]
        have ea : argTermL f n false t k v s = ([⟨s.next, ⟨f.file, n, k + 2⟩, f.ref⟩], .ok s.next ({ s with next := s.next + 1 }.setObj s.next (argCell s t k v))) := by
          unfold argTermL
          rw [argTerm_run hR hg.toGoodName hcls]
          unfold argCell
          rw [hR]
        rw [pbind_run, ea]
        dsimp only
        rw [silent_bind (consume_new hp.wf hp.std.tvn hca), ← e, l2]
        rfl
      · unfold Reader.addArgs
        rw [if_neg hb]
        rw [show ids ++ s.next :: ids' = (ids ++ [s.next]) ++ ids' by simp]
        exact l3

theorem genRowsL_row (files : Files) (sub : Str → Bool → LogM Built Unit) (f : Source) (load d : Bool) (dir : Str) (n ls : Nat) (row : List Str)
    (rows : List (List Str)) : genRowsL files sub f load d dir n ls (row :: rows) =
      genRowsL files sub f load d dir n ls [row] >>= fun ls' => genRowsL files sub f load d dir (n + 1) ls' rows := by
  conv => lhs; unfold genRowsL
  conv => rhs; lhs; unfold genRowsL
  simp only [genRowsL]
  split
  · rw [pure_bind]
  · rw [bind_assoc]
    congr 1; funext t
    rw [bind_assoc]
    congr 1; funext o
    split
    · rw [bind_assoc]
      congr 1; funext target
      split
      · funext s; rfl
      · simp only [bind_assoc, pure_bind]
    · split <;> simp only [bind_assoc, pure_bind]

/-- A term row. -/
theorem genRowsL_term {F : Prop} {files : Files} {sub : Str → Bool → LogM Built Unit} {f : Source} {dir : Str} {n ls : Nat} {c : Str}
    {rest : List Str} {s : St} (hp : PInv F s) {p r : Str} (hc : PlainCell s c p r) {l : List Built} {s' : St}
    (hl : argLoopL f n true false s.next 0 ((rest.drop 1).map strip)
      (addTerm s (rowObj (parserTermClass s (dotJoin p r)) p r rest) p r (parentOf s p)) = (l, .ok () s')) :
    genRowsL files sub f true false dir n ls [c :: rest] s = (⟨s.next, ⟨f.file, n, 1⟩, f.ref⟩ :: l, .ok ls s') := by
  obtain ⟨hcls, ha⟩ := canAdd_row hp hc rest
  obtain ⟨h0, k1, h2, h3, h4, h5, h6⟩ := splitTermLower_cases hc.split
  have hr := hc.name.plain
  have hfp : '.' ∉ finalPt s.p p ∧ lower (finalPt s.p p) = finalPt s.p p := by
    unfold finalPt; split
    · exact ⟨hp.name.nodot, hp.name.low⟩
    · exact ⟨h3, h5⟩
  have hn1 : dotJoin p r ≠ py!"root.include" := dotJoin_special (a := py!"root") (b := py!"include") h3 hr (by decide) (by decide)
  have hn2 : dotJoin p r ≠ py!"root.declare" := dotJoin_special (a := py!"root") (b := py!"declare") h3 hr (by decide) (by decide)
  have hn3 : dotJoin p r ≠ py!"root.section" := dotJoin_special (a := py!"root") (b := py!"section") h3 hr (by decide) (by decide)
  have hn4 : dotJoin (lower (finalPt s.p p)) (lower r) ≠ py!"root.header" := by
    rw [hfp.2, h6]
    exact dotJoin_special (a := py!"root") (b := py!"header") hfp.1 hr (by decide) (by decide)
  set o := rowObj (parserTermClass s (dotJoin p r)) p r rest with ho
  have hj : o.joinLc = dotJoin p r := by rw [ho]; unfold Obj.joinLc rowObj; simp only [h5, h6]
  have hocls : o.cls.isSection = false := by rw [ho]; exact hcls
  unfold genRowsL
  rw [show skipRow (c :: rest) = false from hc.noise]
  simp only [Bool.false_eq_true, if_false]
  have er : rowTermL f n false (c :: rest) s = ([⟨s.next, ⟨f.file, n, 1⟩, f.ref⟩], .ok s.next ({ s with next := s.next + 1 }.setObj s.next o)) := by
    unfold rowTermL
    rw [rowTerm_run hc.split hcls, ← ho]
    dsimp only
    rw [heap_setObj_self, hocls]
    rfl
  rw [pbind_run, er]
  dsimp only
  rw [silent_bind (obj_run _ _), heap_setObj_self, hj]
  rw [if_neg (by rintro (e | e) <;> contradiction), if_neg hn3]
  have hy : yieldWithArgsL f n true false s.next ({ s with next := s.next + 1 }.setObj s.next o) = (l, .ok () s') := by
    unfold yieldWithArgsL
    rw [silent_bind (consume_new hp.wf hp.std.tvn ha), silent_bind (obj_run _ _), addTerm_heap_new]
    have hj2 : (finalObj s o p r (parentOf s p)).joinLc = dotJoin (lower (finalPt s.p p)) (lower r) := by
      unfold Obj.joinLc; rw [finalObj_pt, finalObj_rt]
    rw [hj2, if_neg (by rintro (e | e); exacts [ha.final.2.2 e, hn4 e]), finalObj_args]
    have hargs : o.args = (rest.drop 1).map strip := by rw [ho]; rfl
    rw [hargs, hl]
  rw [pbind_run, hy]
  simp [genRowsL, ppure_run]

/-- A row of a file. -/
theorem sim_rowL {F : Prop} {files : Files} {sub : Str → Bool → LogM Built Unit} {sub' : Str → Bool → M Unit} (hsub : ∀ t d, Erases (sub t d) (sub' t d))
    {f : Source} {dir : Str} {n ls : Nat} {s s' : St} (hp : PInv F s) {a : Reader} {ids : List Nat}
    (h : Sim s a ids) {row : List Str} (hr : PlainRow s row s') (hk : kind row ≠ .special) : ∃ ids' l ls', ids'.length = (rowPlaces n row).length ∧
      genRowsL files sub f true false dir n ls [row] s = (l, .ok ls' s') ∧ (builts f ids' (rowPlaces n row)).Sublist l ∧
      Sim s' (a.row row) (ids ++ ids') := by
  have other : rowPlaces n row = [] → Sim s' (a.row row) ids → ∃ ids' l ls', ids'.length = (rowPlaces n row).length ∧
      genRowsL files sub f true false dir n ls [row] s = (l, .ok ls' s') ∧ (builts f ids' (rowPlaces n row)).Sublist l ∧
      Sim s' (a.row row) (ids ++ ids') := by
    intro e hs
    obtain ⟨ls', hrun⟩ := hr.run (files := files) (sub := sub') (dir := dir) (ref := f.ref) (ls := ls) hp
    have hrun := hrun []
    have := (genRowsL_run (files := files) hsub f true false dir [row] n ls).run s
    rw [hrun] at this
    rw [e]
    refine ⟨[], (genRowsL files sub f true false dir n ls [row] s).1, ls', rfl, Prod.ext rfl this, ?_, by rw [List.append_nil]; exact hs⟩
    exact List.nil_sublist _
  rcases hr.by_kind with ⟨k, rfl⟩ | ⟨c, rest, rfl, hc, k, rfl⟩ | ⟨c, rest, rfl, hc, k, rfl⟩ | ⟨c, x, rest, rfl, hc, k, rfl⟩ |
    ⟨c, p, r, rest, rfl, hc, he, k, rfl⟩ | k
  · exact other (by unfold rowPlaces; rw [k]) (by unfold Reader.row; rw [k]; exact h)
  · exact other (by unfold rowPlaces; rw [k]) (sim_section hp h hc k)
  · refine other (by unfold rowPlaces; rw [k]) ?_
    unfold Reader.row; rw [k]
    exact sim_header hp h (kind_header_ne k)
  · have ho := kind_ordinary (.inl k)
    have hq : parentOf s ELIDED = ref s ids a.last.2 := by
      unfold parentOf lastTerm; rw [if_pos rfl, h.lastName, h.lastRef]; rfl
    have hfp : finalPt s.p ELIDED = a.last.1 := by
      unfold finalPt; rw [if_pos rfl]; exact h.lastName
    have h1 := sim_child hp h (p := ELIDED) (r := x) (o := rowObj (parserTermClass s (dotJoin ELIDED x)) ELIDED x rest)
      (newTerm_rowObj (canAdd_row hp hc rest).1 _ _ _) h.lastOk (notDeclared (by decide) (.inl (by decide)) (by decide))
      (fun hr => by
        have e : finalPt s.p ELIDED = ROOT := by rw [hfp, ← h.lastName] at hr ⊢; rw [← hp.name.low]; exact hr
        rw [e]; exact notDeclared (by decide) (.inr (ordinary_ne ho)) (by decide))
      (by rw [hfp, ← h.lastName]; exact hp.name.low) (fun hn => hn.1 rfl)
    rw [hfp, rowObj_value _ _ _ c] at h1
    have i1 := addTerm_row_inv hp hc rest
    obtain ⟨ids', l1, l2, l3⟩ := sim_argsL (f := f) (n := n) (t := s.next) (k := 0) (vs := (rest.drop 1).map strip) hc.name (ordinary_vs ho)
      (by rw [hq] at i1; exact i1) h1 (Nat.lt_succ_self _)
      (by rw [addTerm_heap_new, finalObj_rt]) (by intro v hv; obtain ⟨w, -, rfl⟩ := List.mem_map.1 hv; exact strip_strip w)
    rw [← hq] at l2 l3
    rw [addArgs_strip] at l3
    rw [columns_strip] at l1 l2
    have er := genRowsL_term (files := files) (sub := sub) (dir := dir) (ls := ls) hp hc l2
    have ep : rowPlaces n (c :: rest) = (n, 1) :: (columns 2 (rest.drop 1)).map fun c => (n, c) := by unfold rowPlaces; rw [k]; rfl
    rw [ep]
    refine ⟨s.next :: ids', _, _, by simpa using l1, er, by simp only [builts]; exact List.Sublist.refl _, ?_⟩
    rw [show ids ++ s.next :: ids' = (ids ++ [s.next]) ++ ids' by simp]
    unfold Reader.row; rw [k]
    exact l3
  · have ho := kind_ordinary (.inr ⟨p, k⟩)
    obtain ⟨hkn, hpv⟩ : (∃ i, Dict.get? a.known p = some i) ∧ p ≠ py!"declarevalueset" := by
      have := h.known p he
      rcases hc.known with e | e
      · exact absurd e he
      · rw [this] at e
        cases hg : Dict.get? a.known p with
        | none => rw [hg] at e; cases e
        | some i =>
          refine ⟨⟨i, rfl⟩, ?_⟩
          rintro rfl
          rw [h.plainKnown] at hg; cases hg
    obtain ⟨i, hi⟩ := hkn
    obtain ⟨c1, -, -, c3, -, c5, -⟩ := splitTermLower_cases hc.split
    have hq : parentOf s p = ref s ids i := by
      unfold parentOf; rw [if_neg he, h.known p he, hi]; rfl
    have hfp : finalPt s.p p = p := if_neg he
    have h1 := sim_named hp h (p := p) (r := r) (o := rowObj (parserTermClass s (dotJoin p r)) p r rest)
      (newTerm_rowObj (canAdd_row hp hc rest).1 _ _ _) (h.knownOk p i hi) (notDeclared c3 (.inr (ordinary_ne ho)) hpv)
      (fun _ => by rw [hfp]; exact notDeclared c3 (.inr (ordinary_ne ho)) hpv) (by rw [hfp]; exact c5) ⟨he, Nat.le_refl 1⟩ (ordinary_root ho) (ordinary_vs ho)
    rw [hfp, rowObj_value _ _ _ c] at h1
    have i1 := addTerm_row_inv hp hc rest
    obtain ⟨ids', l1, l2, l3⟩ := sim_argsL (f := f) (n := n) (t := s.next) (k := 0) (vs := (rest.drop 1).map strip) hc.name (ordinary_vs ho)
      (by rw [hq] at i1; exact i1) h1 (Nat.lt_succ_self _)
      (by rw [addTerm_heap_new, finalObj_rt]) (by intro v hv; obtain ⟨w, -, rfl⟩ := List.mem_map.1 hv; exact strip_strip w)
    rw [← hq] at l2 l3
    rw [addArgs_strip] at l3
    rw [columns_strip] at l1 l2
    have er := genRowsL_term (files := files) (sub := sub) (dir := dir) (ls := ls) hp hc l2
    have ep : rowPlaces n (c :: rest) = (n, 1) :: (columns 2 (rest.drop 1)).map fun c => (n, c) := by unfold rowPlaces; rw [k]; rfl
    rw [ep]
    refine ⟨s.next :: ids', _, _, by simpa using l1, er, by simp only [builts]; exact List.Sublist.refl _, ?_⟩
    rw [show ids ++ s.next :: ids' = (ids ++ [s.next]) ++ ids' by simp]
    unfold Reader.row; rw [k]
    dsimp only
    rw [hi]
    exact l3
  · exact absurd k hk

/-- The rows of a file. -/
theorem sim_rowsL {F : Prop} {files : Files} {sub : Str → Bool → LogM Built Unit} {sub' : Str → Bool → M Unit} (hsub : ∀ t d, Erases (sub t d) (sub' t d))
    {f : Source} {dir : Str} {rows : List (List Str)} : ∀ {n ls : Nat} {s s' : St} {a : Reader} {ids : List Nat} {known : List Str}, PInv F s →
    Sim s a ids → PlainRows s rows s' → plainFrom known rows = true → ∃ ids' l ls', ids'.length = (placesFrom n rows).length ∧
      genRowsL files sub f true false dir n ls rows s = (l, .ok ls' s') ∧ (builts f ids' (placesFrom n rows)).Sublist l ∧
      Sim s' (rows.foldl Reader.row a) (ids ++ ids') := by
  induction rows with
  | nil =>
    intro n ls s s' a ids known _ h hr _
    cases hr
    exact ⟨[], [], ls, rfl, rfl, List.nil_sublist _, by rw [List.append_nil]; exact h⟩
  | cons row rows ih =>
    intro n ls s s' a ids known hp h hr hk
    cases hr with
    | cons hr ht =>
      obtain ⟨k1, known', k2⟩ := plainFrom_head hk
      obtain ⟨ids1, l1, ls1, a1, a2, a3, a4⟩ := sim_rowL (files := files) hsub (f := f) (dir := dir) (n := n) (ls := ls) hp h hr k1
      obtain ⟨ids2, l2, ls2, b1, b2, b3, b4⟩ := ih (n := n + 1) (ls := ls1) (hr.inv hp) a4 ht k2
      refine ⟨ids1 ++ ids2, l1 ++ l2, ls2, ?_, ?_, ?_, by rw [← List.append_assoc]; exact b4⟩
      · simp only [placesFrom, List.length_append, a1, b1]
      · rw [genRowsL_row, pbind_run, a2]
        dsimp only
        rw [b2]
      · simp only [placesFrom]
        rw [builts_append f ids2 _ a1]
        exact List.Sublist.append a3 b3

end Metatab
