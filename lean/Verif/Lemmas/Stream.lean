import Verif.Model.Stream
import Verif.Spec.Stream
import Verif.Lemmas.Again
/-! The second run of the parser follows the reference reader, and prints what it adds. -/
namespace Metatab
open Py Spec

@[simp] theorem pbind_run {ε α β : Type} (m : LogM ε α) (f : α → LogM ε β) (s : St) :
    (m >>= f) s = match m s with | (l, .ok a s') => (l ++ (f a s').1, (f a s').2) | (l, .err e s') => (l, .err e s') := rfl
theorem ppure_run {ε α : Type} (a : α) (s : St) : (pure a : LogM ε α) s = ([], .ok a s) := rfl
theorem silent_run {ε α : Type} (m : M α) (s : St) : (silent m : LogM ε α) s = ([], m s) := rfl
theorem printLine_run (t : Str) (s : St) : printLine t s = ([t], .ok () s) := rfl

theorem silent_bind {ε α β : Type} {m : M α} {f : α → LogM ε β} {s s' : St} {a : α} (h : m s = .ok a s') :
    (silent m >>= f) s = f a s' := by
  rw [pbind_run, silent_run, h]; rfl

theorem printTerm_run {s : St} {t : Nat} {l : Str} {pl : Option Place} (h : termStr s t = .ok l) : printTerm pl t s = ([frontOf pl ++ l], .ok () s) := by
  unfold printTerm
  rw [silent_bind (a := l) (s' := s) (by rw [lift_run, h])]
  rfl

/-- Reading without loading does what the loop body does. -/
theorem consumeP_run {s s' : St} {t : Nat} {l : Str} {pl : Option Place} (h : iterBody t s = .ok true s') (hl : termStr s' t = .ok l) :
    consumeP pl t s = ([frontOf pl ++ l], .ok () s') := by
  unfold consumeP
  rw [silent_bind h]
  exact printTerm_run hl

theorem consumeP_quiet {s s' : St} {t : Nat} {pl : Option Place} (h : iterBody t s = .ok false s') : consumeP pl t s = ([], .ok () s') := by
  unfold consumeP
  rw [silent_bind h]
  rfl

/-- The terms of argument cells. -/
def argNodes (a : Reader) (r : Str) : Nat → List Str → List Node
  | _, [] => []
  | k, v :: vs => (if strip v = [] then [] else [⟨r, colName a.cols k, .str (strip v), a.last.2, a.cur, a.vname⟩]) ++ argNodes a r (k + 1) vs

theorem addArgs_eq (r : Str) : ∀ (vs : List Str) (k : Nat) (a : Reader), Reader.addArgs r k vs a = { a with nodes := a.nodes ++ argNodes a r k vs }
  | [], k, a => by simp [Reader.addArgs, argNodes]
  | v :: vs, k, a => by
    unfold Reader.addArgs
    rw [addArgs_eq r vs]
    by_cases hv : strip v = []
    · simp [hv, argNodes]
    · have e : ∀ (l : List Node) k, argNodes { a with nodes := l } r k vs = argNodes a r k vs := by
        intro l
        generalize vs = ws
        induction ws with
        | nil => intro k; rfl
        | cons w ws ih => intro k; unfold argNodes; rw [ih]
      simp only [if_neg hv]
      rw [e]
      simp [argNodes, hv]

theorem val_print {v : Val} {w : Str} (h : v = .none ∨ ∃ x, v = .str x) (hw : w = printValue v) : v.toStr = some w := by
  rcases h with rfl | ⟨x, rfl⟩ <;> rw [hw] <;> rfl

/-- The line of a term that has just been added. -/
theorem termStr_new {F : Prop} {s : St} (hp : PInv F s) {a : Reader} {ids : List Nat} (h : Sim s a ids) {o : Obj} {p r : Str} {q : Nat}
    (hne : finalPt s.p p ≠ ELIDED) (hv : o.value = .none ∨ ∃ x, o.value = .str x) (par : Option Nat) :
    termStr (addTerm s o p r q) s.next = .ok (nodeLine a.secs ⟨finalPt s.p p, r, o.value, par, a.cur, a.vname⟩) := by
  obtain ⟨n, hn, hs⟩ := h.columns _ _ h.cur
  have hx : s.p.lastSec < s.next := hp.wf.pSec.1
  have hl : secLabel (addTerm s o p r q) s.next = some n := by
    unfold secLabel
    rw [addTerm_heap_new, finalObj_sec]
    dsimp only
    rw [addTerm_heap_old hx]
    dsimp only
    rw [hn]; rfl
  unfold termStr
  rw [hl, addTerm_heap_new, finalObj_value, val_print hv rfl, finalObj_pt, finalObj_rt]
  dsimp only
  rw [if_neg hne]
  unfold nodeLine
  dsimp only
  rw [hs]

/-- Reading a newly built term in the second run. -/
theorem iterBody_new {F : Prop} {s : St} {o : Obj} {p r : Str} {q : Nat} (w : WF F s) (ht : TvnOk s)
    (h : CanAdd s o p r q) : iterBody s.next ({ s with next := s.next + 1 }.setObj s.next o) = .ok true (addTerm s o p r q) := by
  obtain ⟨r₀, hsyn, hr⟩ := h.names
  set s1 : St := { s with next := s.next + 1 }.setObj s.next o with hs1
  have h1 : s1.heap s.next = o := heap_setObj_self _ _ _
  have hlt := w.pSec.1
  have hx : s1.heap s.p.lastSec = s.heap s.p.lastSec := by
    rw [hs1, heap_setObj, if_neg (Nat.ne_of_lt hlt)]
  have hfo : finalObj s1 (s1.heap s.next) p r q = finalObj s o p r q := by
    rw [h1]; unfold finalObj finish
    rw [show s1.p = s.p from rfl, hx]; rfl
  have hfresh : FreshTerm s1 s.next := by
    refine ⟨by rw [h1]; exact h.new.children, ?_, ?_, ?_, by rw [h1]; exact h.new.sec, by rw [h1]; exact h.new.tvn,
      by rw [h1]; exact h.new.doc, by rw [h1]; exact h.new.cls⟩
    · intro hm; exact absurd (w.termsLt _ hm).1 (Nat.lt_irrefl _)
    · show s.next ∉ (s1.heap s.p.lastSec).terms
      rw [hx]; intro hm; exact absurd (w.secTermsLt _ _ hm) (Nat.lt_irrefl _)
    · exact Nat.ne_of_gt hlt
  rw [iterBody_run (s := s1) (t := s.next) (q := q) (p := p) (r₀ := r₀) hfresh (by rw [h1]; exact hsyn)]
  · rw [show s1.p = s.p from rfl, ← hr, hfo, h1]
    refine congrArg (Res.ok true) ?_
    unfold place addTerm
    rw [finalObj_pt]
    refine St.ext rfl (funext fun j => ?_) rfl rfl rfl rfl rfl rfl rfl rfl rfl rfl
    by_cases hj : j = s.next
    · simp only [hj, if_true]
    · simp only [if_neg hj, hs1, heap_setObj]
      rfl
  · rw [show s1.p = s.p from rfl, ← hr]
    refine ⟨h.value, by rw [h1]; exact h.found, Nat.ne_of_lt h.old, h.final.1, by rw [h1]; exact ht.parser _, ?_, h.final.2⟩
    rw [hfo]; exact finalObj_tvn ht _ _ _ _

theorem argNodes_congr {a b : Reader} (r : Str) (h1 : a.cols = b.cols) (h2 : a.last = b.last) (h3 : a.cur = b.cur) (h4 : a.vname = b.vname) :
    ∀ (vs : List Str) (k : Nat), argNodes a r k vs = argNodes b r k vs
  | [], _ => rfl
  | v :: vs, k => by unfold argNodes; rw [argNodes_congr r h1 h2 h3 h4 vs, h1, h2, h3, h4]

/-- The argument cells of a term in the second run. -/
theorem argLoopP_run {F : Prop} {f : Source} {n t : Nat} {R : Str} (hg : PlainName R) (hv : R ≠ py!"declarevalueset") : ∀ {vs : List Str} {k : Nat} {s : St}
    {a : Reader} {ids : List Nat}, PInv F s → Sim s a ids → t < s.next → (s.heap t).rt = R →
    (∀ v ∈ vs, strip v = v) → argLoopP f n false t k vs s =
      (List.zipWith (fun c l => fileRef ⟨f.file, n, c⟩ ++ l) (columns (k + 2) vs) ((argNodes a R k vs).map (nodeLine a.secs)), .ok () (argsEffect t k vs s))
  | [], _, s, a, ids, _, h, _, _, _ => rfl
  | v :: vs, k, s, a, ids, hp, h, ht, hR, hst => by
    obtain ⟨i1, i2, i3⟩ := argEffect_inv (k := k) (v := v) hp ht (by rw [hR]; exact hg)
    have hs := hst v List.mem_cons_self
    have hst' : ∀ w ∈ vs, strip w = w := fun w hw => hst w (List.mem_cons_of_mem _ hw)
    rw [show argLoopP f n false t k (v :: vs) = (do
      if strip v ≠ [] then do
        let c ← silent (argTerm false t k v)
        consumeP (some ⟨f.file, n, k + 2⟩) c
      argLoopP f n false t (k + 1) vs) from rfl]
    unfold argsEffect argNodes columns
    by_cases hb : strip v = []
    · have e : argEffect t k v s = s := by unfold argEffect; rw [if_pos hb]
      rw [e]
      simp only [hb, if_true, ne_eq, not_true, if_false, List.nil_append]
      exact argLoopP_run hg hv hp h ht hR hst'
    · obtain ⟨hcls, hca⟩ := canAdd_arg (k := k) (v := v) hp hR hg
      have e : argEffect t k v s = addTerm s (argCell s t k v) R (remapRecord s.p.paramMap (natStr k)) (lastTerm s) := by
        unfold argEffect; rw [if_neg hb, hR]
      obtain ⟨ids1, h1⟩ := sim_args (vs := [v]) (k := k) hg hv hp h ht hR (fun w hw => by rw [List.mem_singleton.1 hw]; exact hs)
      have h1 : Sim (argEffect t k v s) (Reader.addArgs R k [v] a) ids1 := h1
      have ih := argLoopP_run (f := f) (n := n) hg hv (vs := vs) (k := k + 1) i1 h1 i2 (i3.trans hR) hst'
      have hne : R ≠ ELIDED := fun e => hg.plain (by rw [e]; decide)
      have hfp : finalPt s.p R = R := if_neg hne
      have hval : (argCell s t k v).value = .str (strip v) := by
        unfold argCell argObj
        simp only
        rw [cellValue_mk]; unfold cellValue; rw [if_neg (by intro e; rw [e] at hb; exact hb rfl)]
      have hline := termStr_new hp h (o := argCell s t k v) (p := R) (r := remapRecord s.p.paramMap (natStr k)) (q := lastTerm s)
        (by rw [hfp]; exact hne) (.inr ⟨_, hval⟩) a.last.2
      have hcell : argCell s t k v = argObj (parserTermClass s (dotJoin R (natStr k))) R k v t := by unfold argCell; rw [hR]
      have hb1 : consumeP (some ⟨f.file, n, k + 2⟩) s.next ({ s with next := s.next + 1 }.setObj s.next (argCell s t k v)) =
          ([fileRef ⟨f.file, n, k + 2⟩ ++ nodeLine a.secs ⟨R, colName a.cols k, .str (strip v), a.last.2, a.cur, a.vname⟩], .ok () (argEffect t k v s)) := by
        rw [consumeP_run (iterBody_new hp.wf hp.std.tvn hca) hline, e, hfp, hval, h.cols, remap_colName]
        rfl
      rw [addArgs_eq] at ih
      have ha := argNodes_congr (a := { a with nodes := a.nodes ++ argNodes a R k [v] }) (b := a) R rfl rfl rfl rfl vs (k + 1)
      rw [ha] at ih
      simp only [ne_eq, hb, not_false_iff, if_true, if_false]
      rw [silent_bind (argTerm_run hR hg.toGoodName hcls), ← hcell, pbind_run, hb1]
      dsimp only
      rw [ih]
      simp

theorem genRowsP_cons (files : Files) (sub : Str → Bool → PrintM Unit) (old : Nat → Option Place) (f : Source) (isDecl : Bool) (dir : Str) (n ls : Nat)
    (lp : Option Place) (row : List Str) (rows : List (List Str)) : genRowsP files sub old f isDecl dir n ls lp (row :: rows) =
    (if skipRow row then genRowsP files sub old f isDecl dir (n + 1) ls lp rows
    else do
      let t ← silent (rowTerm isDecl row)
      let o ← silent (obj t)
      if o.joinLc = py!"root.include" ∨ o.joinLc = py!"root.declare" then do
        let target ← silent (M.lift fun _ => resolveTarget files dir o)
        if target = f.ref then silent (M.raise .includeError)
        else do
          consumeP (some ⟨f.file, n, if o.cls.isSection then n else 1⟩) t
          let o ← silent (obj t)
          sub target (lower o.rt = py!"declare")
          consumeP lp ls
          genRowsP files sub old f isDecl dir (n + 1) ls lp rows
      else if o.joinLc = py!"root.section" then do
        let x ← silent (M.lift fun s => resolveSection s t)
        yieldWithArgsP f n isDecl (if x = t then some ⟨f.file, n, if o.cls.isSection then n else 1⟩ else old x) x
        genRowsP files sub old f isDecl dir (n + 1) x (if x = t then some ⟨f.file, n, if o.cls.isSection then n else 1⟩ else old x) rows
      else do
        yieldWithArgsP f n isDecl (some ⟨f.file, n, if o.cls.isSection then n else 1⟩) t
        genRowsP files sub old f isDecl dir (n + 1) ls lp rows) := rfl

/-- A term row in the second run. -/
theorem genRowsP_term {F : Prop} {files : Files} {sub : Str → Bool → PrintM Unit} {old : Nat → Option Place} {f : Source} {dir : Str} {n ls : Nat} {lp : Option Place} {c : Str}
    {rest : List Str} {rows : List (List Str)} {s : St} {p r : Str} (hp : PInv F s) {a b : Reader} {ids ids1 : List Nat} (h : Sim s a ids)
    (hc : PlainCell s c p r) (hl : a.last.1 ≠ ELIDED) (hv : r ≠ py!"declarevalueset") (par : Option Nat)
    (h1 : Sim (addTerm s (rowObj (parserTermClass s (dotJoin p r)) p r rest) p r (parentOf s p)) b ids1) (hb : b.secs = a.secs) :
    genRowsP files sub old f false dir n ls lp ((c :: rest) :: rows) s =
      ((fileRef ⟨f.file, n, 1⟩ ++ nodeLine a.secs ⟨finalPt s.p p, r, cellValue (rest.headD []), par, a.cur, a.vname⟩) ::
          List.zipWith (fun c l => fileRef ⟨f.file, n, c⟩ ++ l) (columns 2 ((rest.drop 1).map strip))
            ((argNodes b r 0 ((rest.drop 1).map strip)).map (nodeLine a.secs)) ++ (genRowsP files sub old f false dir (n + 1) ls lp rows (termEffect p r rest s)).1,
        (genRowsP files sub old f false dir (n + 1) ls lp rows (termEffect p r rest s)).2) := by
  obtain ⟨hcls, ha⟩ := canAdd_row hp hc rest
  obtain ⟨h0, k1, h2, h3, h4, h5, h6⟩ := splitTermLower_cases hc.split
  have hr := hc.name.plain
  have hfp : '.' ∉ finalPt s.p p ∧ lower (finalPt s.p p) = finalPt s.p p := by
    unfold finalPt; split
    · exact ⟨hp.name.nodot, hp.name.low⟩
    · exact ⟨h3, h5⟩
  have hfe : finalPt s.p p ≠ ELIDED := by
    unfold finalPt; split
    · rw [h.lastName]; exact hl
    · assumption
  have hn1 : dotJoin p r ≠ py!"root.include" := dotJoin_special (a := py!"root") (b := py!"include") h3 hr (by decide) (by decide)
  have hn2 : dotJoin p r ≠ py!"root.declare" := dotJoin_special (a := py!"root") (b := py!"declare") h3 hr (by decide) (by decide)
  have hn3 : dotJoin p r ≠ py!"root.section" := dotJoin_special (a := py!"root") (b := py!"section") h3 hr (by decide) (by decide)
  have hn4 : dotJoin (lower (finalPt s.p p)) (lower r) ≠ py!"root.header" := by
    rw [hfp.2, h6]
    exact dotJoin_special (a := py!"root") (b := py!"header") hfp.1 hr (by decide) (by decide)
  set o := rowObj (parserTermClass s (dotJoin p r)) p r rest with ho
  have hj : o.joinLc = dotJoin p r := by rw [ho]; unfold Obj.joinLc rowObj; simp only [h5, h6]
  have hval : o.value = cellValue (rest.headD []) := by rw [ho]; show (Val.str (rest.headD [])).mk = _; exact cellValue_mk _
  have hok : o.value = .none ∨ ∃ x, o.value = .str x := by
    rw [hval]; unfold cellValue; split
    · exact .inl rfl
    · exact .inr ⟨_, rfl⟩
  rw [genRowsP_cons, show skipRow (c :: rest) = false from hc.noise]
  simp only [Bool.false_eq_true, if_false]
  rw [silent_bind (rowTerm_run hc.split hcls), ← ho, silent_bind (obj_run _ _), heap_setObj_self, hj]
  rw [if_neg (by rintro (e | e) <;> contradiction), if_neg hn3, show o.cls.isSection = false by rw [ho]; exact hcls]
  have hy : yieldWithArgsP f n false (some ⟨f.file, n, 1⟩) s.next ({ s with next := s.next + 1 }.setObj s.next o) =
      ((fileRef ⟨f.file, n, 1⟩ ++ nodeLine a.secs ⟨finalPt s.p p, r, cellValue (rest.headD []), par, a.cur, a.vname⟩) ::
        List.zipWith (fun c l => fileRef ⟨f.file, n, c⟩ ++ l) (columns 2 ((rest.drop 1).map strip))
          ((argNodes b r 0 ((rest.drop 1).map strip)).map (nodeLine a.secs)), .ok () (termEffect p r rest s)) := by
    unfold yieldWithArgsP
    rw [pbind_run, consumeP_run (iterBody_new hp.wf hp.std.tvn ha) (termStr_new hp h hfe hok par), hval]
    dsimp only
    rw [silent_bind (obj_run _ _), addTerm_heap_new]
    have hj2 : (finalObj s o p r (parentOf s p)).joinLc = dotJoin (lower (finalPt s.p p)) (lower r) := by
      unfold Obj.joinLc; rw [finalObj_pt, finalObj_rt]
    rw [hj2, if_neg (by rintro (e | e); exacts [ha.final.2.2 e, hn4 e]), finalObj_args]
    have hargs : o.args = (rest.drop 1).map strip := by rw [ho]; rfl
    rw [hargs, argLoopP_run (F := F) hc.name hv (addTerm_row_inv hp hc rest) h1 (Nat.lt_succ_self _) (by rw [addTerm_heap_new, finalObj_rt])
      (by intro v hv; obtain ⟨w, -, rfl⟩ := List.mem_map.1 hv; exact strip_strip w), hb]
    rfl
  simp only [Bool.false_eq_true, if_false]
  rw [pbind_run, hy]

/-- A header row in the second run. -/
theorem genRowsP_header {F : Prop} {files : Files} {sub : Str → Bool → PrintM Unit} {old : Nat → Option Place} {f : Source} {dir : Str} {n ls : Nat} {lp : Option Place} {c : Str}
    {rest : List Str} {rows : List (List Str)} {s : St} (h : PInv F s) (hc : PlainHeader c rest) :
    genRowsP files sub old f false dir n ls lp ((c :: rest) :: rows) s =
      genRowsP files sub old f false dir (n + 1) ls lp rows (headerEffect (parserTermClass s (py!"root.header")) rest s) := by
  have hcls : (parserTermClass s (dotJoin ROOT (py!"header"))).isSection = false :=
    h.std.notSection (by decide) (by decide) (by decide)
  obtain ⟨cl, hcl⟩ : ∃ cl, cl = parserTermClass s (dotJoin ROOT (py!"header")) := ⟨_, rfl⟩
  rw [show parserTermClass s (py!"root.header") = cl from hcl.symm]
  rw [genRowsP_cons, show skipRow (c :: rest) = false from hc.noise]
  simp only [Bool.false_eq_true, if_false]
  obtain ⟨o, ho⟩ : ∃ o, o = rowObj cl ROOT (py!"header") rest := ⟨_, rfl⟩
  have hj : o.joinLc = py!"root.header" := by rw [ho]; rfl
  rw [silent_bind (rowTerm_run hc.split hcls), ← hcl, ← ho, silent_bind (obj_run _ _), heap_setObj_self, hj]
  rw [if_neg (by decide), if_neg (by decide)]
  set s1 : St := { s with next := s.next + 1 }.setObj s.next o with hs1
  have h1 : s1.heap s.next = o := heap_setObj_self _ _ _
  have hv : o.value = .str (strip (rest.headD [])) := by
    rw [ho]; show (Val.str (rest.headD [])).mk = _
    unfold Val.mk Val.truthy
    cases hr : rest.headD [] with
    | nil => exact absurd hr hc.value
    | cons a l => rfl
  have hne : s.p.lastSec ≠ s.next := Nat.ne_of_lt h.wf.pSec.1
  have ei : iterBody s.next s1 = .ok false (headerEffect cl rest s) := by
    unfold iterBody
    have hsub : substSynonym s1.p.declTerms (s1.heap s.next).pt (s1.heap s.next).rt = .ok (ROOT, py!"header") := by
      rw [h1, ho]; exact h.std.subst _ _
    have hself : s1.setObj s.next { s1.heap s.next with pt := ROOT, rt := py!"header" } = s1 := by
      have : ({ s1.heap s.next with pt := ROOT, rt := py!"header" } : Obj) = s1.heap s.next := by rw [h1, ho]; rfl
      rw [this]; exact setObj_self _ _
    have hrm : remapRecord s1.p.paramMap (py!"header") = py!"header" := rfl
    simp only [bind_run, get_run, lift_run, hsub, upd_run, hrm, hself]
    obtain ⟨o2, ho2⟩ : ∃ o2 : Obj, o2 = { o with sec := some s.p.lastSec } := ⟨_, rfl⟩
    have e0 : setSection s.next (some s1.p.lastSec) s1 = .ok () (s1.setObj s.next o2) := by
      rw [setSection_run (by rw [h1, ho]; rfl) (by rw [h1, ho]; rfl) (by rw [h1, ho]; show cl.isSection = false; rw [hcl]; exact hcls), h1, ho2]; rfl
    have hj2 : o2.joinLc = py!"root.header" := by rw [ho2]; exact hj
    have hv2 : o2.value = .str (strip (rest.headD [])) := by rw [ho2]; exact hv
    rw [e0]
    simp only [obj_run, heap_setObj_self, hj2, if_true, bind_run, updP, modify_run, hv2, upd_run, pure_run]
    refine congrArg (Res.ok false) ?_
    unfold headerEffect
    have ha : o2.args = (rest.drop 1).map strip := by rw [ho2, ho]; rfl
    rw [← ha]
    refine St.ext rfl (funext fun j => ?_) rfl rfl rfl rfl rfl rfl rfl rfl rfl rfl
    simp only [St.setObj, hs1]
    by_cases hjn : j = s.next
    · simp only [hjn, if_true, hne.symm, if_false, ho2, ho]
    · simp only [if_neg hjn, if_neg hne]
      split
      · next e => rw [e]
      · rfl
  have hj3 : ((headerEffect cl rest s).heap s.next).joinLc = py!"root.header" := by
    unfold headerEffect; simp only [if_true]; rfl
  have hy : ∀ pl, yieldWithArgsP f n false pl s.next s1 = ([], .ok () (headerEffect cl rest s)) := fun pl => by
    unfold yieldWithArgsP
    rw [pbind_run, consumeP_quiet ei]
    dsimp only
    rw [silent_bind (obj_run _ _), hj3, if_pos (.inr rfl)]
    rfl
  rw [pbind_run, hy]
  rfl

/-- Reading a section object. -/
theorem iterBody_section {s : St} {x : Nat} {k : Str} (ho : OkSec k (s.heap x)) (hc : (s.heap x).cls.isSection = true)
    (hsyn : synonyms s.p.declTerms = []) (hroot : (s.heap s.root).rt = ROOT) :
    iterBody x s = .ok true { (s.setObj x { s.heap x with sec := none }) with
      p := { s.p with paramMap := mungeParamMap (s.heap x).args, lastParent := ROOT, lastSec := x, defTvn := py!"@value" } } := by
  have hsub : substSynonym s.p.declTerms ROOT (py!"section") = .ok (ROOT, py!"section") := by
    unfold substSynonym; rw [hsyn]; rfl
  have hself : s.setObj x { s.heap x with pt := ROOT, rt := py!"section" } = s := by
    rw [← ho.pt, ← ho.rt]; exact setObj_self s x
  have hrm : remapRecord s.p.paramMap (py!"section") = py!"section" := rfl
  unfold iterBody
  simp only [bind_run, get_run, lift_run, ho.pt, ho.rt, hsub, upd_run, hrm, hself]
  rw [setSection_sec ho.tvn hc ho.args ho.header]
  have hj : ({ s.heap x with sec := some s.p.lastSec } : Obj).joinLc = py!"root.section" := by
    unfold Obj.joinLc; simp only [ho.pt, ho.rt]; decide
  simp only [obj_run, heap_setObj_self, hj]
  simp only [show (py!"root.section" = py!"root.header") = False from by decide, if_false, if_true, bind_run, hc, Bool.not_true,
    Bool.false_eq_true, pure_run, updP, modify_run, hroot, ho.doc]
  rw [setSection_sec (by simp [St.setObj, ho.tvn]) (by simp [St.setObj, hc]) (by simp [St.setObj]; exact ho.args) (by simp [St.setObj]; exact ho.header)]
  simp only [if_false]
  refine congrArg (Res.ok true) ?_
  refine St.ext rfl (funext fun j => ?_) rfl rfl rfl rfl rfl rfl rfl rfl rfl rfl
  simp only [St.setObj]
  split
  · rw [ho.pt, ho.rt]; simp
  · rfl

/-- A row of a section that exists, in the second run. -/
theorem genRowsP_section {F : Prop} {files : Files} {sub : Str → Bool → PrintM Unit} {old : Nat → Option Place} {f : Source} {dir : Str} {n ls : Nat} {lp : Option Place} {c : Str}
    {rest : List Str} {rows : List (List Str)} {s : St} (h : PInv F s) (hc : PlainSec c rest) {x : Nat} {m : Str}
    (hx : s.sections.get? (lower (strip (rest.headD []))) = some x) (hn : (s.heap x).value = .str m) :
    genRowsP files sub old f false dir n ls lp ((c :: rest) :: rows) s =
      ((frontOf (old x) ++ (py!"None:root.section=" ++ m)) :: (genRowsP files sub old f false dir (n + 1) x (old x) rows (sectionEffect rest s)).1,
        (genRowsP files sub old f false dir (n + 1) x (old x) rows (sectionEffect rest s)).2) := by
  have hxlt : x < s.next := (h.wf.secsLt _ (Dict.mem_of_get? hx)).1
  have hsx : secOf s rest = x := by unfold secOf; rw [hx]; rfl
  rw [genRowsP_cons, show skipRow (c :: rest) = false from hc.noise]
  simp only [Bool.false_eq_true, if_false]
  set s1 : St := { s with next := s.next + 1 }.setObj s.next (secObj s rest) with hs1
  have hj : (secObj s rest).joinLc = py!"root.section" := rfl
  have h1 : s1.heap s.next = secObj s rest := heap_setObj_self _ _ _
  rw [silent_bind (rowTerm_section h hc), ← hs1, silent_bind (obj_run _ _), h1, hj]
  rw [if_neg (by decide), if_pos rfl]
  have hres : resolveSection s1 s.next = .ok x := by
    unfold resolveSection; rw [h1, ← hsx]; rfl
  rw [silent_bind (s' := s1) (a := x) (by rw [lift_run, hres])]
  have hsx1 : s1.heap x = s.heap x := by rw [hs1, heap_setObj, if_neg (Nat.ne_of_lt hxlt)]
  obtain ⟨ho, hcl, hr⟩ := secOf_ok h hc
  rw [hsx, if_neg (Nat.ne_of_lt hxlt)] at ho hcl
  have hroot : (s1.heap s1.root).rt = ROOT := by
    show (if s.root = s.next then _ else s.heap s.root).rt = _
    rw [if_neg (Nat.ne_of_lt h.wf.rootLt)]; exact h.rootName
  have hhas : s.sections.has (lower (strip (rest.headD []))) = true := by unfold Dict.has; rw [hx]; rfl
  have e : ({ (s1.setObj x { s1.heap x with sec := none }) with
      p := { s1.p with paramMap := mungeParamMap (s1.heap x).args, lastParent := ROOT, lastSec := x,
                       defTvn := py!"@value" } } : St) = sectionEffect rest s := by
    unfold sectionEffect
    rw [hsx]
    refine St.ext rfl (funext fun j => ?_) rfl rfl ?_ rfl rfl rfl rfl rfl rfl ?_
    · simp only [St.setObj, hs1]
      split
      · next e => rw [e]
      · rfl
    · show s.sections = if s.sections.has _ then _ else _
      rw [if_pos hhas]
    · rw [hsx1]; simp only [if_neg (Nat.ne_of_lt hxlt)]; rfl
  have hi := iterBody_section (s := s1) (x := x) (by rw [hsx1]; exact ho) (by rw [hsx1]; exact hcl) h.std.syn hroot
  rw [e] at hi
  have hnew : (sectionEffect rest s).heap x = { s.heap x with sec := none } := by
    rw [sectionEffect_heap, if_neg (Nat.ne_of_lt hxlt), if_pos hsx.symm]
  have hline : termStr (sectionEffect rest s) x = .ok (py!"None:root.section=" ++ m) := by
    unfold termStr secLabel
    rw [hnew]
    dsimp only
    rw [hn, ho.pt, ho.rt]
    simp only [Val.toStr]
    rw [if_neg (by decide)]
    rfl
  have hy : yieldWithArgsP f n false (old x) x s1 = ([frontOf (old x) ++ (py!"None:root.section=" ++ m)], .ok () (sectionEffect rest s)) := by
    unfold yieldWithArgsP
    rw [pbind_run, consumeP_run hi hline]
    dsimp only
    have hj2 : Obj.joinLc { s.heap x with sec := none } = py!"root.section" := by
      unfold Obj.joinLc; simp only [ho.pt, ho.rt]; decide
    rw [silent_bind (obj_run _ _), hnew, hj2, if_pos (.inl rfl)]
    rfl
  rw [if_neg (Nat.ne_of_lt hxlt), pbind_run, hy]
  rfl

theorem argNodes_strip (a : Reader) (r : Str) : ∀ (vs : List Str) (k : Nat), argNodes a r k (vs.map strip) = argNodes a r k vs
  | [], _ => rfl
  | v :: vs, k => by rw [List.map_cons]; unfold argNodes; rw [argNodes_strip a r vs, strip_strip]

theorem columns_strip : ∀ (vs : List Str) (k : Nat), columns k (vs.map strip) = columns k vs
  | [], _ => rfl
  | v :: vs, k => by
    simp only [List.map_cons, columns, strip_strip]
    rw [columns_strip vs]

theorem drop_argNodes {l m : List Node} : (l ++ m).drop l.length = m := by simp

/-- One row in the second run: what it adds is printed. -/
theorem genRowsP_row {F : Prop} {files : Files} {sub : Str → Bool → PrintM Unit} {old : Nat → Option Place} {f : Source} {dir : Str} {n ls : Nat} {lp : Option Place}
    {sec : Str → Str} {row : List Str}
    {s s' : St} (hp : PInv F s) {a : Reader} {ids : List Nat} (h : Sim s a ids) (hl : a.last.1 ≠ ELIDED)
    (hr : PlainRow s row s') (hk : kind row ≠ .special) (hsec : ∀ n cols, kind row = .section n cols → (a.secs.get? (lower n)).isSome)
    (hold : ∀ k x, s.sections.get? k = some x → frontOf (old x) = sec k) :
    (a.row row).last.1 ≠ ELIDED ∧ ∃ ls' lp', ∀ rows, genRowsP files sub old f false dir n ls lp (row :: rows) s =
      (a.placedRow (fun r c => fileRef ⟨f.file, r, c⟩) sec n row ++ (genRowsP files sub old f false dir (n + 1) ls' lp' rows s').1,
        (genRowsP files sub old f false dir (n + 1) ls' lp' rows s').2) := by
  rcases hr.by_kind with ⟨k, rfl⟩ | ⟨c, rest, rfl, hc, k, rfl⟩ | ⟨c, rest, rfl, hc, k, rfl⟩ | ⟨c, x, rest, rfl, hc, k, rfl⟩ |
    ⟨c, p, r, rest, rfl, hc, he, k, rfl⟩ | k
  · have hskip : skipRow row = true := by
      rcases kind_cases row with ⟨-, hs⟩ | ⟨c, rest, -, -, ⟨k', -⟩ | ⟨k', -⟩ | ⟨r, k', -⟩ | ⟨p, r, k', -⟩ | k'⟩
      · exact hs
      all_goals (rw [k] at k'; cases k')
    refine ⟨by unfold Reader.row; rw [k]; exact hl, ls, lp, fun rows => ?_⟩
    rw [genRowsP_cons, hskip]
    unfold Reader.placedRow Reader.rowLines Reader.row
    rw [k]
    simp
  · obtain ⟨v, hv⟩ := Option.isSome_iff_exists.1 (hsec _ _ k)
    have hks : (s.sections.get? (lower (strip (rest.headD [])))).isSome := by
      cases hg : s.sections.get? (lower (strip (rest.headD []))) with
      | some _ => rfl
      | none =>
        rw [Dict.get?_eq_none, h.sections, ← Dict.get?_eq_none, hv] at hg
        cases hg
    obtain ⟨x, hx⟩ := Option.isSome_iff_exists.1 hks
    obtain ⟨m, hn, hcol⟩ := h.columns _ _ hx
    refine ⟨?_, x, old x, fun rows => ?_⟩
    · unfold Reader.row; rw [k]; dsimp only; rw [hcol]; exact (by decide : (py!"root") ≠ ELIDED)
    · rw [genRowsP_section hp hc hx hn]
      unfold Reader.placedRow Reader.rowLines; rw [k]; dsimp only; rw [hcol, hold _ _ hx]
      rfl
  · refine ⟨by unfold Reader.row; rw [k]; exact hl, ls, lp, fun rows => ?_⟩
    rw [genRowsP_header hp hc]
    unfold Reader.placedRow Reader.rowLines Reader.row
    rw [k]
    simp
  · have ho := kind_ordinary (.inl k)
    have hq : parentOf s ELIDED = ref s ids a.last.2 := by
      unfold parentOf lastTerm; rw [if_pos rfl, h.lastName, h.lastRef]; rfl
    have hfp : finalPt s.p ELIDED = a.last.1 := by
      unfold finalPt; rw [if_pos rfl]; exact h.lastName
    have h1 := sim_child hp h (p := ELIDED) (r := x) (o := rowObj (parserTermClass s (dotJoin ELIDED x)) ELIDED x rest)
      (newTerm_rowObj (canAdd_row hp hc rest).1 _ _ _) h.lastOk (notDeclared (by decide) (.inl (by decide)) (by decide))
      (fun hr => by
        have e : finalPt s.p ELIDED = ROOT := by rw [hfp, ← h.lastName] at hr ⊢; rw [← hp.name.low]; exact hr
        rw [e]; exact notDeclared (by decide) (.inr (ordinary_ne ho)) (by decide))
      (by rw [hfp, ← h.lastName]; exact hp.name.low) (fun hn => hn.1 rfl)
    rw [← hq, hfp, rowObj_value _ _ _ c] at h1
    refine ⟨?_, ls, lp, fun rows => ?_⟩
    · unfold Reader.row; rw [k]; dsimp only; rw [addArgs_eq]; exact hl
    · rw [genRowsP_term hp h hc hl (ordinary_vs ho) a.last.2 h1 rfl]
      unfold Reader.placedRow Reader.rowLines Reader.row
      rw [k]
      dsimp only
      rw [addArgs_eq]
      dsimp only
      rw [List.append_assoc, drop_argNodes, hfp, argNodes_strip, columns_strip,
        show rowPlaces n (c :: rest) = (n, 1) :: (columns 2 (rest.drop 1)).map fun c => (n, c) by unfold rowPlaces; rw [k]; rfl]
      simp only [List.singleton_append, List.map_cons, List.zipWith_cons_cons, List.zipWith_map_left]
      cases rest <;> rfl
  · have ho := kind_ordinary (.inr ⟨p, k⟩)
    obtain ⟨hkn, hpv⟩ : (∃ i, Dict.get? a.known p = some i) ∧ p ≠ py!"declarevalueset" := by
      have := h.known p he
      rcases hc.known with e | e
      · exact absurd e he
      · rw [this] at e
        cases hg : Dict.get? a.known p with
        | none => rw [hg] at e; cases e
        | some i =>
          refine ⟨⟨i, rfl⟩, ?_⟩
          rintro rfl
          rw [h.plainKnown] at hg; cases hg
    obtain ⟨i, hi⟩ := hkn
    obtain ⟨c1, -, -, c3, -, c5, -⟩ := splitTermLower_cases hc.split
    have hq : parentOf s p = ref s ids i := by
      unfold parentOf; rw [if_neg he, h.known p he, hi]; rfl
    have hfp : finalPt s.p p = p := if_neg he
    have h1 := sim_named hp h (p := p) (r := r) (o := rowObj (parserTermClass s (dotJoin p r)) p r rest)
      (newTerm_rowObj (canAdd_row hp hc rest).1 _ _ _) (h.knownOk p i hi) (notDeclared c3 (.inr (ordinary_ne ho)) hpv)
      (fun _ => by rw [hfp]; exact notDeclared c3 (.inr (ordinary_ne ho)) hpv) (by rw [hfp]; exact c5) ⟨he, Nat.le_refl 1⟩ (ordinary_root ho) (ordinary_vs ho)
    rw [← hq, hfp, rowObj_value _ _ _ c] at h1
    refine ⟨?_, ls, lp, fun rows => ?_⟩
    · unfold Reader.row; rw [k]; dsimp only; rw [addArgs_eq]
      exact fun e : r = ELIDED => hc.name.plain (by rw [e]; decide)
    · rw [genRowsP_term hp h hc hl (ordinary_vs ho) i h1 rfl]
      unfold Reader.placedRow Reader.rowLines Reader.row
      rw [k]
      dsimp only
      rw [addArgs_eq, hi]
      dsimp only
      rw [List.append_assoc, drop_argNodes, hfp, argNodes_strip, columns_strip,
        show rowPlaces n (c :: rest) = (n, 1) :: (columns 2 (rest.drop 1)).map fun c => (n, c) by unfold rowPlaces; rw [k]; rfl]
      simp only [List.singleton_append, List.map_cons, List.zipWith_cons_cons, List.zipWith_map_left]
      cases rest <;> rfl
  · exact absurd k hk

/-- A row of a section that exists, and any other row, leaves the sections alone. -/
theorem sections_row {F : Prop} {s s' : St} {row : List Str} (hp : PInv F s) {a : Reader} {ids : List Nat} (h : Sim s a ids)
    (hr : PlainRow s row s') (hk : kind row ≠ .special) (hsec : ∀ n cols, kind row = .section n cols → (a.secs.get? (lower n)).isSome) :
    s'.sections = s.sections := by
  have args : ∀ (vs : List Str) (k t : Nat) (s : St), (argsEffect t k vs s).sections = s.sections := by
    intro vs
    induction vs with
    | nil => intro k t s; rfl
    | cons v vs ih =>
      intro k t s
      refine (ih (k + 1) t (argEffect t k v s)).trans ?_
      unfold argEffect; split <;> rfl
  rcases hr.by_kind with ⟨k, rfl⟩ | ⟨c, rest, rfl, hc, k, rfl⟩ | ⟨c, rest, rfl, hc, k, rfl⟩ | ⟨c, x, rest, rfl, hc, k, rfl⟩ |
    ⟨c, p, r, rest, rfl, hc, he, k, rfl⟩ | k
  · rfl
  · obtain ⟨v, hv⟩ := Option.isSome_iff_exists.1 (hsec _ _ k)
    show (if s.sections.has _ then _ else _) = _
    rw [if_pos]
    cases hg : s.sections.get? (lower (strip (rest.headD []))) with
    | some _ => unfold Dict.has; rw [hg]; rfl
    | none =>
      rw [Dict.get?_eq_none, h.sections, ← Dict.get?_eq_none, hv] at hg
      cases hg
  · rfl
  · exact args _ _ _ _
  · exact args _ _ _ _
  · exact absurd k hk

end Metatab
