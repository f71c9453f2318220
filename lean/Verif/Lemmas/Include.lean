import Verif.Lemmas.SameDoc
import Verif.Spec.Include
/-! Files with include rows are read as the reference reader says. -/
namespace Metatab
open Py Spec

/-- The root section is as it was made, apart from its lists and its columns. -/
structure RootOk (s : St) : Prop where
  key : s.sections.get? ROOT = some s.root
  pt : (s.heap s.root).pt = ROOT
  tvn : (s.heap s.root).tvn = py!"@value"
  doc : (s.heap s.root).isDecl = false
  args : PlainCols (s.heap s.root).args
  header : PlainCols (s.heap s.root).headerArgs

theorem RootOk.congr {s s' : St} (h : RootOk s) (hr : s'.root = s.root) (hs : s'.sections.get? ROOT = some s.root)
    (h1 : (s'.heap s.root).pt = (s.heap s.root).pt) (h2 : (s'.heap s.root).tvn = (s.heap s.root).tvn)
    (h3 : (s'.heap s.root).isDecl = (s.heap s.root).isDecl) (h4 : (s'.heap s.root).args = (s.heap s.root).args)
    (h5 : PlainCols (s'.heap s.root).headerArgs) : RootOk s' := by
  refine ⟨by rw [hr]; exact hs, ?_, ?_, ?_, ?_, ?_⟩ <;> rw [hr]
  · rw [h1]; exact h.pt
  · rw [h2]; exact h.tvn
  · rw [h3]; exact h.doc
  · rw [h4]; exact h.args
  · exact h5

theorem rootOk_addTerm {s : St} {o : Obj} {p r : Str} {q : Nat} (h : RootOk s) (hr : s.root < s.next) : RootOk (addTerm s o p r q) := by
  have e := addTerm_heap_old (o := o) (p := p) (r := r) (q := q) hr
  exact h.congr rfl h.key (by rw [e]) (by rw [e]) (by rw [e]) (by rw [e]) (by rw [e]; exact h.header)

theorem rootOk_argsEffect {F : Prop} {t : Nat} : ∀ {vs : List Str} {k : Nat} {s : St}, PInv F s → t < s.next → PlainName (s.heap t).rt → RootOk s →
    RootOk (argsEffect t k vs s)
  | [], _, _, _, _, _, h => h
  | v :: vs, k, s, hp, ht, hg, h => by
    obtain ⟨i1, i2, i3⟩ := argEffect_inv (k := k) (v := v) hp ht hg
    refine rootOk_argsEffect (vs := vs) (k := k + 1) i1 i2 (by rw [i3]; exact hg) ?_
    unfold argEffect
    split
    · exact h
    · exact rootOk_addTerm h hp.wf.rootLt

theorem rootOk_row {F : Prop} {s s' : St} {row : List Str} (hp : PInv F s) (h : RootOk s) (hr : PlainRow s row s') : RootOk s' := by
  cases hr with
  | noise => exact h
  | @term c p r rest hc =>
    have h1 := addTerm_row_inv hp hc rest
    exact rootOk_argsEffect h1 (Nat.lt_succ_self _) (by rw [addTerm_heap_new, finalObj_rt]; exact hc.name) (rootOk_addTerm h hp.wf.rootLt)
  | @«section» c rest hc =>
    have ok := secOf_ok hp hc
    have e : (sectionEffect rest s).heap s.root = s.heap s.root := by
      rw [sectionEffect_heap, if_neg (Nat.ne_of_lt hp.wf.rootLt), if_neg (Ne.symm ok.2.2)]
    refine h.congr rfl ?_ (by rw [e]) (by rw [e]) (by rw [e]) (by rw [e]) (by rw [e]; exact h.header)
    show Dict.get? (if _ then _ else _) _ = _
    split
    · exact h.key
    · rw [Dict.get?_set, if_neg hc.notRoot]; exact h.key
  | @header c rest hc =>
    have e : (headerEffect (parserTermClass s (py!"root.header")) rest s).heap s.root = if s.root = s.p.lastSec
      then { s.heap s.root with headerArgs := (rest.drop 1).map strip, defTvn := lower (strip (rest.headD [])) } else s.heap s.root := by
      unfold headerEffect; simp only [if_neg (Nat.ne_of_lt hp.wf.rootLt)]
    refine h.congr rfl h.key ?_ ?_ ?_ ?_ ?_ <;> rw [e] <;> split
    all_goals first | rfl | exact hc.cols | exact h.header

/-- The effect of going back to the root section. -/
def reopenRoot (s : St) : St :=
  { (s.setObj s.root { s.heap s.root with sec := none }) with p := { s.p with lastSec := s.root } }

theorem consume_root {F : Prop} {s : St} (hp : PInv F s) (h : RootOk s) : consume true s.root s = .ok () (reopenRoot s) := by
  have hsub : substSynonym s.p.declTerms ROOT ROOT = .ok (ROOT, ROOT) := hp.std.subst _ _
  have hself : s.setObj s.root { s.heap s.root with pt := ROOT, rt := ROOT } = s := by
    have : ({ s.heap s.root with pt := ROOT, rt := ROOT } : Obj) = s.heap s.root := by
      have e1 := h.pt; have e2 := hp.rootName
      revert e1 e2; cases s.heap s.root; rintro rfl rfl; rfl
    rw [this]; exact setObj_self s s.root
  have hrm : remapRecord s.p.paramMap ROOT = ROOT := rfl
  have hc := hp.wf.rootSec
  have hj : ∀ o : Obj, o.pt = ROOT → o.rt = ROOT → o.joinLc = py!"root.root" := by
    intro o e1 e2; unfold Obj.joinLc; rw [e1, e2]; decide
  unfold consume
  have e : iterBody s.root s = .ok true (reopenRoot s) := by
    unfold iterBody
    simp only [bind_run, get_run, lift_run, h.pt, hp.rootName, hsub, upd_run, hrm, hself]
    rw [setSection_sec h.tvn hc h.args h.header]
    simp only [obj_run, heap_setObj_self, hj { s.heap s.root with sec := some s.p.lastSec } h.pt hp.rootName]
    simp only [show (py!"root.root" = py!"root.header") = False from by decide, show (py!"root.root" = py!"root.section") = False from by decide,
      if_false, if_true, bind_run, hc, Bool.not_true, Bool.false_eq_true, pure_run, updP, modify_run, h.doc]
    rw [setSection_sec (by simp [St.setObj, h.tvn]) (by simp [St.setObj, hc]) (by simp [St.setObj]; exact h.args) (by simp [St.setObj]; exact h.header)]
    simp only [if_false]
    refine congrArg (Res.ok true) ?_
    refine St.ext rfl (funext fun j => ?_) rfl rfl rfl rfl rfl rfl rfl rfl rfl rfl
    simp only [St.setObj, reopenRoot]
    split
    · simp [h.doc]
    · rfl
  simp only [e, bind_run, Bool.and_self, if_true]
  unfold loadBody
  have hj2 : ((reopenRoot s).heap s.root).joinLc = py!"root.root" := by
    refine hj _ ?_ ?_ <;> (unfold reopenRoot; simp only [heap_setObj_self])
    · exact h.pt
    · exact hp.rootName
  simp only [bind_run, obj_run, hj2, if_true, pure_run]

/-- The effect of going back to the section object `x`. -/
def reopenSec (x : Nat) (s : St) : St :=
  { (s.setObj x { s.heap x with sec := none }) with
    p := { s.p with paramMap := mungeParamMap (s.heap x).args, lastParent := ROOT, lastSec := x, defTvn := py!"@value" } }

/-- The effect of going back to a section. -/
def reopen (x : Nat) (s : St) : St := if x = s.root then reopenRoot s else reopenSec x s

theorem consume_reopen {F : Prop} {s : St} (hp : PInv F s) (h : RootOk s) {k : Str} {x : Nat} (hk : s.sections.get? k = some x)
    (hr : x ≠ s.root → k ≠ ROOT) : consume true x s = .ok () (reopen x s) := by
  unfold reopen
  split
  · next e => subst e; exact consume_root hp h
  · next e =>
    rw [consume_section (hp.secs k x hk (hr e)) (hp.wf.secsLt _ (Dict.mem_of_get? hk)).2.1 hp.std.syn hp.rootName e]
    have : s.sections.has k = true := by rw [Dict.has, hk]; rfl
    rw [if_pos this]; rfl

theorem reopen_heap {x : Nat} {s : St} (j : Nat) :
    (reopen x s).heap j = if j = x then { s.heap j with sec := none } else s.heap j := by
  unfold reopen
  split
  · next e => subst e; unfold reopenRoot; simp only [heap_setObj]; split
              · next e => rw [e]
              · rfl
  · unfold reopenSec; simp only [heap_setObj]; split
    · next e => rw [e]
    · rfl

theorem reopen_fields (x : Nat) (s : St) : (reopen x s).root = s.root ∧ (reopen x s).next = s.next ∧ (reopen x s).sections = s.sections ∧
    (reopen x s).terms = s.terms ∧ (reopen x s).classes = s.classes ∧ (reopen x s).superTerms = s.superTerms ∧
    (reopen x s).declSecs = s.declSecs ∧ (reopen x s).declTerms = s.declTerms ∧ (reopen x s).p.declTerms = s.p.declTerms ∧
    (reopen x s).p.lastMap = s.p.lastMap ∧ (reopen x s).p.lastSec = x := by
  unfold reopen
  split
  · next e => subst e; exact ⟨rfl, rfl, rfl, rfl, rfl, rfl, rfl, rfl, rfl, rfl, rfl⟩
  · exact ⟨rfl, rfl, rfl, rfl, rfl, rfl, rfl, rfl, rfl, rfl, rfl⟩

theorem rootOk_reopen {s : St} (h : RootOk s) (x : Nat) : RootOk (reopen x s) := by
  obtain ⟨e1, -, e3, -⟩ := reopen_fields x s
  refine h.congr e1 (by rw [e3]; exact h.key) ?_ ?_ ?_ ?_ ?_ <;> rw [reopen_heap] <;> split
  all_goals first | rfl | exact h.header

theorem wf_reopen {F : Prop} {s : St} (hp : PInv F s) (h : RootOk s) {k : Str} {x : Nat} (hk : s.sections.get? k = some x)
    (hr : x ≠ s.root → k ≠ ROOT) : WF F (reopen x s) := by
  have hs := hp.wf.secsLt _ (Dict.mem_of_get? hk)
  have := tri_consume (F := F) (U := True) (load := true) (s := s) (t := x) ⟨hs.1, .inl hs.2.1⟩ hp.wf
  exact Steps.wf (C := Cap.all F) (wp_ok this (consume_reopen hp h hk hr)).1 hp.wf

theorem pinv_reopen {F : Prop} {s : St} (hp : PInv F s) (h : RootOk s) {k : Str} {x : Nat} (hk : s.sections.get? k = some x)
    (hr : x ≠ s.root → k ≠ ROOT) : PInv F (reopen x s) := by
  have w := wf_reopen hp h hk hr
  obtain ⟨e1, e2, e3, e4, e5, e6, e7, e8, e9, e10, e11⟩ := reopen_fields x s
  have hcl : ∀ n, parserTermClass (reopen x s) n = parserTermClass s n := parserTermClass_congr e5 e6 e9
  have hsecs : ∀ k y, (reopen x s).sections.get? k = some y → k ≠ ROOT → OkSec k ((reopen x s).heap y) := by
    intro k y hy hk'
    rw [e3] at hy
    refine (hp.secs k y hy hk').congr ?_ ?_ ?_ ?_ ?_ ?_ ?_ <;> rw [reopen_heap] <;> split <;> rfl
  have hname : ((reopen x s).heap (reopen x s).root).rt = ROOT := by
    rw [e1, reopen_heap, ← hp.rootName]; split <;> rfl
  have hdef : ∀ j, ((reopen x s).heap j).defTvn = (s.heap j).defTvn := by intro j; rw [reopen_heap]; split <;> rfl
  by_cases hx : x = s.root
  · have hpp : (reopen x s).p = { s.p with lastSec := s.root } := by unfold reopen; rw [if_pos hx]; rfl
    refine ⟨w, hp.std.congr e5 e6 e9 e8 (by rw [hpp]) (fun j => ⟨j, hdef j⟩), by rw [e10, e1]; exact hp.rootKey, hname, ?_, ?_, ?_, by rw [hcl]; exact hp.secCls, hsecs, by rw [e7]; exact hp.declared⟩
    · unfold lastTerm; rw [hpp, e1]; exact hp.parent
    · rw [hpp]; exact hp.name
    · rw [hpp]; exact hp.cols
  · have hpp : (reopen x s).p = { s.p with paramMap := mungeParamMap (s.heap x).args, lastParent := ROOT, lastSec := x, defTvn := py!"@value" } := by
      unfold reopen; rw [if_neg hx]; rfl
    refine ⟨w, ⟨hp.std.tvn.change e9 (by rw [hpp]; show lower (py!"@value") ∉ _; decide) e8 (fun j => .inr ⟨j, hdef j⟩), ?_, by rw [e9]; exact hp.std.syn⟩, by rw [e10, e1]; exact hp.rootKey, hname, ?_, ?_, ?_, by rw [hcl]; exact hp.secCls, hsecs, by rw [e7]; exact hp.declared⟩
    · intro n hn; rw [hcl] at hn; exact hp.std.cls n hn
    · unfold lastTerm; rw [hpp, e1]; simp only [hp.rootKey, Option.getD_some]
    · rw [hpp]; show GoodName ROOT; exact ⟨by decide, by decide, by decide, by decide⟩
    · rw [hpp]; exact fun _ => munge_ok (hp.secs k x hk (hr hx)).args

theorem keep_reopen {F : Prop} {s : St} (hp : PInv F s) {k : Str} {x : Nat} (hk : s.sections.get? k = some x) : Keep s (reopen x s) := by
  obtain ⟨e1, e2, e3, e4, -⟩ := reopen_fields x s
  have hs := hp.wf.secsLt _ (Dict.mem_of_get? hk)
  refine { next := by rw [e2]; exact Nat.le_refl _, terms := by rw [e4]; exact List.prefix_refl _, root := e1, obj := ?_, sec := ?_, cls := ?_, children := ?_, secTerms := ?_, terms' := e4, children' := ?_, secTerms' := ?_ }
  · intro j _; rw [reopen_heap]; split <;> exact ⟨rfl, rfl, rfl, rfl, rfl, rfl, rfl⟩
  · intro j _ hc
    rw [reopen_heap, if_neg]
    rintro rfl; rw [hs.2.1] at hc; cases hc
  · intro j _; rw [reopen_heap]; split <;> rfl
  · intro j _; rw [reopen_heap]; split <;> exact List.prefix_refl _
  · intro j _; rw [reopen_heap]; split <;> exact List.prefix_refl _
  · intro j _; rw [reopen_heap]; split <;> rfl
  · intro j _; rw [reopen_heap]; split <;> rfl

theorem sim_reopen {F : Prop} {s : St} (hp : PInv F s) {a : Reader} {ids : List Nat} (hro : RootOk s) (h : Sim s a ids) {here : Str} {x : Nat}
    (hk : s.sections.get? here = some x) : Sim (reopen x s) (a.reopen here) ids ∧ (x ≠ s.root → here ≠ ROOT) := by
  have hr : x = s.root ↔ here = ROOT := by
    constructor
    · rintro rfl
      obtain ⟨n, v1, v2⟩ := h.names _ _ hk
      obtain ⟨n', w1, w2⟩ := h.names _ _ hro.key
      rw [v1] at w1; cases w1
      rw [← v2]; exact w2
    · rintro rfl
      rw [hro.key] at hk; cases hk; rfl
  refine ⟨?_, fun e1 e2 => e1 (hr.2 e2)⟩
  obtain ⟨e1, e2, e3, e4, e5, e6, e7, e8, e9, e10, e11⟩ := reopen_fields x s
  have k := keep_reopen hp hk
  have old : ∀ k x, s.sections.get? k = some x → x < s.next := fun k x hk => (hp.wf.secsLt _ (Dict.mem_of_get? hk)).1
  have hho : ∀ a' : Reader, a'.nodes = a.nodes → a'.secs = a.secs → Holds (reopen x s) a' ids := by
    intro a' h1 h2
    refine holds_keep k h.toHolds hp.wf.rootLt h1 (fun _ _ => by rw [e3]) (by rw [e3, h2]; exact h.sections) ?_ ?_
    · intro u y hxy
      rw [e3] at hxy
      obtain ⟨-, -, a3, -, a5, -, -⟩ := k.obj y (old u y hxy)
      rw [a3, a5, h2]; exact h.columns u y hxy
    · intro u y hxy
      rw [e3] at hxy
      rw [k.secTerms' y (old u y hxy), h1]; exact h.sectionTerms u y hxy
  have hnames : ∀ k y, (reopen x s).sections.get? k = some y → ∃ n, ((reopen x s).heap y).value = .str n ∧ lower n = k := by
    intro u y hxy
    rw [e3] at hxy
    obtain ⟨-, -, a3, -, a5, -, -⟩ := k.obj y (old u y hxy)
    rw [a3]; exact h.names u y hxy
  unfold Reader.reopen
  by_cases hx : here = py!"root"
  · have hxr : x = s.root := hr.2 hx
    have hpp : (reopen x s).p = { s.p with lastSec := s.root } := by unfold reopen; rw [if_pos hxr]; rfl
    rw [if_pos hx]
    refine sim_keep k h (hho _ rfl rfl) rfl rfl e10 e9 e8 e7 (fun _ _ => by rw [e3]) hnames ?_ ?_ ?_ h.vnameOk ?_ ?_ h.lastOk
    · rw [e3, e11, ← hx]; exact hk
    · rw [hpp]; exact h.cols
    · rw [hpp]; exact h.vname
    · rw [hpp]; exact h.lastName
    · rw [e10, k.ref]; exact h.lastRef
  · have hxr : x ≠ s.root := fun e => hx (hr.1 e)
    have hpp : (reopen x s).p = { s.p with paramMap := mungeParamMap (s.heap x).args, lastParent := ROOT, lastSec := x, defTvn := py!"@value" } := by
      unfold reopen; rw [if_neg hxr]; rfl
    rw [if_neg hx]
    obtain ⟨n, c1, c2⟩ := h.columns _ _ hk
    rw [c2]
    refine sim_keep k h (hho _ rfl rfl) rfl rfl e10 e9 e8 e7 (fun _ _ => by rw [e3]) hnames ?_ ?_ ?_ (show (py!"@value") ≠ [] by decide) ?_ ?_ trivial
    · rw [e3, e11]; exact hk
    · rw [hpp]
    · rw [hpp]
    · rw [hpp]; rfl
    · rw [e10]; show _ = some (ref (reopen x s) ids none)
      rw [k.ref]; exact hp.rootKey

/-- The first cell of an include row. -/
structure IncludeCell (c : Str) : Prop where
  noise : skipRow [c] = false
  split : splitTermLower c = .ok (ROOT, py!"include")

/-- The object made of an include row. -/
def includeObj (s : St) (rest : List Str) : Obj := rowObj (parserTermClass s (py!"root.include")) ROOT (py!"include") rest

theorem canAdd_include {F : Prop} {s : St} (h : PInv F s) (rest : List Str) :
    (parserTermClass s (py!"root.include")).isSection = false ∧ CanAdd s (includeObj s rest) ROOT (py!"include") s.root := by
  have hcls : (parserTermClass s (dotJoin ROOT (py!"include"))).isSection = false := h.std.notSection (by decide) (by decide) (by decide)
  have hrm : remapRecord s.p.paramMap (py!"include") = py!"include" := rfl
  exact ⟨hcls, canAdd_named h.wf h.std (newTerm_rowObj hcls _ _ _) rfl hrm (Nat.le_refl 1) (by decide) (by decide) h.rootKey
    ⟨by decide, by decide, by decide⟩ (by decide)⟩

/-- The effect of the include row on the state, before the file is read. -/
def includeEffect (rest : List Str) (s : St) : St := addTerm s (includeObj s rest) ROOT (py!"include") s.root

theorem includeEffect_p {rest : List Str} {s : St} : (includeEffect rest s).p =
    { s.p with lastParent := py!"include", lastMap := (s.p.lastMap.set ELIDED s.next).set (py!"include") s.next } := by
  unfold includeEffect addTerm nextP; dsimp only
  rw [if_pos (show Named ROOT (includeObj s rest).col from ⟨by decide, Nat.le_refl 1⟩)]

theorem includeEffect_inv {F : Prop} {s : St} (h : PInv F s) (rest : List Str) : PInv F (includeEffect rest s) := by
  obtain ⟨hcls, ha⟩ := canAdd_include h rest
  have w := wf_addTerm h.wf h.std.tvn ha (fun q' e => by cases e)
    ⟨(show lower ROOT = ROOT by decide), (show lower (py!"include") = py!"include" by decide)⟩
  have st := std_addTerm (q := s.root) (p := ROOT) (r := py!"include") (o := includeObj s rest) h.wf h.std rfl
  have hp := includeEffect_p (rest := rest) (s := s)
  refine ⟨w, st, ?_, ?_, ?_, ?_, ?_, ?_, sameSecs_addTerm.secs h, h.declared⟩
  · rw [hp]; simp only [Dict.get?_set, if_neg (show py!"include" ≠ ROOT by decide), if_neg (show ELIDED ≠ ROOT by decide)]; exact h.rootKey
  · show ((addTerm _ _ _ _ _).heap s.root).rt = _
    rw [addTerm_rt h.wf.rootLt]; exact h.rootName
  · unfold lastTerm; rw [hp]; simp [Dict.get?_set]
  · rw [hp]; show GoodName (py!"include"); exact ⟨by decide, by decide, by decide, by decide⟩
  · rw [hp]; exact h.cols
  · rw [← h.secCls]
    exact parserTermClass_congr rfl rfl (by rw [hp]) _

theorem sim_include {F : Prop} {s : St} (hp : PInv F s) {a : Reader} {ids : List Nat} (h : Sim s a ids) {rest : List Str}
    (hne : rest.headD [] ≠ []) : Sim (includeEffect rest s) (a.includeTerm (strip (rest.headD []))) (ids ++ [s.next]) := by
  have h1 := sim_named hp h (p := ROOT) (r := py!"include") (o := includeObj s rest) (par := none)
    (newTerm_rowObj (canAdd_include hp rest).1 _ _ _) trivial rfl
    (fun _ => by rw [show finalPt s.p ROOT = ROOT from if_neg (by decide)]; rfl) (by rw [show finalPt s.p ROOT = ROOT from if_neg (by decide)]; decide) ⟨by decide, Nat.le_refl 1⟩ (by decide) (by decide)
  have hv : (includeObj s rest).value = .str (strip (rest.headD [])) := by
    show (Val.str (rest.headD [])).mk = _
    rw [cellValue_mk]; unfold cellValue; rw [if_neg hne]
  rw [hv, show finalPt s.p ROOT = ROOT from if_neg (by decide)] at h1
  exact h1

theorem resolve_ok {dir v t : Str} (ht : includeTarget dir v = some t) : findIncludeDoc dir v = .ok t := by
  unfold includeTarget at ht
  unfold findIncludeDoc startsWith
  dsimp only at ht ⊢
  split at ht
  · next e => rw [if_pos e]; cases ht; rfl
  · next e =>
    rw [if_neg e]
    split at ht
    · cases ht
    · next e => rw [if_neg e]; cases ht; rfl

theorem resolve_none {dir v : Str} (ht : includeTarget dir v = none) : findIncludeDoc dir v = .error .includeError := by
  unfold includeTarget at ht
  unfold findIncludeDoc startsWith
  dsimp only at ht ⊢
  split at ht
  · cases ht
  · next e =>
    rw [if_neg e]
    split at ht
    · next e => rw [if_pos e]
    · cases ht

/-- Reading an include row, whatever becomes of it. -/
theorem genRows_resolved {F : Prop} {files : Files} {sub : Str → Bool → M Unit} {dir ref : Str} {ls : Nat} {c v : Str}
    {rest : List Str} {rows : List (List Str)} {s : St} (h : PInv F s) (hc : IncludeCell c) (hne : rest.headD [] ≠ [])
    (hv : v = strip (rest.headD [])) {x : Except Err Str} (hx : findIncludeDoc dir v = x) :
    genRows files sub true false dir ref ls ((c :: rest) :: rows) s =
      match (generalizing := false) x with
      | .error e => .err e ({ s with next := s.next + 1 }.setObj s.next (includeObj s rest))
      | .ok t => if t = ref then .err .includeError ({ s with next := s.next + 1 }.setObj s.next (includeObj s rest))
          else (sub t false >>= fun _ => consume true ls >>= fun _ => genRows files sub true false dir ref ls rows) (includeEffect rest s) := by
  obtain ⟨hcls, ha⟩ := canAdd_include h rest
  rw [genRows_cons, show skipRow (c :: rest) = false from hc.noise]
  simp only [Bool.false_eq_true, if_false]
  have hj : (includeObj s rest).joinLc = py!"root.include" := by
    show dotJoin (lower ROOT) (lower (py!"include")) = _; decide
  have hval : (includeObj s rest).value = .str v := by
    show (Val.str (rest.headD [])).mk = _
    rw [cellValue_mk, hv]; unfold cellValue; rw [if_neg hne]
  have hres : resolveTarget files dir (includeObj s rest) = x := by
    unfold resolveTarget
    rw [hval, hj]
    simp only [if_true]
    rw [hv, strip_strip, ← hv]
    exact hx
  have hrt := rowTerm_run (s := s) (rest := rest) hc.split hcls
  have hcons := consume_new (load := true) h.wf h.std.tvn ha
  have hrt' : rowTerm false (c :: rest) s = .ok s.next ({ s with next := s.next + 1 }.setObj s.next (includeObj s rest)) := hrt
  have hrd : lower ((includeEffect rest s).heap s.next).rt = py!"include" := by
    unfold includeEffect; rw [addTerm_heap_new, finalObj_rt]; decide
  have hcons' : consume true s.next ({ s with next := s.next + 1 }.setObj s.next (includeObj s rest)) = .ok () (includeEffect rest s) := hcons
  simp only [bind_run, hrt', obj_run, heap_setObj_self, hj, true_or, if_true, lift_run, hres]
  cases x with
  | error e => rfl
  | ok t =>
    dsimp only
    by_cases hr : t = ref
    · rw [if_pos hr, if_pos hr]; rfl
    · rw [if_neg hr, if_neg hr]
      simp only [bind_run, hcons', obj_run, hrd, show (py!"include" = py!"declare") = False from by decide, decide_false]

/-- Reading an include row. -/
theorem genRows_include {F : Prop} {files : Files} {sub : Str → Bool → M Unit} {dir ref : Str} {ls : Nat} {c v t : Str}
    {rest : List Str} {rows : List (List Str)} {s : St} (h : PInv F s) (hc : IncludeCell c) (hne : rest.headD [] ≠ [])
    (hv : v = strip (rest.headD [])) (ht : includeTarget dir v = some t) (hr : t ≠ ref) :
    genRows files sub true false dir ref ls ((c :: rest) :: rows) s =
      (sub t false >>= fun _ => consume true ls >>= fun _ => genRows files sub true false dir ref ls rows) (includeEffect rest s) := by
  rw [genRows_resolved h hc hne hv (resolve_ok ht)]
  exact if_neg hr

/-- A declare row whose document is not found. -/
theorem genRows_noDeclaration {F : Prop} {files : Files} {sub : Str → Bool → M Unit} {dir ref : Str} {ls : Nat} {c v : Str}
    {rest : List Str} {rows : List (List Str)} {s : St} (h : PInv F s) (hn : skipRow [c] = false) (hc : splitTermLower c = .ok (ROOT, py!"declare"))
    (hne : rest.headD [] ≠ []) (hv : v = strip (rest.headD [])) (hx : files.decl dir v = none) :
    ∃ s', genRows files sub true false dir ref ls ((c :: rest) :: rows) s = .err .includeError s' := by
  have hcls : (parserTermClass s (dotJoin ROOT (py!"declare"))).isSection = false := h.std.notSection (by decide) (by decide) (by decide)
  rw [genRows_cons, show skipRow (c :: rest) = false from hn]
  simp only [Bool.false_eq_true, if_false]
  obtain ⟨o, ho⟩ : ∃ o, o = rowObj (parserTermClass s (dotJoin ROOT (py!"declare"))) ROOT (py!"declare") rest := ⟨_, rfl⟩
  have hj : o.joinLc = py!"root.declare" := by
    rw [ho]; show dotJoin (lower ROOT) (lower (py!"declare")) = _; decide
  have hval : o.value = .str v := by
    rw [ho]; show (Val.str (rest.headD [])).mk = _
    rw [cellValue_mk, hv]; unfold cellValue; rw [if_neg hne]
  have hres : resolveTarget files dir o = .error .includeError := by
    unfold resolveTarget
    rw [hval, hj]
    simp only [show (py!"root.declare" = py!"root.include") = False from by decide, if_false]
    rw [hv, strip_strip, ← hv, hx]
  have hrt := rowTerm_run (s := s) (rest := rest) hc hcls
  rw [← ho] at hrt
  refine ⟨{ s with next := s.next + 1 }.setObj s.next o, ?_⟩
  simp only [bind_run, hrt, obj_run, heap_setObj_self, hj, or_true, if_true, lift_run, hres]

/-- What an include row does if the file cannot be followed. -/
theorem genRows_broken {F : Prop} {files : Files} {f : Nat} {dir ref : Str} {ls : Nat} {c v : Str}
    {rest : List Str} {rows : List (List Str)} {s : St} (h : PInv F s) (hc : IncludeCell c) (hne : rest.headD [] ≠ [])
    (hv : v = strip (rest.headD [])) (hb : brokenInclude files.rows dir ref v = true) :
    ∃ s', genRows files (included files true f) true false dir ref ls ((c :: rest) :: rows) s = .err .includeError s' := by
  unfold brokenInclude at hb
  cases ht : includeTarget dir v with
  | some t =>
    rw [ht] at hb
    by_cases hr : t = ref
    · refine ⟨{ s with next := s.next + 1 }.setObj s.next (includeObj s rest), ?_⟩
      rw [genRows_resolved h hc hne hv (resolve_ok ht)]
      exact if_pos hr
    · rw [genRows_include h hc hne hv ht hr]
      have hnone : files.rows t = none := by simpa [hr] using hb
      unfold included
      rw [hnone]
      exact ⟨_, rfl⟩
  | none =>
    refine ⟨{ s with next := s.next + 1 }.setObj s.next (includeObj s rest), ?_⟩
    rw [genRows_resolved h hc hne hv (resolve_none ht)]

theorem includeRow_cell {row : List Str} {v : Str} (h : includeRow row = some v) :
    ∃ c rest, row = c :: rest ∧ IncludeCell c ∧ rest.headD [] ≠ [] ∧ v = strip (rest.headD []) := by
  cases row with
  | nil => cases h
  | cons c rest =>
    rw [includeRow] at h
    split at h
    · cases h
    · next hn =>
      split at h
      · next hc =>
        cases h
        exact ⟨c, rest, rfl, ⟨skipRow_of hn, splitTermLower_of_names hc.1⟩, hc.2, rfl⟩
      · cases h

theorem declareRow_cell {row : List Str} {v : Str} (h : declareRow row = some v) :
    ∃ c rest, row = c :: rest ∧ skipRow [c] = false ∧ splitTermLower c = .ok (ROOT, py!"declare") ∧ rest.headD [] ≠ [] ∧ v = strip (rest.headD []) := by
  cases row with
  | nil => cases h
  | cons c rest =>
    rw [declareRow] at h
    split at h
    · cases h
    · next hn =>
      split at h
      · next hc =>
        cases h
        exact ⟨c, rest, rfl, skipRow_of hn, splitTermLower_of_names hc.1, hc.2, rfl⟩
      · cases h

/-- Sections stay registered. -/
def Grows (s s' : St) : Prop := ∀ k x, s.sections.get? k = some x → s'.sections.get? k = some x

theorem sections_argsEffect {t : Nat} : ∀ {vs : List Str} {k : Nat} {s : St}, (argsEffect t k vs s).sections = s.sections
  | [], _, _ => rfl
  | v :: vs, k, s => by
    rw [argsEffect, sections_argsEffect]
    unfold argEffect; split <;> rfl

theorem grows_row {s s' : St} {row : List Str} (hr : PlainRow s row s') : Grows s s' := by
  intro k x hk
  cases hr with
  | noise => exact hk
  | term => unfold termEffect; rw [sections_argsEffect]; exact hk
  | @«section» c rest hc =>
    show Dict.get? (if _ then _ else _) _ = _
    split
    · exact hk
    · next hn =>
      rw [Dict.get?_set, if_neg]
      · exact hk
      · rintro rfl; rw [Dict.has, hk] at hn; exact hn rfl
  | header => exact hk

/-- A row the reader takes is one the parser takes. -/
theorem plainRow_of {F : Prop} {s : St} (hp : PInv F s) {a : Reader} {ids : List Nat} (h : Sim s a ids) {row : List Str}
    (hk : kind row ≠ .special) (hpar : ∀ p r, kind row = .named p r → (Dict.get? a.known p).isSome) : ∃ s', PlainRow s row s' := by
  obtain ⟨known, hkn, hpl⟩ : ∃ known, Knows known s ∧ plainFrom known [row] = true := by
    cases hkd : kind row with
    | special => exact absurd hkd hk
    | named p r =>
      refine ⟨[p], ?_, by unfold plainFrom plainFrom; rw [hkd]; simp⟩
      intro k hm
      obtain rfl : k = p := by simpa using hm
      have he : k ≠ ELIDED := by
        rcases kind_cases row with ⟨h', _⟩ | ⟨c, rest, rfl, -, ⟨h', -⟩ | ⟨h', -⟩ | ⟨r, h', -⟩ | ⟨p, r, h', -, -, -, he⟩ | h'⟩
        all_goals rw [hkd] at h'; cases h'
        exact he
      rw [h.known k he]
      have := hpar k r hkd
      revert this; cases Dict.get? a.known k <;> simp
    | noise => exact ⟨[], fun _ hm => (List.not_mem_nil hm).elim, by unfold plainFrom plainFrom; rw [hkd]⟩
    | «section» => exact ⟨[], fun _ hm => (List.not_mem_nil hm).elim, by unfold plainFrom plainFrom; rw [hkd]⟩
    | header => exact ⟨[], fun _ hm => (List.not_mem_nil hm).elim, by unfold plainFrom plainFrom; rw [hkd]⟩
    | elided => exact ⟨[], fun _ hm => (List.not_mem_nil hm).elim, by unfold plainFrom plainFrom; rw [hkd]⟩
  obtain ⟨s', h'⟩ := plainRows_of hp hkn hpl
  cases h' with
  | cons hr _ => exact ⟨_, hr⟩

/-- What the loop does with a row, and where it is then. -/
theorem genRows_row {F : Prop} {files : Files} {sub : Str → Bool → M Unit} {dir ref here : Str} {ls : Nat} {row : List Str} {s s' : St}
    (hp : PInv F s) (hk : kind row ≠ .special) (hr : PlainRow s row s') (hls : s.sections.get? here = some ls) :
    ∃ ls', s'.sections.get? (sectionAfter here row) = some ls' ∧ ∀ rows, genRows files sub true false dir ref ls (row :: rows) s =
      genRows files sub true false dir ref ls' rows s' := by
  have hg := grows_row hr here ls hls
  rcases hr.by_kind with ⟨k, rfl⟩ | ⟨c, rest, rfl, hc, k, rfl⟩ | ⟨c, rest, rfl, hc, k, rfl⟩ | ⟨c, x, rest, rfl, hc, k, rfl⟩ |
    ⟨c, p, r, rest, rfl, hc, he, k, rfl⟩ | k
  · refine ⟨ls, by unfold sectionAfter; rw [k]; exact hg, fun rows => ?_⟩
    rw [genRows_cons, kind_noise k]; rfl
  · refine ⟨secOf s rest, ?_, fun rows => genRows_section hp hc⟩
    unfold sectionAfter; rw [k]
    show Dict.get? (if _ then _ else _) _ = _
    unfold secOf
    cases hq : s.sections.get? (lower (strip (rest.headD []))) with
    | some y => rw [if_pos (by rw [Dict.has, hq]; rfl), hq]; rfl
    | none => rw [if_neg (by rw [Dict.has, hq]; simp), Dict.get?_set, if_pos rfl]; rfl
  · exact ⟨ls, by unfold sectionAfter; rw [k]; exact hg, fun rows => genRows_header hp hc⟩
  · exact ⟨ls, by unfold sectionAfter; rw [k]; exact hg, fun rows => genRows_plain hp hc⟩
  · exact ⟨ls, by unfold sectionAfter; rw [k]; exact hg, fun rows => genRows_plain hp hc⟩
  · exact absurd k hk

/-- The tables of classes and declarations are the same. -/
structure SameDecls (s s' : St) : Prop where
  classes : s'.classes = s.classes
  sup : s'.superTerms = s.superTerms
  secs : s'.declSecs = s.declSecs
  pSecs : s'.p.declSecs = s.p.declSecs
  root : s'.root = s.root

theorem SameDecls.trans {a b c : St} (h : SameDecls a b) (k : SameDecls b c) : SameDecls a c :=
  ⟨k.classes.trans h.classes, k.sup.trans h.sup, k.secs.trans h.secs, k.pSecs.trans h.pSecs, k.root.trans h.root⟩

theorem sameDecls_addTerm {s : St} {o : Obj} {p r : Str} {q : Nat} : SameDecls s (addTerm s o p r q) := by
  refine ⟨rfl, rfl, rfl, ?_, rfl⟩
  show (nextP ..).declSecs = _
  unfold nextP
  split <;> rfl

theorem sameDecls_args {t : Nat} : ∀ {vs : List Str} {k : Nat} {s : St}, SameDecls s (argsEffect t k vs s)
  | [], _, _ => ⟨rfl, rfl, rfl, rfl, rfl⟩
  | v :: vs, k, s => by
    refine SameDecls.trans (b := argEffect t k v s) ?_ (sameDecls_args (vs := vs) (k := k + 1))
    unfold argEffect; split
    · exact ⟨rfl, rfl, rfl, rfl, rfl⟩
    · exact sameDecls_addTerm

theorem PlainRow.sameDecls {s s' : St} {row : List Str} (h : PlainRow s row s') : SameDecls s s' := by
  cases h with
  | noise => exact ⟨rfl, rfl, rfl, rfl, rfl⟩
  | term hc => exact sameDecls_addTerm.trans sameDecls_args
  | «section» hc => exact ⟨rfl, rfl, rfl, rfl, rfl⟩
  | header hc => exact ⟨rfl, rfl, rfl, rfl, rfl⟩

theorem sameDecls_reopen (x : Nat) (s : St) : SameDecls s (reopen x s) := by
  unfold reopen
  split
  · next e => subst e; exact ⟨rfl, rfl, rfl, rfl, rfl⟩
  · exact ⟨rfl, rfl, rfl, rfl, rfl⟩

theorem PlainRows.sameDecls {s s' : St} {rows : List (List Str)} (h : PlainRows s rows s') : SameDecls s s' := by
  induction h with
  | nil => exact ⟨rfl, rfl, rfl, rfl, rfl⟩
  | cons hr _ ih => exact hr.sameDecls.trans ih

/-- Files with includes are read as the reference reader says. -/
theorem reads_run {F : Prop} {files : Files} {n : Nat} {dir ref here : Str} {rows : List (List Str)} {a b : Reader}
    (h : Reads files.rows n dir ref here rows a b) : ∀ {f : Nat}, n ≤ f → ∀ {s : St} {ids : List Nat} {ls : Nat}, PInv F s → RootOk s → Sim s a ids →
    s.sections.get? here = some ls → ∃ s' ids' ls', genRows files (included files true f) true false dir ref ls rows s = .ok ls' s' ∧
      PInv F s' ∧ RootOk s' ∧ Sim s' b ids' ∧ Grows s s' ∧ SameDecls s s' := by
  induction h with
  | nil => intro f _ s ids ls hp hro hs _; exact ⟨s, ids, ls, rfl, hp, hro, hs, fun _ _ hk => hk, ⟨rfl, rfl, rfl, rfl, rfl⟩⟩
  | row hk hpar _ ih =>
    intro f hf s ids ls hp hro hs hls
    obtain ⟨s1, hr⟩ := plainRow_of hp hs hk hpar
    obtain ⟨ids1, hs1⟩ := sim_row hp hs hr hk
    obtain ⟨ls1, hls1, e⟩ := genRows_row (files := files) (sub := included files true f) (dir := _) (ref := _) hp hk hr hls
    obtain ⟨s', ids', ls', e', hp', hro', hs', hg, hd⟩ := ih hf (hr.inv hp) (rootOk_row hp hro hr) hs1 hls1
    exact ⟨s', ids', ls', by rw [e, e'], hp', hro', hs', fun k x hk => hg k x (grows_row hr k x hk), hr.sameDecls.trans hd⟩
  | @«include» n dir ref here v t a b c row rows inc hi ht hne hf _ _ ih1 ih2 =>
    intro f hfu s ids ls hp hro hs hls
    obtain ⟨cell, rest, rfl, hc, hval, rfl⟩ := includeRow_cell hi
    obtain ⟨f, rfl⟩ : ∃ f', f = f' + 1 := ⟨f - 1, by omega⟩
    have hp1 := includeEffect_inv hp rest
    have hro1 : RootOk (includeEffect rest s) := rootOk_addTerm hro hp.wf.rootLt
    have hs1 := sim_include hp hs hval
    obtain ⟨s2, ids2, ls2, e2, hp2, hro2, hs2, hg2, hd2⟩ := ih1 (f := f) (by omega) hp1 hro1 hs1 hro1.key
    have hls2 := hg2 here ls hls
    obtain ⟨hs3, hr3⟩ := sim_reopen hp2 hro2 hs2 hls2
    have hls3 : (reopen ls s2).sections.get? here = some ls := by rw [(reopen_fields ls s2).2.2.1]; exact hls2
    obtain ⟨s4, ids4, ls4, e4, hp4, hro4, hs4, hg4, hd4⟩ := ih2 hfu (pinv_reopen hp2 hro2 hls2 hr3) (rootOk_reopen hro2 ls) hs3 hls3
    refine ⟨s4, ids4, ls4, ?_, hp4, hro4, hs4, fun k x hk => hg4 k x ?_, ((sameDecls_addTerm.trans hd2).trans (sameDecls_reopen ls s2)).trans hd4⟩
    · rw [genRows_include hp hc hval rfl ht hne]
      have hinc : included files true (f + 1) t false (includeEffect rest s) = .ok () s2 := by
        unfold included; rw [hf]
        simp only [gen_succ, bind_run]
        rw [e2]; rfl
      simp only [bind_run, hinc, consume_reopen hp2 hro2 hls2 hr3]
      exact e4
    · rw [(reopen_fields ls s2).2.2.1]; exact hg2 k x hk

/-- The error a reader reports. -/
def stopErr : Stop → Err
  | .broken => .includeError
  | .tooDeep => .recursionError

theorem stops_run {F : Prop} {files : Files} {n : Nat} {dir ref here : Str} {rows : List (List Str)} {a : Reader} {w : Stop}
    (h : Stops files.rows files.decl n dir ref here rows a w) : ∀ {s : St} {ids : List Nat} {ls : Nat}, PInv F s → RootOk s → Sim s a ids →
    s.sections.get? here = some ls → ∃ s', genRows files (included files true n) true false dir ref ls rows s = .err (stopErr w) s' := by
  induction h with
  | broken hi hb =>
    intro s ids ls hp hro hs hls
    obtain ⟨cell, rest, rfl, hc, hval, rfl⟩ := includeRow_cell hi
    exact genRows_broken hp hc hval rfl hb
  | noDeclaration hi hb =>
    intro s ids ls hp hro hs hls
    obtain ⟨cell, rest, rfl, hn, hc, hval, rfl⟩ := declareRow_cell hi
    exact genRows_noDeclaration hp hn hc hval rfl hb
  | tooDeep hi ht hne hf =>
    intro s ids ls hp hro hs hls
    obtain ⟨cell, rest, rfl, hc, hval, rfl⟩ := includeRow_cell hi
    rw [genRows_include hp hc hval rfl ht hne]
    unfold included
    rw [hf]
    exact ⟨_, rfl⟩
  | @inside n dir ref here v t a row rows inc w hi ht hne hf _ ih =>
    intro s ids ls hp hro hs hls
    obtain ⟨cell, rest, rfl, hc, hval, rfl⟩ := includeRow_cell hi
    rw [genRows_include hp hc hval rfl ht hne]
    have hro1 : RootOk (includeEffect rest s) := rootOk_addTerm hro hp.wf.rootLt
    obtain ⟨s', e⟩ := ih (includeEffect_inv hp rest) hro1 (sim_include hp hs hval) hro1.key
    refine ⟨s', ?_⟩
    have hinc : included files true (n + 1) t false (includeEffect rest s) = .err (stopErr w) s' := by
      unfold included; rw [hf]
      simp only [gen_succ, bind_run]
      rw [e]
    simp only [bind_run, hinc]
  | row hk hpar _ ih =>
    intro s ids ls hp hro hs hls
    obtain ⟨s1, hr⟩ := plainRow_of hp hs hk hpar
    obtain ⟨ids1, hs1⟩ := sim_row hp hs hr hk
    obtain ⟨ls1, hls1, e⟩ := genRows_row (files := files) (sub := included files true _) (dir := _) (ref := _) hp hk hr hls
    obtain ⟨s', e'⟩ := ih (hr.inv hp) (rootOk_row hp hro hr) hs1 hls1
    exact ⟨s', by rw [e, e']⟩
  | @«include» n dir ref here v t a b row rows inc w hi ht hne hf hsub _ ih =>
    intro s ids ls hp hro hs hls
    obtain ⟨cell, rest, rfl, hc, hval, rfl⟩ := includeRow_cell hi
    have hro1 : RootOk (includeEffect rest s) := rootOk_addTerm hro hp.wf.rootLt
    obtain ⟨s2, ids2, ls2, e2, hp2, hro2, hs2, hg2, hd2⟩ := reads_run hsub (Nat.le_refl n) (includeEffect_inv hp rest) hro1 (sim_include hp hs hval) hro1.key
    have hls2 := hg2 here ls hls
    obtain ⟨hs3, hr3⟩ := sim_reopen hp2 hro2 hs2 hls2
    have hls3 : (reopen ls s2).sections.get? here = some ls := by rw [(reopen_fields ls s2).2.2.1]; exact hls2
    obtain ⟨s4, e4⟩ := ih (pinv_reopen hp2 hro2 hls2 hr3) (rootOk_reopen hro2 ls) hs3 hls3
    refine ⟨s4, ?_⟩
    rw [genRows_include hp hc hval rfl ht hne]
    have hinc : included files true (n + 1) t false (includeEffect rest s) = .ok () s2 := by
      unfold included; rw [hf]
      simp only [gen_succ, bind_run]
      rw [e2]; rfl
    simp only [bind_run, hinc, consume_reopen hp2 hro2 hls2 hr3]
    exact e4

theorem rootOk_new (env : Env) (classes : Dict Cls) : RootOk (newDoc env classes) :=
  ⟨rfl, rfl, rfl, rfl, by simp [PlainCols, newDoc, rootObj, Obj.blank], by simp [PlainCols, newDoc, rootObj, Obj.blank]⟩

theorem stops_parse {env : Env} {classes : Dict Cls} (hcl : PlainClasses classes) {files : Files} {fuel : Nat} {path : Str}
    {rows : List (List Str)} {w : Stop} (h : Stops files.rows files.decl fuel (dirname path) path (py!"root") rows Reader.start w) :
    ∃ s, parseRows files (fuel + 1) path rows (newDoc env classes) = .err (stopErr w) s := by
  obtain ⟨s', e⟩ := stops_run (F := True) h (pinv_new (env := env) hcl) (rootOk_new env classes) (sim_start env classes) (rootOk_new env classes).key
  refine ⟨s', ?_⟩
  unfold parseRows
  have e0 : ({ newDoc env classes with p := initP (newDoc env classes).root } : St) = newDoc env classes := rfl
  simp only [bind_run, modify_run, e0, gen_succ]
  rw [e]

/-- Loading a file with includes into a new document. -/
theorem reads_holds {env : Env} {classes : Dict Cls} (hcl : PlainClasses classes) {files : Files} {n : Nat} {path : Str}
    {rows : List (List Str)} {b : Reader} (h : Reads files.rows n (dirname path) path (py!"root") rows Reader.start b) {fuel : Nat} (hf : n ≤ fuel) :
    ∃ s ids, parseRows files (fuel + 1) path rows (newDoc env classes) = .ok () s ∧ Holds s b ids ∧
      (s.heap s.root).cls.isSection = true ∧ (∀ n ∈ b.nodes, RefOk ids.length n.parent) ∧ ∀ n ∈ b.nodes, (s.sections.get? n.sec).isSome := by
  obtain ⟨s', ids, ls', e, hp, -, hs, -⟩ := reads_run (F := True) h hf (pinv_new (env := env) hcl) (rootOk_new env classes)
    (sim_start env classes) (rootOk_new env classes).key
  refine ⟨after finishLoad s', ids, ?_, holds_finish hs.toHolds, hp.wf.rootSec, hs.nodesOk, hs.secKnown⟩
  unfold parseRows
  have e0 : ({ newDoc env classes with p := initP (newDoc env classes).root } : St) = newDoc env classes := rfl
  simp only [bind_run, modify_run, e0, gen_succ]
  rw [e]; rfl

end Metatab
