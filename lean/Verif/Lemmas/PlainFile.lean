import Verif.Lemmas.PlainRows
/-! Files made of plain rows: every row is one explicit update of the state.

Plain rows are term rows, elided rows, `Section` rows and `Header` rows, with names that mean nothing special to the parser. -/
namespace Metatab
open Py

theorem dotJoin_left {p r a b : Str} (hp : '.' ∉ p) (ha : '.' ∉ a) (h : dotJoin p r = dotJoin a b) : p = a ∧ r = b := by
  unfold dotJoin at h
  induction p generalizing a with
  | nil =>
    cases a with
    | nil => simpa using h
    | cons x a => simp at h; exact absurd (by rw [← h.1]; exact List.mem_cons_self) ha
  | cons y p ih =>
    cases a with
    | nil => simp at h; exact absurd (by rw [h.1]; exact List.mem_cons_self) hp
    | cons x a =>
      simp only [List.cons_append, List.cons.injEq] at h
      obtain ⟨e1, e2⟩ := ih (fun h => hp (List.mem_cons_of_mem _ h)) (fun h => ha (List.mem_cons_of_mem _ h)) h.2
      exact ⟨by rw [h.1, e1], e2⟩

theorem dotJoin_ne {p r a b : Str} (hp : '.' ∉ p) (ha : '.' ∉ a) (h : r ≠ b) : dotJoin p r ≠ dotJoin a b :=
  fun e => h (dotJoin_left hp ha e).2

/-- Record names with a meaning of their own. -/
def specialNames : List Str := [py!"section", py!"root", py!"header", py!"include", py!"declare", ELIDED]

/-- A record name that means nothing special to the parser and is not a number. -/
structure PlainName (r : Str) : Prop extends GoodName r where
  plain : r ∉ specialNames
  nonum : pyInt r = none

theorem dotJoin_special {p r b : Str} (hp : '.' ∉ p) (hr : r ∉ specialNames) {a : Str} (ha : '.' ∉ a)
    (hb : b ∈ specialNames) : dotJoin p r ≠ dotJoin a b := dotJoin_ne hp ha fun e => hr (e ▸ hb)

theorem valueName_of {p r : Str} (hp : '.' ∉ p) (lp : lower p = p) (lr : lower r = r) (hr : r ∉ specialNames) : ValueName p r := by
  unfold ValueName
  rw [lp, lr]
  refine ⟨?_, ?_, ?_⟩
  · exact dotJoin_special (a := py!"root") (b := py!"header") hp hr (by decide) (by decide)
  · exact dotJoin_special (a := py!"root") (b := py!"section") hp hr (by decide) (by decide)
  · exact dotJoin_special (a := py!"root") (b := py!"root") hp hr (by decide) (by decide)

theorem final_of {p r : Str} (hp : '.' ∉ p) (lp : lower p = p) (lr : lower r = r) (hr : r ∉ specialNames) :
    dotJoin (lower p) (lower r) ≠ py!"datafile.section" ∧ dotJoin (lower p) (lower r) ≠ py!"root.root" ∧
      dotJoin (lower p) (lower r) ≠ py!"root.section" := by
  rw [lp, lr]
  refine ⟨?_, ?_, ?_⟩
  · exact dotJoin_special (a := py!"datafile") (b := py!"section") hp hr (by decide) (by decide)
  · exact dotJoin_special (a := py!"root") (b := py!"root") hp hr (by decide) (by decide)
  · exact dotJoin_special (a := py!"root") (b := py!"section") hp hr (by decide) (by decide)

/-- The term elided rows and argument cells go to. -/
def lastTerm (s : St) : Nat := (s.p.lastMap.get? s.p.lastParent).getD s.root

/-- A list of columns, none of which is called `Section`. -/
def PlainCols (args : List Str) : Prop := py!"section" ∉ args.map lower

/-- An ordinary section registered under the lower-case name `k`. -/
structure OkSec (k : Str) (o : Obj) : Prop where
  pt : o.pt = ROOT
  rt : o.rt = py!"section"
  tvn : o.tvn = py!"@value"
  doc : o.isDecl = false
  args : PlainCols o.args
  header : PlainCols o.headerArgs
  value : ∃ n, o.value = .str n ∧ lower n = k

/-- The parser is in a regular state. The names of the columns are regular if `G` holds. -/
structure PInvG (G F : Prop) (s : St) : Prop where
  wf : WF F s
  std : Std s
  rootKey : s.p.lastMap.get? ROOT = some s.root
  rootName : (s.heap s.root).rt = ROOT
  parent : s.p.lastMap.get? s.p.lastParent = some (lastTerm s)
  name : GoodName s.p.lastParent
  cols : G → ∀ m ∈ s.p.paramMap, lower m = m ∧ m ≠ py!"section"
  secCls : parserTermClass s (py!"root.section") = .section
  secs : ∀ k x, s.sections.get? k = some x → k ≠ ROOT → OkSec k (s.heap x)
  declared : ∀ k d, s.declSecs.get? k = some d → PlainCols (d.args.map strip)

/-- The parser is in a regular state. -/
abbrev PInv (F : Prop) (s : St) : Prop := PInvG True F s

theorem PInvG.full {G F : Prop} {s : St} (h : PInvG G F s) (hg : G) : PInv F s :=
  ⟨h.wf, h.std, h.rootKey, h.rootName, h.parent, h.name, fun _ => h.cols hg, h.secCls, h.secs, h.declared⟩

/-- The object made of an argument cell. -/
def argCell (s : St) (t k : Nat) (v : Str) : Obj :=
  argObj (parserTermClass s (dotJoin (s.heap t).rt (natStr k))) (s.heap t).rt k v t

/-- The effect of one argument cell of term `t`. -/
def argEffect (t k : Nat) (v : Str) (s : St) : St :=
  if strip v = [] then s
  else addTerm s (argCell s t k v) (s.heap t).rt (remapRecord s.p.paramMap (natStr k)) (lastTerm s)

/-- The effect of the argument cells of term `t`. -/
def argsEffect (t : Nat) : Nat → List Str → St → St
  | _, [], s => s
  | k, v :: vs, s => argsEffect t (k + 1) vs (argEffect t k v s)

/-- The term a row named `p.…` goes below. -/
def parentOf (s : St) (p : Str) : Nat :=
  if p = ELIDED then lastTerm s else (s.p.lastMap.get? p).getD s.root

/-- The effect of a term row. -/
def termEffect (p r : Str) (rest : List Str) (s : St) : St :=
  argsEffect s.next 0 ((rest.drop 1).map strip) (addTerm s (rowObj (parserTermClass s (dotJoin p r)) p r rest) p r (parentOf s p))

theorem addTerm_heap_old {s : St} {o : Obj} {p r : Str} {q j : Nat} (hj : j < s.next) :
    (addTerm s o p r q).heap j = { s.heap j with
      children := if j = q then (s.heap j).children ++ [s.next] else (s.heap j).children
      terms := if lower (finalPt s.p p) = ROOT ∧ j = s.p.lastSec then (s.heap j).terms ++ [s.next] else (s.heap j).terms } := by
  unfold addTerm; simp only [if_neg (Nat.ne_of_lt hj)]

theorem addTerm_heap_new {s : St} {o : Obj} {p r : Str} {q : Nat} : (addTerm s o p r q).heap s.next = finalObj s o p r q := by
  unfold addTerm; simp

theorem addTerm_p_arg {s : St} {o : Obj} {p r : Str} {q : Nat} (h : ¬ Named p o.col) : (addTerm s o p r q).p = s.p := by
  unfold addTerm nextP; simp only [if_neg h]

theorem not_special_natStr (k : Nat) : natStr k ∉ specialNames := by
  intro h
  have hd := natStr_digits k
  unfold specialNames at h
  rcases List.mem_cons.1 h with e | h
  · rw [e] at hd; exact absurd (hd 's' (by decide)) (by decide)
  rcases List.mem_cons.1 h with e | h
  · rw [e] at hd; exact absurd (hd 'r' (by decide)) (by decide)
  rcases List.mem_cons.1 h with e | h
  · rw [e] at hd; exact absurd (hd 'h' (by decide)) (by decide)
  rcases List.mem_cons.1 h with e | h
  · rw [e] at hd; exact absurd (hd 'i' (by decide)) (by decide)
  rcases List.mem_cons.1 h with e | h
  · rw [e] at hd; exact absurd (hd 'd' (by decide)) (by decide)
  rw [List.mem_singleton] at h
  rw [h] at hd; exact absurd (hd '<' (by decide)) (by decide)

theorem pyIndex_mem {l : List Str} {i : Int} {m : Str} (h : pyIndex l i = some m) : m ∈ l := by
  unfold pyIndex at h
  split at h
  · exact List.mem_of_getElem? h
  · split at h
    · exact List.mem_of_getElem? h
    · cases h

theorem remap_cols {pm : List Str} (h : ∀ m ∈ pm, lower m = m ∧ m ≠ py!"section") {k : Nat} :
    lower (remapRecord pm (natStr k)) = remapRecord pm (natStr k) ∧ remapRecord pm (natStr k) ≠ py!"section" := by
  unfold remapRecord
  rw [pyInt_natStr]
  simp only
  cases hi : pyIndex pm k with
  | none =>
    refine ⟨lower_natStr k, fun e => not_special_natStr k ?_⟩
    simp only [Option.getD_none] at e
    rw [e]; decide
  | some m => exact h m (pyIndex_mem hi)

theorem canAdd_arg {F : Prop} {s : St} (h : PInv F s) {t k : Nat} {v R : Str} (hR : (s.heap t).rt = R) (hg : PlainName R) :
    (parserTermClass s (dotJoin R (natStr k))).isSection = false ∧
    CanAdd s (argCell s t k v) R (remapRecord s.p.paramMap (natStr k)) (lastTerm s) := by
  have hjoin : ∀ {x : Str}, dotJoin R x ≠ py!"root.section" ∧ dotJoin R x ≠ py!"root.root" ∧ dotJoin R x ≠ py!"root.header" := by
    intro x
    have hne : R ≠ py!"root" := fun e => hg.plain (by rw [e]; decide)
    refine ⟨?_, ?_, ?_⟩
    · exact fun e => hne (dotJoin_left (a := py!"root") (b := py!"section") hg.nodot (by decide) e).1
    · exact fun e => hne (dotJoin_left (a := py!"root") (b := py!"root") hg.nodot (by decide) e).1
    · exact fun e => hne (dotJoin_left (a := py!"root") (b := py!"header") hg.nodot (by decide) e).1
  have hcls : (parserTermClass s (dotJoin R (natStr k))).isSection = false := by
    refine h.std.notSection ?_ hjoin.1 hjoin.2.1
    rw [show lower (dotJoin R (natStr k)) = dotJoin (lower R) (lower (natStr k)) by simp [dotJoin]; rfl, hg.low, lower_natStr]
  obtain ⟨l1, l2⟩ := remap_cols (h.cols trivial) (k := k)
  refine ⟨hcls, canAdd_child h.wf h.std ?_ ?_ ?_ ?_ h.parent ?_ ?_⟩
  · unfold argCell; rw [hR]; exact newTerm_argObj hcls _ _ _ _
  · unfold argCell; rw [hR]; rfl
  · rfl
  · intro hn; have := hn.2; simp [argCell, argObj] at this
  · unfold ValueName; rw [hg.low, l1]; exact ⟨hjoin.2.2, hjoin.1, hjoin.2.1⟩
  · have hfp : finalPt s.p R = R := if_neg fun e => hg.plain (by rw [e]; decide)
    rw [hfp, hg.low, l1]
    refine ⟨?_, hjoin.2.1, hjoin.1⟩
    exact fun e => l2 (dotJoin_left (a := py!"datafile") (b := py!"section") hg.nodot (by decide) e).2

theorem argEffect_p (t k : Nat) (v : Str) (s : St) : (argEffect t k v s).p = s.p := by
  unfold argEffect; split
  · rfl
  · exact addTerm_p_arg fun hn => by have := hn.2; simp [argCell, argObj] at this

theorem OkSec.congr {k : Str} {o o' : Obj} (h : OkSec k o) (h1 : o'.pt = o.pt) (h2 : o'.rt = o.rt) (h3 : o'.tvn = o.tvn)
    (h4 : o'.isDecl = o.isDecl) (h5 : o'.args = o.args) (h6 : o'.headerArgs = o.headerArgs) (h7 : o'.value = o.value) : OkSec k o' :=
  ⟨h1 ▸ h.pt, h2 ▸ h.rt, h3 ▸ h.tvn, h4 ▸ h.doc, h5 ▸ h.args, h6 ▸ h.header, h7 ▸ h.value⟩

/-- The tables of sections, classes and declarations are the same. -/
structure SameSecs (s s' : St) : Prop where
  classes : s'.classes = s.classes
  superTerms : s'.superTerms = s.superTerms
  sections : s'.sections = s.sections
  declSecs : s'.declSecs = s.declSecs
  ok : ∀ k x, x < s.next → OkSec k (s.heap x) → OkSec k (s'.heap x)

theorem SameSecs.cls {s s' : St} (e : SameSecs s s') (hp : s'.p = s.p) (n : Str) : parserTermClass s' n = parserTermClass s n :=
  parserTermClass_congr e.classes e.superTerms (by rw [hp]) n

theorem SameSecs.secs {G F : Prop} {s s' : St} (e : SameSecs s s') (h : PInvG G F s) :
    ∀ k x, s'.sections.get? k = some x → k ≠ ROOT → OkSec k (s'.heap x) := by
  intro k x hx hk
  rw [e.sections] at hx
  exact e.ok k x (h.wf.secsLt _ (Dict.mem_of_get? hx)).1 (h.secs k x hx hk)

theorem sameSecs_addTerm {s : St} {o : Obj} {p r : Str} {q : Nat} : SameSecs s (addTerm s o p r q) :=
  ⟨rfl, rfl, rfl, rfl, fun k x hx h => by rw [addTerm_heap_old hx]; exact h.congr rfl rfl rfl rfl rfl rfl rfl⟩

theorem pinv_of {G F : Prop} {s s' : St} (h : PInvG G F s) (w : WF F s') (st : Std s') (hp : s'.p = s.p) (hr : s'.root = s.root)
    (hrt : (s'.heap s.root).rt = (s.heap s.root).rt) (e : SameSecs s s') : PInvG G F s' := by
  have hl : lastTerm s' = lastTerm s := by unfold lastTerm; rw [hp, hr]
  exact ⟨w, st, by rw [hp, hr]; exact h.rootKey, by rw [hr, hrt]; exact h.rootName, by rw [hp, hl]; exact h.parent,
    by rw [hp]; exact h.name, by rw [hp]; exact h.cols, by rw [e.cls hp]; exact h.secCls, e.secs h, by rw [e.declSecs]; exact h.declared⟩

theorem addTerm_rt {s : St} {o : Obj} {p r : Str} {q j : Nat} (hj : j < s.next) : ((addTerm s o p r q).heap j).rt = (s.heap j).rt := by
  rw [addTerm_heap_old hj]

theorem argEffect_inv {F : Prop} {s : St} (h : PInv F s) {t k : Nat} {v : Str} (ht : t < s.next) (hg : PlainName (s.heap t).rt) :
    PInv F (argEffect t k v s) ∧ t < (argEffect t k v s).next ∧ ((argEffect t k v s).heap t).rt = (s.heap t).rt := by
  unfold argEffect
  split
  · exact ⟨h, ht, rfl⟩
  · obtain ⟨hc, ha⟩ := canAdd_arg h (t := t) (k := k) (v := v) rfl hg
    refine ⟨pinv_of h (wf_addTerm h.wf h.std.tvn ha ?_ ⟨(h.wf.low t).2, lower_natStr k⟩) (std_addTerm h.wf h.std ?_) (addTerm_p_arg ?_) rfl (addTerm_rt h.wf.rootLt) sameSecs_addTerm, ?_,
      addTerm_rt ht⟩
    · intro q' e; simp only [argCell, argObj, Option.some.injEq] at e; omega
    · rfl
    · intro hn; have := hn.2; simp [argCell, argObj] at this
    · exact Nat.lt_succ_of_lt ht

theorem argLoop_run {F : Prop} {load : Bool} {t : Nat} : ∀ {vs : List Str} {k : Nat} {s : St}, PInv F s → t < s.next →
    PlainName (s.heap t).rt → argLoop load false t k vs s = .ok () (argsEffect t k vs s)
  | [], _, _, _, _, _ => rfl
  | v :: vs, k, s, h, ht, hg => by
    obtain ⟨i1, i2, i3⟩ := argEffect_inv (k := k) (v := v) h ht hg
    rw [argsEffect, ← argLoop_run (load := load) i1 i2 (by rw [i3]; exact hg)]
    by_cases hv : strip v = []
    · rw [argLoop_skip hv, argEffect, if_pos hv]
    · obtain ⟨hc, ha⟩ := canAdd_arg h (t := t) (k := k) (v := v) rfl hg
      rw [argLoop_cons h.wf h.std.tvn rfl hg.toGoodName hc hv ha, argEffect, if_neg hv]; rfl

theorem argsEffect_inv {F : Prop} {t : Nat} : ∀ {vs : List Str} {k : Nat} {s : St}, PInv F s → t < s.next →
    PlainName (s.heap t).rt → PInv F (argsEffect t k vs s)
  | [], _, _, h, _, _ => h
  | v :: vs, k, s, h, ht, hg => by
    obtain ⟨i1, i2, i3⟩ := argEffect_inv (k := k) (v := v) h ht hg
    exact argsEffect_inv (k := k + 1) (vs := vs) i1 i2 (by rw [i3]; exact hg)

theorem argsEffect_p {t : Nat} : ∀ {vs : List Str} {k : Nat} {s : St}, (argsEffect t k vs s).p = s.p
  | [], _, _ => rfl
  | v :: vs, k, s => by rw [argsEffect, argsEffect_p, argEffect_p]

/-- The first cell of a plain term row, with the names it stands for. -/
structure PlainCell (s : St) (c p r : Str) : Prop where
  noise : skipRow [c] = false
  split : splitTermLower c = .ok (p, r)
  name : PlainName r
  differ : p ≠ r
  known : p = ELIDED ∨ (s.p.lastMap.get? p).isSome

/-- A plain term row can be read. -/
theorem canAdd_row {G F : Prop} {s : St} (h : PInvG G F s) {c p r : Str} (hc : PlainCell s c p r) (rest : List Str) :
    (parserTermClass s (dotJoin p r)).isSection = false ∧
    CanAdd s (rowObj (parserTermClass s (dotJoin p r)) p r rest) p r (parentOf s p) := by
  obtain ⟨h0, h1, h2, h3, h4, h5, h6⟩ := splitTermLower_cases hc.split
  have hr := hc.name.plain
  have hcls : (parserTermClass s (dotJoin p r)).isSection = false := by
    refine h.std.notSection ?_ ?_ ?_
    · rw [show lower (dotJoin p r) = dotJoin (lower p) (lower r) by simp [dotJoin]; rfl, h5, h6]
    · exact dotJoin_special (a := py!"root") (b := py!"section") h3 hr (by decide) (by decide)
    · exact dotJoin_special (a := py!"root") (b := py!"root") h3 hr (by decide) (by decide)
  have hrm : remapRecord s.p.paramMap r = r := by unfold remapRecord; rw [hc.name.nonum]
  refine ⟨hcls, ?_⟩
  by_cases he : p = ELIDED
  · have hpo : parentOf s p = lastTerm s := if_pos he
    rw [hpo]
    refine canAdd_child h.wf h.std (newTerm_rowObj hcls _ _ _) rfl hrm (fun hn => hn.1 he) h.parent (valueName_of h3 h5 h6 hr) ?_
    rw [show finalPt s.p p = s.p.lastParent from if_pos he]
    exact final_of h.name.nodot h.name.low h6 hr
  · obtain ⟨q, hq⟩ : ∃ q, s.p.lastMap.get? p = some q := by
      rcases hc.known with e | e
      · exact absurd e he
      · exact Option.isSome_iff_exists.1 e
    have hpo : parentOf s p = q := by unfold parentOf; rw [if_neg he, hq]; rfl
    rw [hpo]
    exact canAdd_named h.wf h.std (newTerm_rowObj hcls _ _ _) rfl hrm (Nat.le_refl 1) he hc.differ hq (valueName_of h3 h5 h6 hr)
      (final_of h3 h5 h6 hr).1

theorem addTerm_row_inv {G F : Prop} {s : St} (h : PInvG G F s) {c p r : Str} (hc : PlainCell s c p r) (rest : List Str) :
    PInvG G F (addTerm s (rowObj (parserTermClass s (dotJoin p r)) p r rest) p r (parentOf s p)) := by
  obtain ⟨hcls, ha⟩ := canAdd_row h hc rest
  have w := wf_addTerm h.wf h.std.tvn ha (fun q' e => by cases e) (splitTermLower_low hc.split)
  have st := std_addTerm (q := parentOf s p) (p := p) (r := r) (o := rowObj (parserTermClass s (dotJoin p r)) p r rest) h.wf h.std rfl
  by_cases he : p = ELIDED
  · exact pinv_of h w st (addTerm_p_arg fun hn => hn.1 he) rfl (addTerm_rt h.wf.rootLt) sameSecs_addTerm
  · have hp : (addTerm s (rowObj (parserTermClass s (dotJoin p r)) p r rest) p r (parentOf s p)).p =
      { s.p with lastParent := r, lastMap := (s.p.lastMap.set ELIDED s.next).set r s.next } := by
      show nextP .. = _
      unfold nextP; rw [if_pos ⟨he, Nat.le_refl 1⟩]
    have hroot : r ≠ ROOT := fun e => hc.name.plain (by rw [e]; decide)
    refine ⟨w, st, ?_, ?_, ?_, ?_, ?_, ?_, sameSecs_addTerm.secs h, h.declared⟩
    · rw [hp]; simp only [Dict.get?_set, if_neg hroot, if_neg (show ELIDED ≠ ROOT by decide)]; exact h.rootKey
    · show ((addTerm _ _ _ _ _).heap s.root).rt = _
      rw [addTerm_rt h.wf.rootLt]; exact h.rootName
    · unfold lastTerm; rw [hp]; simp [Dict.get?_set]
    · rw [hp]; exact hc.name.toGoodName
    · rw [hp]; exact h.cols
    · rw [← h.secCls]
      refine parserTermClass_congr (s := s) (s' := addTerm s (rowObj (parserTermClass s (dotJoin p r)) p r rest) p r (parentOf s p)) rfl rfl ?_ _
      rw [hp]

theorem parent_lt {G F : Prop} {s : St} (h : PInvG G F s) (p : Str) : parentOf s p < s.next := by
  unfold parentOf
  split
  · exact h.wf.pMap _ (Dict.mem_of_get? h.parent)
  · cases hq : s.p.lastMap.get? p with
    | none => exact h.wf.rootLt
    | some q => exact h.wf.pMap _ (Dict.mem_of_get? hq)

theorem termEffect_inv {F : Prop} {s : St} (h : PInv F s) {c p r : Str} (hc : PlainCell s c p r) (rest : List Str) :
    PInv F (termEffect p r rest s) := by
  have h1 := addTerm_row_inv h hc rest
  exact argsEffect_inv h1 (Nat.lt_succ_self _) (by rw [addTerm_heap_new, finalObj_rt]; exact hc.name)

theorem argsEffect_blank {t : Nat} : ∀ {vs : List Str} {k : Nat} {s : St}, (∀ v ∈ vs, strip v = []) → argsEffect t k vs s = s
  | [], _, _, _ => rfl
  | v :: vs, k, s, h => by
    rw [argsEffect, argEffect, if_pos (h v List.mem_cons_self)]
    exact argsEffect_blank fun w hw => h w (List.mem_cons_of_mem _ hw)

theorem blank_strip {vs : List Str} (h : ∀ v ∈ vs, strip v = []) : ∀ v ∈ vs.map strip, strip v = [] := by
  intro v hv
  obtain ⟨w, hw, rfl⟩ := List.mem_map.1 hv
  rw [h w hw]; rfl

/-- Reading a plain term row. -/
theorem genRows_plainG {G F : Prop} {files : Files} {sub : Str → Bool → M Unit} {load : Bool} {dir ref : Str} {ls : Nat} {c : Str}
    {rest : List Str} {rows : List (List Str)} {s : St} {p r : Str} (h : PInvG G F s) (hg : G ∨ ∀ v ∈ rest.drop 1, strip v = [])
    (hc : PlainCell s c p r) :
    genRows files sub load false dir ref ls ((c :: rest) :: rows) s =
      genRows files sub load false dir ref ls rows (termEffect p r rest s) := by
  obtain ⟨hcls, ha⟩ := canAdd_row h hc rest
  obtain ⟨h0, h1, h2, h3, h4, h5, h6⟩ := splitTermLower_cases hc.split
  have hr := hc.name.plain
  have hfp : '.' ∉ finalPt s.p p ∧ lower (finalPt s.p p) = finalPt s.p p := by
    unfold finalPt; split
    · exact ⟨h.name.nodot, h.name.low⟩
    · exact ⟨h3, h5⟩
  rw [genRows_term h.wf h.std.tvn (show skipRow (c :: rest) = false from hc.noise) hc.split ⟨?_, ?_, ?_⟩ hcls ha ?_]
  · have h1 := addTerm_row_inv h hc rest
    rcases hg with hg | hg
    · rw [bind_run, argLoop_run (h1.full hg) (Nat.lt_succ_self _) (by rw [addTerm_heap_new, finalObj_rt]; exact hc.name)]
      rfl
    · unfold termEffect
      rw [bind_run, argLoop_blank (blank_strip hg), argsEffect_blank (blank_strip hg)]
      rfl
  · exact dotJoin_special (a := py!"root") (b := py!"include") h3 hr (by decide) (by decide)
  · exact dotJoin_special (a := py!"root") (b := py!"declare") h3 hr (by decide) (by decide)
  · exact dotJoin_special (a := py!"root") (b := py!"section") h3 hr (by decide) (by decide)
  · rw [hfp.2, h6]
    exact dotJoin_special (a := py!"root") (b := py!"header") hfp.1 hr (by decide) (by decide)

theorem genRows_plain {F : Prop} {files : Files} {sub : Str → Bool → M Unit} {load : Bool} {dir ref : Str} {ls : Nat} {c : Str}
    {rest : List Str} {rows : List (List Str)} {s : St} {p r : Str} (h : PInv F s) (hc : PlainCell s c p r) :
    genRows files sub load false dir ref ls ((c :: rest) :: rows) s =
      genRows files sub load false dir ref ls rows (termEffect p r rest s) := genRows_plainG h (.inl trivial) hc

/-- The columns of a section row, or the declared ones if it has none. -/
def secColumns (s : St) (rest : List Str) : List Str :=
  if rest.drop 1 ≠ [] then rest.drop 1
  else match s.declSecs.get? (lower (rest.headD [])) with | some d => d.args | none => []

/-- The object made of a section row. -/
def secObj (s : St) (rest : List Str) : Obj :=
  { Obj.blank with cls := .section, raw := py!"root.section", pt := ROOT, rt := py!"section", value := .str (strip (rest.headD [])),
                   args := (secColumns s rest).map strip, col := 1 }

/-- The section a section row stands for. -/
def secOf (s : St) (rest : List Str) : Nat := (s.sections.get? (lower (strip (rest.headD [])))).getD s.next

/-- The effect of a section row. -/
def sectionEffect (rest : List Str) (s : St) : St :=
  let x := secOf s rest
  let h : Nat → Obj := fun j => if j = s.next then secObj s rest else s.heap j
  { s with
    next := s.next + 1
    heap := fun j => if j = x then { h j with sec := none } else h j
    sections := if s.sections.has (lower (strip (rest.headD []))) then s.sections
      else s.sections.set (lower (strip (rest.headD []))) s.next
    p := { s.p with paramMap := mungeParamMap (h x).args, lastParent := ROOT, lastSec := x, defTvn := py!"@value" } }

/-- A plain section row. -/
structure PlainSec (c : Str) (rest : List Str) : Prop where
  noise : skipRow [c] = false
  split : splitTermLower c = .ok (ROOT, py!"section")
  name : rest.headD [] ≠ []
  notRoot : lower (strip (rest.headD [])) ≠ ROOT
  cols : PlainCols ((rest.drop 1).map strip)

theorem setSection_sec {s : St} {x : Nat} {v : Option Nat} (ht : (s.heap x).tvn = py!"@value") (hc : (s.heap x).cls.isSection = true)
    (h1 : PlainCols (s.heap x).args) (h2 : PlainCols (s.heap x).headerArgs) :
    setSection x v s = .ok () (s.setObj x { s.heap x with sec := v }) := by
  unfold setSection
  have h3 : py!"section" ∉ (propertyNames s x).map lower := by
    unfold propertyNames Obj.secPropertyNames; rw [hc]; simp only [if_true]; split
    · exact h2
    · exact h1
  have h4 : lower (py!"@value") ≠ py!"section" := by decide
  simp only [bind_run, get_run, ht, if_neg h4, if_neg h3, upd_run, ite_run]

theorem addSection_run {s : St} {x : Nat} {n : Str} (hc : (s.heap x).cls.isSection = true) (hv : (s.heap x).value = .str n) :
    addSection x s = .ok ((s.sections.get? (lower n)).getD x)
      { s with sections := if s.sections.has (lower n) then s.sections else s.sections.set (lower n) x } := by
  unfold addSection Dict.has
  simp only [bind_run, obj_run, hc, assert_run, if_true, hv, get_run]
  cases s.sections.get? (lower n) <;> rfl

/-- Reading a section object. -/
theorem consume_section {s : St} {x : Nat} {k : Str} (ho : OkSec k (s.heap x)) (hc : (s.heap x).cls.isSection = true)
    (hsyn : synonyms s.p.declTerms = []) (hroot : (s.heap s.root).rt = ROOT) (hx : x ≠ s.root) :
    consume true x s = .ok () { (s.setObj x { s.heap x with sec := none }) with
      sections := if s.sections.has k then s.sections else s.sections.set k x
      p := { s.p with paramMap := mungeParamMap (s.heap x).args, lastParent := ROOT, lastSec := x, defTvn := py!"@value" } } := by
  obtain ⟨n, hv, hn⟩ := ho.value
  have hsub : substSynonym s.p.declTerms ROOT (py!"section") = .ok (ROOT, py!"section") := by
    unfold substSynonym; rw [hsyn]; rfl
  have hself : s.setObj x { s.heap x with pt := ROOT, rt := py!"section" } = s := by
    rw [← ho.pt, ← ho.rt]; exact setObj_self s x
  have hrm : remapRecord s.p.paramMap (py!"section") = py!"section" := rfl
  unfold consume
  have e : iterBody x s = .ok true { (s.setObj x { s.heap x with sec := none }) with
      p := { s.p with paramMap := mungeParamMap (s.heap x).args, lastParent := ROOT, lastSec := x, defTvn := py!"@value" } } := by
    unfold iterBody
    simp only [bind_run, get_run, lift_run, ho.pt, ho.rt, hsub, upd_run, hrm, hself]
    rw [setSection_sec ho.tvn hc ho.args ho.header]
    have hj : ({ s.heap x with sec := some s.p.lastSec } : Obj).joinLc = py!"root.section" := by
      unfold Obj.joinLc; simp only [ho.pt, ho.rt]; decide
    simp only [obj_run, heap_setObj_self, hj]
    simp only [show (py!"root.section" = py!"root.header") = False from by decide, if_false, if_true, bind_run, hc, Bool.not_true,
      Bool.false_eq_true, pure_run, updP, modify_run, hroot, ho.doc]
    rw [setSection_sec (by simp [St.setObj, ho.tvn]) (by simp [St.setObj, hc]) (by simp [St.setObj]; exact ho.args) (by simp [St.setObj]; exact ho.header)]
    simp only [if_false]
    refine congrArg (Res.ok true) ?_
    refine St.ext rfl (funext fun j => ?_) rfl rfl rfl rfl rfl rfl rfl rfl rfl rfl
    simp only [St.setObj]
    split
    · rw [ho.pt, ho.rt]; simp
    · rfl
  simp only [e, bind_run, Bool.and_self, if_true]
  unfold loadBody
  have hj : ((St.heap { (s.setObj x { s.heap x with sec := none }) with
      p := { s.p with paramMap := mungeParamMap (s.heap x).args, lastParent := ROOT, lastSec := x, defTvn := py!"@value" } }) x).joinLc =
      py!"root.section" := by
    simp only [heap_setObj_self]
    unfold Obj.joinLc; simp only [ho.pt, ho.rt]; decide
  simp only [bind_run, obj_run, hj]
  simp only [show (py!"root.section" = py!"root.root") = False from by decide, if_false, if_true]
  simp only [bind_run, addSection_run (s := { (s.setObj x { s.heap x with sec := none }) with
      p := { s.p with paramMap := mungeParamMap (s.heap x).args, lastParent := ROOT, lastSec := x, defTvn := py!"@value" } })
      (x := x) (n := n) (by simp only [heap_setObj_self]; exact hc) (by simp only [heap_setObj_self]; exact hv), hn]
  have hs : (s.setObj x { s.heap x with sec := none }).sections = s.sections := rfl
  simp only [hs]
  cases hg : s.sections.has k with
  | false => rfl
  | true => rfl

theorem plainCols_secColumns {G F : Prop} {s : St} (h : PInvG G F s) {c : Str} {rest : List Str} (hc : PlainSec c rest) :
    PlainCols ((secColumns s rest).map strip) := by
  unfold secColumns
  split
  · exact hc.cols
  · cases hg : s.declSecs.get? (lower (rest.headD [])) with
    | none => simp [PlainCols]
    | some d => exact h.declared _ _ hg

theorem okSec_secObj {G F : Prop} {s : St} (h : PInvG G F s) {c : Str} {rest : List Str} (hc : PlainSec c rest) :
    OkSec (lower (strip (rest.headD []))) (secObj s rest) :=
  ⟨rfl, rfl, rfl, rfl, plainCols_secColumns h hc, by simp [PlainCols, secObj, Obj.blank], _, rfl, rfl⟩

theorem rowTerm_section {G F : Prop} {s : St} (h : PInvG G F s) {c : Str} {rest : List Str} (hc : PlainSec c rest) :
    rowTerm false (c :: rest) s = .ok s.next ({ s with next := s.next + 1 }.setObj s.next (secObj s rest)) := by
  unfold rowTerm
  have hn : normalizeTerm c = .ok (py!"root.section") := by unfold normalizeTerm; rw [hc.split]; rfl
  simp only [bind_run, lift_run, List.headD_cons, hn, get_run, h.secCls]
  unfold newSectionObj
  have hv : ((c :: rest)[1]?).getD [] = rest.headD [] := by cases rest <;> rfl
  have hd : (c :: rest).drop 2 = rest.drop 1 := rfl
  have e2 : newTermObj .section (py!"root.section") (Val.str (((c :: rest)[1]?).getD [])) (secColumns s rest) none none 1 false s =
      .ok s.next ({ s with next := s.next + 1 }.setObj s.next (secObj s rest)) := by
    unfold newTermObj
    have h2 : splitTermLower (py!"root.section") = .ok (ROOT, py!"section") := by decide
    simp only [bind_run, lift_run, h2, alloc_run, hv]
    have hmk : (Val.str (rest.headD [])).mk = .str (strip (rest.headD [])) := by
      unfold Val.mk Val.truthy
      cases hr : rest.headD [] with
      | nil => exact absurd hr hc.name
      | cons a l => rfl
    rw [hmk]; rfl
  have key : ∀ as, as = secColumns s rest → (do
      let i ← newTermObj .section (py!"root.section") (Val.str (((c :: rest)[1]?).getD [])) as none none 1 false
      let o ← obj i
      M.assert (o.joinLc = py!"root.section" ∨ o.joinLc = py!"root.root")
      return i) s = .ok s.next ({ s with next := s.next + 1 }.setObj s.next (secObj s rest)) := by
    intro as has
    rw [has, bind_run, e2]
    simp only [bind_run, obj_run, heap_setObj_self]
    have hj : (secObj s rest).joinLc = py!"root.section" := rfl
    simp only [hj, true_or, decide_true, assert_run, if_true, pure_run]
  by_cases hr : rest.drop 1 ≠ []
  · rw [hd, if_pos hr]
    exact key _ (by unfold secColumns; rw [if_pos hr])
  · rw [hd, if_neg hr, bind_run, lift_run, hv]
    rw [hv] at key
    exact key _ (by unfold secColumns; rw [if_neg hr]; rfl)

theorem secOf_lt {G F : Prop} {s : St} (h : PInvG G F s) (rest : List Str) : secOf s rest < s.next + 1 := by
  unfold secOf
  cases hg : s.sections.get? (lower (strip (rest.headD []))) with
  | none => exact Nat.lt_succ_self _
  | some y => exact Nat.lt_succ_of_lt (h.wf.secsLt _ (Dict.mem_of_get? hg)).1

/-- The section a section row stands for, in the heap with the new object. -/
theorem secOf_ok {G F : Prop} {s : St} (h : PInvG G F s) {c : Str} {rest : List Str} (hc : PlainSec c rest) :
    OkSec (lower (strip (rest.headD []))) (if secOf s rest = s.next then secObj s rest else s.heap (secOf s rest)) ∧
    (if secOf s rest = s.next then secObj s rest else s.heap (secOf s rest)).cls.isSection = true ∧ secOf s rest ≠ s.root := by
  unfold secOf
  cases hg : s.sections.get? (lower (strip (rest.headD []))) with
  | none =>
    simp only [Option.getD_none, if_true]
    exact ⟨okSec_secObj h hc, rfl, Nat.ne_of_gt h.wf.rootLt⟩
  | some y =>
    have hlt := h.wf.secsLt _ (Dict.mem_of_get? hg)
    simp only [Option.getD_some, if_neg (Nat.ne_of_lt hlt.1)]
    have ho := h.secs _ _ hg hc.notRoot
    refine ⟨ho, hlt.2.1, ?_⟩
    intro e
    have h1 := ho.rt
    rw [e, h.rootName] at h1
    exact absurd h1 (by decide)

/-- Reading a section row. -/
theorem genRows_section {G F : Prop} {files : Files} {sub : Str → Bool → M Unit} {dir ref : Str} {ls : Nat} {c : Str}
    {rest : List Str} {rows : List (List Str)} {s : St} (h : PInvG G F s) (hc : PlainSec c rest) :
    genRows files sub true false dir ref ls ((c :: rest) :: rows) s =
      genRows files sub true false dir ref (secOf s rest) rows (sectionEffect rest s) := by
  rw [genRows_cons, show skipRow (c :: rest) = false from hc.noise]
  simp only [Bool.false_eq_true, if_false]
  set s1 : St := { s with next := s.next + 1 }.setObj s.next (secObj s rest) with hs1
  have hj : (secObj s rest).joinLc = py!"root.section" := rfl
  have h1 : s1.heap s.next = secObj s rest := heap_setObj_self _ _ _
  simp only [bind_run, rowTerm_section h hc, ← hs1, obj_run, h1, hj]
  simp only [show (py!"root.section" = py!"root.include") = False by decide, show (py!"root.section" = py!"root.declare") = False by decide,
    or_self, if_false, if_true, bind_run, lift_run]
  have hres : resolveSection s1 s.next = .ok (secOf s rest) := by
    unfold resolveSection; rw [h1]; rfl
  simp only [hres]
  obtain ⟨ho, hcl, hr⟩ := secOf_ok h hc
  have hx : s1.heap (secOf s rest) = if secOf s rest = s.next then secObj s rest else s.heap (secOf s rest) := rfl
  rw [← hx] at ho hcl
  unfold yieldWithArgs
  have hroot : (s1.heap s1.root).rt = ROOT := by
    show (if s.root = s.next then _ else s.heap s.root).rt = _
    rw [if_neg (Nat.ne_of_lt h.wf.rootLt)]; exact h.rootName
  have e : ({ (s1.setObj (secOf s rest) { s1.heap (secOf s rest) with sec := none }) with
      sections := if s1.sections.has (lower (strip (rest.headD []))) then s1.sections
        else s1.sections.set (lower (strip (rest.headD []))) (secOf s rest)
      p := { s1.p with paramMap := mungeParamMap (s1.heap (secOf s rest)).args, lastParent := ROOT, lastSec := secOf s rest,
                       defTvn := py!"@value" } } : St) = sectionEffect rest s := by
    unfold sectionEffect
    refine St.ext rfl (funext fun j => ?_) rfl rfl ?_ rfl rfl rfl rfl rfl rfl rfl
    · simp only [St.setObj, hs1]
      split
      · next e => rw [e]
      · rfl
    · show (if s.sections.has _ then _ else _) = (if s.sections.has _ then _ else _)
      by_cases hh : s.sections.has (lower (strip (rest.headD []))) = true
      · rw [if_pos hh, if_pos hh]; rfl
      · rw [if_neg hh, if_neg hh]
        have : secOf s rest = s.next := by
          unfold secOf
          cases hg : s.sections.get? (lower (strip (rest.headD []))) with
          | none => rfl
          | some y => exact absurd (by unfold Dict.has; rw [hg]; rfl) hh
        rw [this]; rfl
  have ec : consume true (secOf s rest) s1 = .ok () (sectionEffect rest s) := by
    rw [consume_section (s := s1) ho hcl h.std.syn hroot hr]
    exact congrArg (Res.ok ()) e
  have hj2 : ((sectionEffect rest s).heap (secOf s rest)).joinLc = py!"root.section" := by
    rw [← e]
    simp only [heap_setObj_self]
    unfold Obj.joinLc; simp only [ho.pt, ho.rt]; decide
  simp only [bind_run, ec, obj_run, hj2, true_or, if_true, pure_run]

theorem wf_genRows {F : Prop} {files : Files} {sub : Str → Bool → M Unit} {dir ref : Str} {load isDecl : Bool} {ls x : Nat}
    {rows : List (List Str)} {s s' : St} (w : WF F s) (hsub : ∀ t d s', Tri (Cap.all F) (sub t d) (fun _ _ => True) s')
    (hls : ls < s.next ∧ (s.heap ls).cls.isSection = true)
    (h : genRows files sub load isDecl dir ref ls rows s = .ok x s') : WF F s' := by
  have := tri_genRows (F := F) (files := files) (sub := sub) (load := load) (isDecl := isDecl) (dir := dir) (ref := ref) hsub
    (rows := rows) (ls := ls) (s := s) hls w
  have := wp_ok this h
  exact Steps.wf (C := Cap.all F) this.1 w

/-- No file is needed. -/
def nofile : Files := ⟨fun _ => none, fun _ _ => none⟩

theorem sectionEffect_wf {G F : Prop} {s : St} (h : PInvG G F s) {c : Str} {rest : List Str} (hc : PlainSec c rest) :
    WF F (sectionEffect rest s) := by
  have := genRows_section (files := nofile) (sub := fun _ _ => pure ()) (dir := []) (ref := []) (ls := s.root) (rows := []) h hc
  exact wf_genRows h.wf (fun _ _ _ => tri_pure trivial) ⟨h.wf.rootLt, h.wf.rootSec⟩ this

theorem munge_ok {args : List Str} (h : PlainCols args) : ∀ m ∈ mungeParamMap args, lower m = m ∧ m ≠ py!"section" := by
  intro m hm
  unfold mungeParamMap at hm
  obtain ⟨⟨a, i⟩, ha, rfl⟩ := List.mem_map.1 hm
  simp only
  split
  · exact ⟨lower_natStr i, fun e => not_special_natStr i (by rw [e]; decide)⟩
  · refine ⟨lower_lower a, fun e => h ?_⟩
    rw [← e]
    exact List.mem_map_of_mem (List.fst_mem_of_mem_zipIdx ha)

theorem sectionEffect_heap {s : St} {rest : List Str} (j : Nat) : (sectionEffect rest s).heap j =
    { (if j = s.next then secObj s rest else s.heap j) with
      sec := if j = secOf s rest then none else (if j = s.next then secObj s rest else s.heap j).sec } := by
  unfold sectionEffect
  by_cases hx : j = secOf s rest
  · simp only [if_pos hx]
  · simp only [if_neg hx]

theorem tvnOk_section {s : St} (h : TvnOk s) {s' : St} (h1 : s'.p.declTerms = s.p.declTerms) (h2 : s'.p.defTvn = py!"@value")
    (h3 : s'.declTerms = s.declTerms) (h4 : ∀ j, (s'.heap j).defTvn = py!"@value" ∨ ∃ i, (s'.heap j).defTvn = (s.heap i).defTvn)
    (hb : ∃ i, (s.heap i).defTvn = py!"@value") (hp : ∀ n, lower (declProp s.p.declTerms n (py!"termvaluename") (py!"@value")) ∉ reservedTvn) :
    TvnOk s' := by
  refine ⟨fun n => by rw [h1, h2]; exact hp n, fun n x => ?_⟩
  rw [h3]
  rcases h4 x with e | ⟨i, e⟩
  · obtain ⟨i, hi⟩ := hb
    rw [e, ← hi]; exact h.doc n i
  · rw [e]; exact h.doc n i

theorem declProp_default {d : Dict DTerm} {n k a b : Str} (ha : lower (declProp d n k a) ∉ reservedTvn) (hb : lower b ∉ reservedTvn) :
    lower (declProp d n k b) ∉ reservedTvn := by
  unfold declProp at *
  cases hg : d.get? n with
  | none => exact hb
  | some t =>
    rw [hg] at ha
    simp only at ha ⊢
    cases hk : t.props.get? k with
    | none => exact hb
    | some v => rw [hk] at ha; exact ha

theorem TvnOk.change {s s' : St} (h : TvnOk s) (h1 : s'.p.declTerms = s.p.declTerms) (h2 : lower s'.p.defTvn ∉ reservedTvn)
    (h3 : s'.declTerms = s.declTerms) (h4 : ∀ j, lower (s'.heap j).defTvn ∉ reservedTvn ∨ ∃ i, (s'.heap j).defTvn = (s.heap i).defTvn) :
    TvnOk s' := by
  refine ⟨fun n => by rw [h1]; exact declProp_default (h.parser n) h2, fun n x => ?_⟩
  rw [h3]
  rcases h4 x with e | ⟨i, e⟩
  · exact declProp_default (h.doc n 0) e
  · rw [e]; exact h.doc n i

theorem sectionEffect_inv {G F : Prop} {s : St} (h : PInvG G F s) {c : Str} {rest : List Str} (hc : PlainSec c rest) :
    PInv F (sectionEffect rest s) := by
  have w := sectionEffect_wf h hc
  have hcl : ∀ n, parserTermClass (sectionEffect rest s) n = parserTermClass s n :=
    parserTermClass_congr rfl rfl rfl
  have ok := secOf_ok h hc
  refine ⟨w, ⟨h.std.tvn.change rfl (by show lower (py!"@value") ∉ _; decide) rfl ?_, ?_, h.std.syn⟩, h.rootKey, ?_, ?_, ?_, ?_, ?_, ?_, h.declared⟩
  · intro j
    rw [sectionEffect_heap]
    by_cases hj : j = s.next
    · left; simp only [if_pos hj]; show lower (py!"@value") ∉ _; decide
    · right; exact ⟨j, by simp only [if_neg hj]⟩
  · intro n hn; rw [hcl] at hn; exact h.std.cls n hn
  · show ((sectionEffect rest s).heap s.root).rt = _
    rw [sectionEffect_heap]; simp only [if_neg (Nat.ne_of_lt h.wf.rootLt)]; exact h.rootName
  · show s.p.lastMap.get? ROOT = some _
    unfold lastTerm sectionEffect
    simp only [h.rootKey, Option.getD_some]
  · show GoodName ROOT
    exact ⟨by decide, by decide, by decide, by decide⟩
  · intro _
    show ∀ m ∈ mungeParamMap _, _
    refine munge_ok ?_
    exact ok.1.args
  · rw [hcl]; exact h.secCls
  · intro k x hx hk
    have key : OkSec k (if x = s.next then secObj s rest else s.heap x) := by
      simp only [sectionEffect] at hx
      split at hx
      · have hlt := (h.wf.secsLt _ (Dict.mem_of_get? hx)).1
        rw [if_neg (Nat.ne_of_lt hlt)]; exact h.secs k x hx hk
      · rw [Dict.get?_set] at hx
        split at hx
        · next e =>
          cases hx
          rw [if_pos rfl, ← e]; exact okSec_secObj h hc
        · have hlt := (h.wf.secsLt _ (Dict.mem_of_get? hx)).1
          rw [if_neg (Nat.ne_of_lt hlt)]; exact h.secs k x hx hk
    rw [sectionEffect_heap]
    exact key.congr rfl rfl rfl rfl rfl rfl rfl

/-- The effect of a header row. -/
def headerEffect (c : Cls) (rest : List Str) (s : St) : St :=
  { s with
    next := s.next + 1
    heap := fun j =>
      if j = s.next then { rowObj c ROOT (py!"header") rest with sec := some s.p.lastSec }
      else if j = s.p.lastSec then { s.heap j with headerArgs := (rest.drop 1).map strip, defTvn := lower (strip (rest.headD [])) }
      else s.heap j
    p := { s.p with paramMap := mungeParamMap ((rest.drop 1).map strip), defTvn := lower (strip (rest.headD [])) } }

/-- A plain header row. -/
structure PlainHeader (c : Str) (rest : List Str) : Prop where
  noise : skipRow [c] = false
  split : splitTermLower c = .ok (ROOT, py!"header")
  value : rest.headD [] ≠ []
  free : lower (strip (rest.headD [])) ∉ reservedTvn
  cols : PlainCols ((rest.drop 1).map strip)

/-- Reading a header row. -/
theorem genRows_header {F : Prop} {files : Files} {sub : Str → Bool → M Unit} {load : Bool} {dir ref : Str} {ls : Nat} {c : Str}
    {rest : List Str} {rows : List (List Str)} {s : St} (h : PInv F s) (hc : PlainHeader c rest) :
    genRows files sub load false dir ref ls ((c :: rest) :: rows) s =
      genRows files sub load false dir ref ls rows (headerEffect (parserTermClass s (py!"root.header")) rest s) := by
  have hcls : (parserTermClass s (dotJoin ROOT (py!"header"))).isSection = false :=
    h.std.notSection (by decide) (by decide) (by decide)
  obtain ⟨cl, hcl⟩ : ∃ cl, cl = parserTermClass s (dotJoin ROOT (py!"header")) := ⟨_, rfl⟩
  rw [show parserTermClass s (py!"root.header") = cl from hcl.symm]
  rw [genRows_cons, show skipRow (c :: rest) = false from hc.noise]
  simp only [Bool.false_eq_true, if_false]
  obtain ⟨o, ho⟩ : ∃ o, o = rowObj cl ROOT (py!"header") rest := ⟨_, rfl⟩
  have hj : o.joinLc = py!"root.header" := by rw [ho]; rfl
  simp only [bind_run, rowTerm_run hc.split hcls, ← hcl, ← ho, obj_run, heap_setObj_self, hj]
  simp only [show (py!"root.header" = py!"root.include") = False by decide, show (py!"root.header" = py!"root.declare") = False by decide,
    show (py!"root.header" = py!"root.section") = False by decide, or_self, if_false]
  set s1 : St := { s with next := s.next + 1 }.setObj s.next o with hs1
  have h1 : s1.heap s.next = o := heap_setObj_self _ _ _
  have hv : o.value = .str (strip (rest.headD [])) := by
    rw [ho]; show (Val.str (rest.headD [])).mk = _
    unfold Val.mk Val.truthy
    cases hr : rest.headD [] with
    | nil => exact absurd hr hc.value
    | cons a l => rfl
  have hne : s.p.lastSec ≠ s.next := Nat.ne_of_lt h.wf.pSec.1
  have ei : iterBody s.next s1 = .ok false (headerEffect cl rest s) := by
    unfold iterBody
    have hsub : substSynonym s1.p.declTerms (s1.heap s.next).pt (s1.heap s.next).rt = .ok (ROOT, py!"header") := by
      rw [h1, ho]; exact h.std.subst _ _
    have hself : s1.setObj s.next { s1.heap s.next with pt := ROOT, rt := py!"header" } = s1 := by
      have : ({ s1.heap s.next with pt := ROOT, rt := py!"header" } : Obj) = s1.heap s.next := by rw [h1, ho]; rfl
      rw [this]; exact setObj_self _ _
    have hrm : remapRecord s1.p.paramMap (py!"header") = py!"header" := rfl
    simp only [bind_run, get_run, lift_run, hsub, upd_run, hrm, hself]
    obtain ⟨o2, ho2⟩ : ∃ o2 : Obj, o2 = { o with sec := some s.p.lastSec } := ⟨_, rfl⟩
    have e0 : setSection s.next (some s1.p.lastSec) s1 = .ok () (s1.setObj s.next o2) := by
      rw [setSection_run (by rw [h1, ho]; rfl) (by rw [h1, ho]; rfl) (by rw [h1, ho]; show cl.isSection = false; rw [hcl]; exact hcls), h1, ho2]; rfl
    have hj2 : o2.joinLc = py!"root.header" := by rw [ho2]; exact hj
    have hv2 : o2.value = .str (strip (rest.headD [])) := by rw [ho2]; exact hv
    rw [e0]
    simp only [obj_run, heap_setObj_self, hj2, if_true, bind_run, updP, modify_run, hv2, upd_run, pure_run]
    refine congrArg (Res.ok false) ?_
    unfold headerEffect
    have ha : o2.args = (rest.drop 1).map strip := by rw [ho2, ho]; rfl
    rw [← ha]
    refine St.ext rfl (funext fun j => ?_) rfl rfl rfl rfl rfl rfl rfl rfl rfl rfl
    simp only [St.setObj, hs1]
    by_cases hjn : j = s.next
    · simp only [hjn, if_true, hne.symm, if_false, ho2, ho]
    · simp only [if_neg hjn, if_neg hne]
      split
      · next e => rw [e]
      · rfl
  unfold yieldWithArgs
  have ec : consume load s.next s1 = .ok () (headerEffect cl rest s) := by
    unfold consume; simp only [bind_run, ei]; rfl
  have hj3 : ((headerEffect cl rest s).heap s.next).joinLc = py!"root.header" := by
    unfold headerEffect; simp only [if_true]; rfl
  simp only [bind_run, ec, obj_run, hj3, or_true, if_true, pure_run]

theorem headerEffect_inv {F : Prop} {s : St} (h : PInv F s) {c : Str} {rest : List Str} (hc : PlainHeader c rest) :
    PInv F (headerEffect (parserTermClass s (py!"root.header")) rest s) := by
  have w : WF F (headerEffect (parserTermClass s (py!"root.header")) rest s) :=
    wf_genRows h.wf (fun _ _ _ => tri_pure trivial) ⟨h.wf.rootLt, h.wf.rootSec⟩
      (genRows_header (files := nofile) (sub := fun _ _ => pure ()) (load := true) (dir := []) (ref := []) (ls := s.root) (rows := []) h hc)
  set s' := headerEffect (parserTermClass s (py!"root.header")) rest s with hs'
  have hcl : ∀ n, parserTermClass s' n = parserTermClass s n := parserTermClass_congr rfl rfl rfl
  have hold : ∀ j, j < s.next → s'.heap j =
      if j = s.p.lastSec then { s.heap j with headerArgs := (rest.drop 1).map strip, defTvn := lower (strip (rest.headD [])) } else s.heap j := by
    intro j hj; rw [hs']; unfold headerEffect; simp only [if_neg (Nat.ne_of_lt hj)]
  refine ⟨w, ⟨h.std.tvn.change rfl ?_ rfl ?_, ?_, h.std.syn⟩, h.rootKey, ?_, ?_, h.name, fun _ => munge_ok hc.cols, ?_, ?_, h.declared⟩
  · show lower (lower _) ∉ _; rw [lower_lower]; exact hc.free
  · intro j
    rw [hs']; unfold headerEffect; simp only
    by_cases hj : j = s.next
    · left; simp only [if_pos hj]; show lower (py!"@value") ∉ _; decide
    · rw [if_neg hj]
      by_cases hx : j = s.p.lastSec
      · left; rw [if_pos hx]; simp only [lower_lower]; exact hc.free
      · right; rw [if_neg hx]; exact ⟨j, rfl⟩
  · intro n hn; rw [hcl] at hn; exact h.std.cls n hn
  · show (s'.heap s.root).rt = _
    rw [hold _ h.wf.rootLt, ← h.rootName]; split <;> rfl
  · exact h.parent
  · rw [hcl]; exact h.secCls
  · intro k x hx hk
    have hlt := (h.wf.secsLt _ (Dict.mem_of_get? hx)).1
    have ho := h.secs k x hx hk
    rw [hold x hlt]
    split
    · exact ⟨ho.pt, ho.rt, ho.tvn, ho.doc, ho.args, hc.cols, ho.value⟩
    · exact ho

/-- What one row that is not special does. -/
inductive PlainRow : St → List Str → St → Prop
  | noise {s : St} {row : List Str} (h : skipRow row = true) : PlainRow s row s
  | term {s : St} {c p r : Str} {rest : List Str} (h : PlainCell s c p r) : PlainRow s (c :: rest) (termEffect p r rest s)
  | «section» {s : St} {c : Str} {rest : List Str} (h : PlainSec c rest) : PlainRow s (c :: rest) (sectionEffect rest s)
  | header {s : St} {c : Str} {rest : List Str} (h : PlainHeader c rest) :
      PlainRow s (c :: rest) (headerEffect (parserTermClass s (py!"root.header")) rest s)

theorem PlainRow.inv {F : Prop} {s s' : St} {row : List Str} (h : PInv F s) (hr : PlainRow s row s') : PInv F s' := by
  cases hr with
  | noise => exact h
  | term hc => exact termEffect_inv h hc _
  | «section» hc => exact sectionEffect_inv h hc
  | header hc => exact headerEffect_inv h hc

/-- The `last_section` of the loop after a row. -/
theorem PlainRow.run {F : Prop} {files : Files} {sub : Str → Bool → M Unit} {dir ref : Str} {ls : Nat} {row : List Str}
    {s s' : St} (h : PInv F s) (hr : PlainRow s row s') : ∃ ls', ∀ rows,
    genRows files sub true false dir ref ls (row :: rows) s = genRows files sub true false dir ref ls' rows s' := by
  cases hr with
  | noise hk => exact ⟨ls, fun rows => by rw [genRows_cons, hk]; rfl⟩
  | term hc => exact ⟨ls, fun rows => genRows_plain h hc⟩
  | «section» hc => exact ⟨_, fun rows => genRows_section h hc⟩
  | header hc => exact ⟨ls, fun rows => genRows_header h hc⟩

/-- What a list of rows that are not special does. -/
inductive PlainRows : St → List (List Str) → St → Prop
  | nil {s : St} : PlainRows s [] s
  | cons {s s1 s2 : St} {row : List Str} {rows : List (List Str)} (h : PlainRow s row s1) (t : PlainRows s1 rows s2) :
      PlainRows s (row :: rows) s2

theorem PlainRows.inv {F : Prop} {s s' : St} {rows : List (List Str)} (h : PInv F s) (hr : PlainRows s rows s') : PInv F s' := by
  induction hr with
  | nil => exact h
  | cons hr _ ih => exact ih (hr.inv h)

theorem PlainRows.run {F : Prop} {files : Files} {sub : Str → Bool → M Unit} {dir ref : Str} {rows : List (List Str)}
    {s s' : St} (h : PInv F s) (hr : PlainRows s rows s') : ∀ ls, ∃ ls', ∀ more,
    genRows files sub true false dir ref ls (rows ++ more) s = genRows files sub true false dir ref ls' more s' := by
  induction hr with
  | nil => exact fun ls => ⟨ls, fun more => rfl⟩
  | cons hr ht ih =>
    intro ls
    obtain ⟨l1, e1⟩ := hr.run (files := files) (sub := sub) (dir := dir) (ref := ref) (ls := ls) h
    obtain ⟨l2, e2⟩ := ih (hr.inv h) l1
    exact ⟨l2, fun more => by rw [List.cons_append, e1, e2]⟩

end Metatab
