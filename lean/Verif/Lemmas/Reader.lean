import Verif.Lemmas.PlainDoc
import Verif.Spec.Reader
/-! The parser follows the reference reader. -/
namespace Metatab
open Py Spec

/-- A parent reference that is in range. -/
def RefOk (n : Nat) : Option Nat → Prop
  | none => True
  | some i => i < n

/-- The state and the reference reader agree. -/
structure Sim (s : St) (a : Reader) (ids : List Nat) : Prop extends Holds s a ids where
  names : ∀ k x, s.sections.get? k = some x → ∃ n, (s.heap x).value = .str n ∧ lower n = k
  cur : s.sections.get? a.cur = some s.p.lastSec
  cols : s.p.paramMap = mungeParamMap a.cols
  vname : s.p.defTvn = a.vname
  vnameOk : a.vname ≠ []
  lastName : s.p.lastParent = a.last.1
  lastRef : s.p.lastMap.get? a.last.1 = some (ref s ids a.last.2)
  known : ∀ k, k ≠ ELIDED → s.p.lastMap.get? k = (Dict.get? a.known k).map (ref s ids)
  secKnown : ∀ n ∈ a.nodes, (s.sections.get? n.sec).isSome
  nodesOk : ∀ n ∈ a.nodes, RefOk ids.length n.parent
  lastOk : RefOk ids.length a.last.2
  knownOk : ∀ k i, Dict.get? a.known k = some i → RefOk ids.length i
  rootKnown : Dict.get? a.known ROOT = some none
  plainKnown : Dict.get? a.known (py!"declarevalueset") = none
  decl : s.p.declTerms = initDeclTerms
  decl' : s.declTerms = [] ∨ s.declTerms = initDeclTerms
  declSecs : ∀ k d, s.declSecs.get? k = some d → d.args = []

theorem ref_append {s : St} {ids : List Nat} {t : Nat} {i : Option Nat} (h : RefOk ids.length i) : ref s (ids ++ [t]) i = ref s ids i := by
  cases i with
  | none => rfl
  | some i =>
    unfold ref
    have h : i < ids.length := h
    simp [List.getElem?_append_left h]

theorem refOk_succ {n : Nat} {i : Option Nat} (h : RefOk n i) : RefOk (n + 1) i := by
  cases i with
  | none => trivial
  | some i => exact Nat.lt_succ_of_lt h

theorem pick_append {nodes : List Node} {ids : List Nat} (h : ids.length = nodes.length) (n : Node) (t : Nat) (f : Node → Bool) :
    pick (nodes ++ [n]) (ids ++ [t]) f = pick nodes ids f ++ if f n then [t] else [] := by
  unfold pick
  rw [List.zip_append h.symm, List.filter_append, List.map_append]
  congr 1
  simp only [List.zip_cons_cons, List.zip_nil_right, List.filter_cons, List.filter_nil]
  split <;> rfl

theorem ref_some {s : St} {ids : List Nat} {i : Nat} (h : i < ids.length) : ref s ids (some i) = ids[i] := by
  unfold ref; simp [h]

theorem _root_.Spec.Holds.ref_lt {s : St} {a : Reader} {ids : List Nat} (h : Holds s a ids) (hr : s.root < s.next) {i : Option Nat} (hi : RefOk ids.length i) :
    ref s ids i < s.next := by
  cases i with
  | none => exact hr
  | some i => rw [ref_some hi]; exact (h.exist _ (List.getElem_mem hi)).1

/-- Different references are different objects. -/
theorem _root_.Spec.Holds.ref_inj {s : St} {a : Reader} {ids : List Nat} (h : Holds s a ids) (hr : (s.heap s.root).cls.isSection = true)
    {i j : Option Nat} (hi : RefOk ids.length i) (hj : RefOk ids.length j) (e : ref s ids i = ref s ids j) : i = j := by
  have nr : ∀ k, (hk : k < ids.length) → ids[k] ≠ s.root := by
    intro k hk e
    have := (h.exist _ (List.getElem_mem hk)).2
    rw [e, hr] at this; cases this
  cases i with
  | none =>
    cases j with
    | none => rfl
    | some j => rw [ref_some hj] at e; exact absurd e.symm (nr j hj)
  | some i =>
    cases j with
    | none => rw [ref_some hi] at e; exact absurd e (nr i hi)
    | some j =>
      rw [ref_some hi, ref_some hj] at e
      have hi : i < ids.length := hi
      have hj : j < ids.length := hj
      have hd := List.pairwise_iff_getElem.1 h.distinct
      rcases Nat.lt_trichotomy i j with hlt | rfl | hlt
      · exact absurd e (Nat.ne_of_lt (hd i j hi hj hlt))
      · rfl
      · exact absurd e.symm (Nat.ne_of_lt (hd j i hj hi hlt))

theorem zip_mem_right {α β : Type} {l : List α} {m : List β} {x : α} {y : β} (h : (x, y) ∈ l.zip m) : y ∈ m :=
  (List.of_mem_zip h).2

/-- One more term. -/
theorem holds_add {F : Prop} {s : St} (hp : PInv F s) {a : Reader} {ids : List Nat} (h : Sim s a ids) {o : Obj} (hn : NewTerm o)
    {p r : Str} {par : Option Nat} (hpar : RefOk ids.length par) (hd : initDeclTerms.get? (dotJoin p r) = none)
    (hd2 : lower (finalPt s.p p) = ROOT → initDeclTerms.get? (dotJoin (finalPt s.p p) r) = none)
    (hl : lower (finalPt s.p p) = finalPt s.p p) {known : List (Str × Option Nat)} {last : Str × Option Nat} :
    Holds (addTerm s o p r (ref s ids par))
      { a with nodes := a.nodes ++ [⟨finalPt s.p p, r, o.value, par, a.cur, a.vname⟩], known := known, last := last } (ids ++ [s.next]) := by
  obtain ⟨q, hq⟩ : ∃ q, q = ref s ids par := ⟨_, rfl⟩
  rw [← hq]
  have hqlt : q < s.next := by rw [hq]; exact h.toHolds.ref_lt hp.wf.rootLt hpar
  have hold : ∀ t ∈ ids, t < s.next := fun t ht => (h.exist t ht).1
  have hroot : ∀ i, ref (addTerm s o p r q) ids i = ref s ids i := by
    intro i; cases i <;> rfl
  have href : ∀ i, RefOk ids.length i → ref (addTerm s o p r q) (ids ++ [s.next]) i = ref s ids i := by
    intro i hi; rw [ref_append hi, hroot]
  have htvn : (finalObj s o p r q).tvn = a.vname ∧ (finalObj s o p r q).cpt = py!"any" := by
    unfold finalObj
    have e1 : ∀ d x, declProp s.p.declTerms (dotJoin p r) d x = x := by
      intro d x; rw [h.decl]; unfold declProp; rw [hd]
    have e2 : lower (finalPt s.p p) = ROOT → ∀ d x, declProp s.declTerms (dotJoin (finalPt s.p p) r) d x = x := by
      intro hr d x
      rcases h.decl' with e | e
      · rw [e]; rfl
      · rw [e]; unfold declProp; rw [hd2 hr]
    have e3 : (dress s { o with pt := p, rt := r, sec := some s.p.lastSec }).tvn = a.vname ∧
        (dress s { o with pt := p, rt := r, sec := some s.p.lastSec }).cpt = py!"any" := by
      unfold dress
      exact ⟨(e1 _ _).trans h.vname, e1 _ _⟩
    dsimp only
    by_cases hr : lower (finalPt s.p p) = ROOT
    · rw [if_pos hr]
      unfold finish
      dsimp only
      rw [e3.1, e3.2]
      have e4 : (dress s { o with pt := p, rt := r, sec := some s.p.lastSec }).rt = r := rfl
      simp only [Obj.join, e4]
      rw [e2 hr, e2 hr]
      refine ⟨?_, by simp⟩
      split
      · next hc =>
        rcases hc with hc | hc
        · exact absurd hc h.vnameOk
        · exact hc.symm
      · rfl
    · rw [if_neg hr]; exact e3
  have hx := hp.wf.pSec.1
  have hlen : (ids ++ [s.next]).length = ids.length + 1 := by simp
  refine ⟨?_, ?_, ?_, ?_, ?_, ?_, ?_, ?_, ?_, ?_⟩
  · simp [h.count]
  · rw [List.pairwise_append]
    refine ⟨h.distinct, List.pairwise_singleton _ _, ?_⟩
    intro x hx y hy
    rw [List.mem_singleton.1 hy]; exact hold x hx
  · intro t ht
    rcases List.mem_append.1 ht with ht | ht
    · refine ⟨Nat.lt_succ_of_lt (hold t ht), ?_⟩
      rw [addTerm_heap_old (hold t ht)]; exact (h.exist t ht).2
    · rw [List.mem_singleton.1 ht, addTerm_heap_new, finalObj_cls]
      exact ⟨Nat.lt_succ_self _, hn.cls⟩
  · intro n t hm
    simp only at hm
    rw [List.zip_append h.count.symm] at hm
    rcases List.mem_append.1 hm with hm | hm
    · obtain ⟨a1, a2, a3, a4, a5, a6, a7⟩ := h.term n t hm
      rw [addTerm_heap_old (hold t (zip_mem_right hm)), href _ (h.nodesOk n (List.of_mem_zip hm).1)]
      exact ⟨a1, a2, a3, a4, a5, a6, a7⟩
    · simp only [List.zip_cons_cons, List.zip_nil_right, List.mem_singleton, Prod.mk.injEq] at hm
      obtain ⟨rfl, rfl⟩ := hm
      rw [addTerm_heap_new, finalObj_pt, finalObj_rt, finalObj_value, finalObj_parent, finalObj_sec, href _ hpar, ← hq]
      exact ⟨rfl, rfl, rfl, htvn.1, htvn.2, rfl, h.cur.symm⟩
  · intro i hi
    rw [pick_append h.count]
    by_cases hil : i < ids.length
    · rw [href (some i) hil, addTerm_heap_old (h.toHolds.ref_lt hp.wf.rootLt (i := some i) hil)]
      simp only
      rw [h.children i hil]
      by_cases he : par = some i
      · rw [if_pos (by rw [hq, he]), if_pos (by simp [he])]
      · rw [if_neg (fun e => he (h.toHolds.ref_inj hp.wf.rootSec hpar (j := some i) hil (hq.symm.trans e.symm)))]
        simp [he]
    · have hie : i = ids.length := by omega
      have : ref (addTerm s o p r q) (ids ++ [s.next]) (some i) = s.next := by
        unfold ref; simp [hie]
      rw [this, addTerm_heap_new, finalObj_children, hn.children]
      have h1 : pick a.nodes ids (fun n => n.parent = some i) = [] := by
        unfold pick
        rw [List.map_eq_nil_iff, List.filter_eq_nil_iff]
        intro nt hm he
        have := h.nodesOk nt.1 (List.of_mem_zip (show (nt.1, nt.2) ∈ _ from hm)).1
        rw [of_decide_eq_true he, hie] at this
        exact Nat.lt_irrefl _ this
      have h2 : par ≠ some i := by
        intro e
        rw [e, hie] at hpar
        exact Nat.lt_irrefl _ hpar
      rw [h1]; simp [h2]
  · show ((addTerm s o p r q).heap s.root).children = _
    rw [pick_append h.count, addTerm_heap_old hp.wf.rootLt]
    simp only
    rw [h.rootChildren]
    by_cases he : par = none
    · rw [if_pos (by rw [hq, he]; rfl), if_pos (by simp [he])]
    · rw [if_neg (fun e => he (h.toHolds.ref_inj hp.wf.rootSec hpar (j := none) trivial (hq.symm.trans e.symm)))]
      simp [he]
  · show (if lower (finalPt s.p p) = ROOT then s.terms ++ [s.next] else s.terms) = _
    rw [pick_append h.count, hl, h.terms]
    by_cases he : finalPt s.p p = ROOT
    · rw [if_pos he, if_pos (by simp [he]; rfl)]
    · rw [if_neg he, if_neg (by simp; exact he)]; simp
  · exact h.sections
  · intro k x hk
    have hxlt := (hp.wf.secsLt _ (Dict.mem_of_get? hk)).1
    rw [addTerm_heap_old hxlt]
    exact h.columns k x hk
  · intro k x hk
    have hk : s.sections.get? k = some x := hk
    have hxlt : x < s.next := (hp.wf.secsLt _ (Dict.mem_of_get? hk)).1
    rw [addTerm_heap_old hxlt, pick_append h.count]
    show (if lower (finalPt s.p p) = ROOT ∧ x = s.p.lastSec then (s.heap x).terms ++ [s.next] else (s.heap x).terms) = _
    rw [h.sectionTerms k x hk, hl]
    have hkx : x = s.p.lastSec ↔ a.cur = k := by
      constructor
      · intro e
        obtain ⟨n1, v1, l1⟩ := h.names _ _ hk
        obtain ⟨n2, v2, l2⟩ := h.names _ _ h.cur
        rw [← e, v1] at v2
        cases v2
        rw [← l1, ← l2]
      · intro e
        have := h.cur
        rw [e, hk] at this; exact Option.some.inj this
    by_cases he : finalPt s.p p = ROOT ∧ x = s.p.lastSec
    · rw [if_pos he, if_pos (by simp only [Bool.and_eq_true, decide_eq_true_eq]; exact ⟨he.1, hkx.1 he.2⟩)]
    · rw [if_neg he, if_neg (by simp only [Bool.and_eq_true, decide_eq_true_eq]; exact fun hc => he ⟨hc.1, hkx.2 hc.2⟩), List.append_nil]

theorem notDeclared {p r : Str} (hp : '.' ∉ p)
    (hr : p ≠ ROOT ∨ r ∉ [py!"section", py!"synonym", py!"declareterm", py!"declaresection", py!"declarevalueset"])
    (hv : p ≠ py!"declarevalueset") : initDeclTerms.get? (dotJoin p r) = none := by
  have hroot : ∀ {b : Str}, b ∈ [py!"section", py!"synonym", py!"declareterm", py!"declaresection", py!"declarevalueset"] →
      dotJoin (py!"root") b ≠ dotJoin p r := by
    intro b hb e
    obtain ⟨e1, e2⟩ := dotJoin_left (a := p) (b := r) (by decide) hp e
    rcases hr with hr | hr
    · exact hr e1.symm
    · exact hr (e2 ▸ hb)
  unfold initDeclTerms
  simp only [Dict.get?_cons, Dict.get?_nil]
  have h0 : py!"root.section" ≠ dotJoin p r := hroot (b := py!"section") (by decide)
  have h1 : py!"root.synonym" ≠ dotJoin p r := hroot (b := py!"synonym") (by decide)
  have h2 : py!"root.declareterm" ≠ dotJoin p r := hroot (b := py!"declareterm") (by decide)
  have h3 : py!"root.declaresection" ≠ dotJoin p r := hroot (b := py!"declaresection") (by decide)
  have h4 : py!"root.declarevalueset" ≠ dotJoin p r := hroot (b := py!"declarevalueset") (by decide)
  rw [if_neg h0, if_neg h1, if_neg h2, if_neg h3, if_neg h4, if_neg]
  intro e
  exact hv (dotJoin_left (p := py!"declarevalueset") (r := py!"value") (by decide) hp e).1.symm

/-- A term that rows cannot refer to: an elided row or an argument cell. -/
theorem sim_child {F : Prop} {s : St} (hp : PInv F s) {a : Reader} {ids : List Nat} (h : Sim s a ids) {o : Obj} (hn : NewTerm o)
    {p r : Str} {par : Option Nat} (hpar : RefOk ids.length par) (hd : initDeclTerms.get? (dotJoin p r) = none)
    (hd2 : lower (finalPt s.p p) = ROOT → initDeclTerms.get? (dotJoin (finalPt s.p p) r) = none)
    (hl : lower (finalPt s.p p) = finalPt s.p p) (hnm : ¬ Named p o.col) :
    Sim (addTerm s o p r (ref s ids par))
      { a with nodes := a.nodes ++ [⟨finalPt s.p p, r, o.value, par, a.cur, a.vname⟩] } (ids ++ [s.next]) := by
  have hh := holds_add hp h hn hpar hd hd2 hl (known := a.known) (last := a.last)
  have hps : (addTerm s o p r (ref s ids par)).p = s.p := addTerm_p_arg hnm
  obtain ⟨q, hq⟩ : ∃ q, q = ref s ids par := ⟨_, rfl⟩
  rw [← hq] at hh hps ⊢
  have href : ∀ i, RefOk ids.length i → ref (addTerm s o p r q) (ids ++ [s.next]) i = ref s ids i := by
    intro i hi; rw [ref_append hi]; cases i <;> rfl
  have hlen : (ids ++ [s.next]).length = ids.length + 1 := by simp
  refine { hh with names := ?_, cur := ?_, cols := ?_, vname := ?_, vnameOk := h.vnameOk, lastName := ?_, lastRef := ?_, known := ?_, nodesOk := ?_, secKnown := ?_, lastOk := ?_, knownOk := ?_, rootKnown := h.rootKnown, plainKnown := h.plainKnown, decl := ?_, decl' := h.decl', declSecs := h.declSecs }
  · intro k x hk
    have hxlt : x < s.next := (hp.wf.secsLt _ (Dict.mem_of_get? hk)).1
    rw [addTerm_heap_old hxlt]; exact h.names k x hk
  · rw [hps]; exact h.cur
  · rw [hps]; exact h.cols
  · rw [hps]; exact h.vname
  · rw [hps]; exact h.lastName
  · rw [hps, href _ h.lastOk]; exact h.lastRef
  · intro k hk
    rw [hps, h.known k hk]
    cases hg : Dict.get? a.known k with
    | none => rfl
    | some i => simp only [Option.map_some]; rw [href _ (h.knownOk k i hg)]
  · intro n hm
    rcases List.mem_append.1 hm with hm | hm
    · exact h.secKnown n hm
    · rw [List.mem_singleton.1 hm]; show (s.sections.get? a.cur).isSome; rw [h.cur]; rfl
  · intro n hm
    rw [hlen]
    rcases List.mem_append.1 hm with hm | hm
    · exact refOk_succ (h.nodesOk n hm)
    · rw [List.mem_singleton.1 hm]; exact refOk_succ hpar
  · rw [hlen]; exact refOk_succ h.lastOk
  · intro k i hk; rw [hlen]; exact refOk_succ (h.knownOk k i hk)
  · rw [hps]; exact h.decl

/-- A term that later rows can refer to. -/
theorem sim_named {F : Prop} {s : St} (hp : PInv F s) {a : Reader} {ids : List Nat} (h : Sim s a ids) {o : Obj} (hn : NewTerm o)
    {p r : Str} {par : Option Nat} (hpar : RefOk ids.length par) (hd : initDeclTerms.get? (dotJoin p r) = none)
    (hd2 : lower (finalPt s.p p) = ROOT → initDeclTerms.get? (dotJoin (finalPt s.p p) r) = none)
    (hl : lower (finalPt s.p p) = finalPt s.p p) (hnm : Named p o.col) (hr : r ≠ ROOT) (hv : r ≠ py!"declarevalueset") :
    Sim (addTerm s o p r (ref s ids par))
      { a with nodes := a.nodes ++ [⟨finalPt s.p p, r, o.value, par, a.cur, a.vname⟩]
               known := (r, some a.nodes.length) :: a.known, last := (r, some a.nodes.length) } (ids ++ [s.next]) := by
  have hh := holds_add hp h hn hpar hd hd2 hl (known := (r, some a.nodes.length) :: a.known) (last := (r, some a.nodes.length))
  have hps : (addTerm s o p r (ref s ids par)).p = { s.p with lastParent := r, lastMap := (s.p.lastMap.set ELIDED s.next).set r s.next } := by
    show nextP .. = _
    unfold nextP; rw [if_pos hnm]
  obtain ⟨q, hq⟩ : ∃ q, q = ref s ids par := ⟨_, rfl⟩
  rw [← hq] at hh hps ⊢
  have href : ∀ i, RefOk ids.length i → ref (addTerm s o p r q) (ids ++ [s.next]) i = ref s ids i := by
    intro i hi; rw [ref_append hi]; cases i <;> rfl
  have hnew : ref (addTerm s o p r q) (ids ++ [s.next]) (some a.nodes.length) = s.next := by
    unfold ref; simp [← h.count]
  have hlen : (ids ++ [s.next]).length = ids.length + 1 := by simp
  have hok : RefOk (ids ++ [s.next]).length (some a.nodes.length) := by
    rw [hlen, ← h.count]; exact Nat.lt_succ_self _
  refine { hh with names := ?_, cur := ?_, cols := ?_, vname := ?_, vnameOk := h.vnameOk, lastName := ?_, lastRef := ?_, known := ?_, nodesOk := ?_, secKnown := ?_, lastOk := hok, knownOk := ?_, rootKnown := ?_, plainKnown := ?_, decl := ?_, decl' := h.decl', declSecs := h.declSecs }
  · intro k x hk
    have hxlt : x < s.next := (hp.wf.secsLt _ (Dict.mem_of_get? hk)).1
    rw [addTerm_heap_old hxlt]; exact h.names k x hk
  · rw [hps]; exact h.cur
  · rw [hps]; exact h.cols
  · rw [hps]; exact h.vname
  · rw [hps]
  · rw [hps, hnew]; show Dict.get? (Dict.set _ _ _) _ = _; rw [Dict.get?_set, if_pos rfl]
  · intro k hk
    rw [hps]
    show Dict.get? (Dict.set (Dict.set _ _ _) _ _) _ = _
    rw [Dict.get?_set, Dict.get?_set, Dict.get?_cons]
    by_cases hrk : r = k
    · rw [if_pos hrk, if_pos hrk, Option.map_some, hnew]
    · rw [if_neg hrk, if_neg hrk, if_neg (Ne.symm hk), h.known k hk]
      cases hg : Dict.get? a.known k with
      | none => rfl
      | some i => simp only [Option.map_some]; rw [href _ (h.knownOk k i hg)]
  · intro n hm
    rcases List.mem_append.1 hm with hm | hm
    · exact h.secKnown n hm
    · rw [List.mem_singleton.1 hm]; show (s.sections.get? a.cur).isSome; rw [h.cur]; rfl
  · intro n hm
    rw [hlen]
    rcases List.mem_append.1 hm with hm | hm
    · exact refOk_succ (h.nodesOk n hm)
    · rw [List.mem_singleton.1 hm]; exact refOk_succ hpar
  · intro k i hk
    rw [Dict.get?_cons] at hk
    split at hk
    · cases hk; exact hok
    · rw [hlen]; exact refOk_succ (h.knownOk k i hk)
  · rw [Dict.get?_cons, if_neg hr]; exact h.rootKnown
  · rw [Dict.get?_cons, if_neg hv]; exact h.plainKnown
  · rw [hps]; exact h.decl

theorem mungeParamMap_get (cols : List Str) (k : Nat) :
    (mungeParamMap cols)[k]? = cols[k]?.map fun c => if c = [] then natStr k else lower c := by
  unfold mungeParamMap
  rw [List.getElem?_map, List.getElem?_zipIdx]
  cases cols[k]? <;> simp

theorem remap_colName (cols : List Str) (k : Nat) : remapRecord (mungeParamMap cols) (natStr k) = colName cols k := by
  unfold remapRecord colName
  rw [pyInt_natStr]
  simp only
  have : pyIndex (mungeParamMap cols) (k : Int) = (mungeParamMap cols)[k]? := by
    unfold pyIndex; simp
  rw [this, mungeParamMap_get]
  cases cols[k]? <;> rfl

theorem cellValue_mk (c : Str) : (Val.str c).mk = cellValue c := by
  unfold Val.mk Val.truthy cellValue
  cases c <;> rfl

/-- The argument cells of a term. -/
theorem sim_args {F : Prop} {t : Nat} {R : Str} (hg : PlainName R) (hv : R ≠ py!"declarevalueset") : ∀ {vs : List Str} {k : Nat} {s : St}
    {a : Reader} {ids : List Nat}, PInv F s → Sim s a ids → t < s.next → (s.heap t).rt = R →
    (∀ v ∈ vs, strip v = v) → ∃ ids', Sim (argsEffect t k vs s) (Reader.addArgs R k vs a) ids'
  | [], _, s, a, ids, _, h, _, _, _ => ⟨ids, h⟩
  | v :: vs, k, s, a, ids, hp, h, ht, hR, hst => by
    obtain ⟨i1, i2, i3⟩ := argEffect_inv (k := k) (v := v) hp ht (by rw [hR]; exact hg)
    have hs := hst v List.mem_cons_self
    have key : ∃ ids', Sim (argEffect t k v s) (if strip v = [] then a
       else { a with nodes := a.nodes ++ [⟨R, colName a.cols k, .str (strip v), a.last.2, a.cur, a.vname⟩] }) ids' := by
      unfold argEffect
      by_cases hb : strip v = []
      · rw [if_pos hb, if_pos hb]; exact ⟨ids, h⟩
      · rw [if_neg hb, if_neg hb, hR]
        obtain ⟨hcls, hca⟩ := canAdd_arg (k := k) (v := v) hp hR hg
        have hne : R ≠ ELIDED := fun e => hg.plain (by rw [e]; decide)
        have hfp : finalPt s.p R = R := if_neg hne
        have hroot : R ≠ ROOT := fun e => hg.plain (by rw [e]; decide)
        have hlast : lastTerm s = ref s ids a.last.2 := by
          unfold lastTerm; rw [h.lastName, h.lastRef]; rfl
        have hnew : NewTerm (argCell s t k v) := by unfold argCell; rw [hR]; exact newTerm_argObj hcls _ _ _ _
        have hnn : ¬ Named R (argCell s t k v).col := by
          intro hn; have := hn.2; simp [argCell, argObj] at this
        have := sim_child hp h (p := R) (r := colName a.cols k) hnew h.lastOk
          (notDeclared hg.nodot (.inl hroot) hv) (fun _ => by rw [hfp]; exact notDeclared hg.nodot (.inl hroot) hv) (by rw [hfp]; exact hg.low) hnn
        rw [hfp, show (argCell s t k v).value = .str (strip v) by
          unfold argCell argObj
          simp only
          rw [cellValue_mk]; unfold cellValue; rw [if_neg (by intro e; rw [e] at hb; exact hb rfl)]] at this
        rw [hlast, h.cols, remap_colName]
        exact ⟨_, this⟩
    obtain ⟨ids', h'⟩ := key
    obtain ⟨ids'', h''⟩ := sim_args hg hv (vs := vs) (k := k + 1) i1 h' i2 (i3.trans hR) fun v hv => hst v (List.mem_cons_of_mem _ hv)
    exact ⟨ids'', h''⟩

theorem addArgs_strip (R : Str) : ∀ (vs : List Str) (k : Nat) (a : Reader),
    Reader.addArgs R k (vs.map strip) a = Reader.addArgs R k vs a
  | [], _, _ => rfl
  | v :: vs, k, a => by
    rw [List.map_cons, Reader.addArgs, Reader.addArgs, addArgs_strip R vs, strip_strip]

/-- Terms are untouched. -/
structure Keep (s s' : St) : Prop extends Later s s' where
  terms' : s'.terms = s.terms
  children' : ∀ j, j < s.next → (s'.heap j).children = (s.heap j).children
  secTerms' : ∀ j, j < s.next → (s'.heap j).terms = (s.heap j).terms

theorem Keep.ref {s s' : St} (k : Keep s s') (ids : List Nat) (i : Option Nat) : ref s' ids i = ref s ids i := by
  cases i with
  | none => exact k.root
  | some i => show ids.getD i s'.root = ids.getD i s.root; rw [k.root]

theorem holds_keep {s s' : St} {a a' : Reader} {ids : List Nat} (k : Keep s s') (h : Holds s a ids) (hr : s.root < s.next)
    (hn : a'.nodes = a.nodes) (hsec : ∀ n ∈ a.nodes, s'.sections.get? n.sec = s.sections.get? n.sec)
    (h1 : s'.sections.keys = a'.secs.keys)
    (h2 : ∀ k x, s'.sections.get? k = some x → ∃ n, (s'.heap x).value = .str n ∧ a'.secs.get? k = some (n, (s'.heap x).args))
    (h3 : ∀ k x, s'.sections.get? k = some x → (s'.heap x).terms = pick a'.nodes ids fun n => n.pt = py!"root" && n.sec = k) :
    Holds s' a' ids := by
  refine ⟨by rw [hn]; exact h.count, h.distinct, ?_, ?_, ?_, ?_, ?_, h1, h2, h3⟩
  · intro t ht
    obtain ⟨e1, e2⟩ := h.exist t ht
    exact ⟨Nat.lt_of_lt_of_le e1 k.next, by rw [k.cls t e1]; exact e2⟩
  · intro n t hm
    rw [hn] at hm
    obtain ⟨a1, a2, a3, a4, a5, a6, a7⟩ := h.term n t hm
    obtain ⟨e1, e2⟩ := h.exist t (zip_mem_right hm)
    obtain ⟨b1, b2, b3, b4, b5, b6, b7⟩ := k.obj t e1
    refine ⟨b1.trans a1, b2.trans a2, b3.trans a3, b6.trans a4, b7.trans a5, ?_, ?_⟩
    · rw [b4, a6, k.ref]
    · rw [k.sec t e1 e2, a7, hsec n (List.of_mem_zip hm).1]
  · intro i hi
    rw [hn, k.ref, k.children' _ (h.ref_lt hr (i := some i) hi)]; exact h.children i hi
  · rw [hn, k.root, k.children' _ hr]; exact h.rootChildren
  · rw [hn, k.terms']; exact h.terms

theorem keep_section {G F : Prop} {s : St} (h : PInvG G F s) {c : Str} {rest : List Str} (hc : PlainSec c rest) : Keep s (sectionEffect rest s) := by
  refine { toLater := later_sectionEffect h hc, terms' := rfl, children' := ?_, secTerms' := ?_ }
  all_goals
    intro j hj
    rw [sectionEffect_heap]; simp only [if_neg (Nat.ne_of_lt hj)]

/-- What is left to show when a row only changes the current section or the columns. -/
theorem sim_keep {s s' : St} {a a' : Reader} {ids : List Nat} (k : Keep s s') (h : Sim s a ids) (hh : Holds s' a' ids)
    (hn : a'.nodes = a.nodes) (hkn : a'.known = a.known) (hlm : s'.p.lastMap = s.p.lastMap)
    (hd : s'.p.declTerms = s.p.declTerms) (hd' : s'.declTerms = s.declTerms) (hds : s'.declSecs = s.declSecs)
    (hsec : ∀ n ∈ a.nodes, s'.sections.get? n.sec = s.sections.get? n.sec)
    (names : ∀ k x, s'.sections.get? k = some x → ∃ n, (s'.heap x).value = .str n ∧ lower n = k)
    (cur : s'.sections.get? a'.cur = some s'.p.lastSec) (cols : s'.p.paramMap = mungeParamMap a'.cols)
    (vname : s'.p.defTvn = a'.vname) (vnameOk : a'.vname ≠ []) (lastName : s'.p.lastParent = a'.last.1)
    (lastRef : s'.p.lastMap.get? a'.last.1 = some (ref s' ids a'.last.2)) (lastOk : RefOk ids.length a'.last.2) : Sim s' a' ids := by
  refine { hh with names, cur, cols, vname, vnameOk, lastName, lastRef, known := ?_, secKnown := ?_, nodesOk := ?_, lastOk, knownOk := ?_, rootKnown := ?_, plainKnown := ?_, decl := ?_, decl' := ?_, declSecs := ?_ }
  · intro x hx
    rw [hlm, h.known x hx, hkn]
    cases Dict.get? a.known x with
    | none => rfl
    | some i => simp only [Option.map_some]; rw [k.ref]
  · intro n hm; rw [hn] at hm; rw [hsec n hm]; exact h.secKnown n hm
  · rw [hn]; exact h.nodesOk
  · rw [hkn]; exact h.knownOk
  · rw [hkn]; exact h.rootKnown
  · rw [hkn]; exact h.plainKnown
  · rw [hd]; exact h.decl
  · rw [hd']; exact h.decl'
  · rw [hds]; exact h.declSecs

theorem keep_header {s : St} {c : Cls} {rest : List Str} : Keep s (headerEffect c rest s) := by
  refine { toLater := later_headerEffect, terms' := rfl, children' := ?_, secTerms' := ?_ }
  all_goals
    intro j hj
    unfold headerEffect; simp only [if_neg (Nat.ne_of_lt hj)]
    split <;> rfl

theorem sim_header {F : Prop} {s : St} (hp : PInv F s) {a : Reader} {ids : List Nat} (h : Sim s a ids) {c : Cls} {rest : List Str}
    (hne : strip (rest.headD []) ≠ []) :
    Sim (headerEffect c rest s) { a with cols := (rest.drop 1).map strip, vname := lower (strip (rest.headD [])) } ids := by
  have k : Keep s (headerEffect c rest s) := keep_header
  have old : ∀ k x, s.sections.get? k = some x → x < s.next := fun k x hk => (hp.wf.secsLt _ (Dict.mem_of_get? hk)).1
  have hh : Holds (headerEffect c rest s) { a with cols := (rest.drop 1).map strip, vname := lower (strip (rest.headD [])) } ids := by
    refine holds_keep k h.toHolds hp.wf.rootLt rfl (fun _ _ => rfl) h.sections ?_ ?_
    · intro x y hxy
      obtain ⟨-, -, a3, -, a5, -, -⟩ := k.obj y (old x y hxy)
      rw [a3, a5]; exact h.columns x y hxy
    · intro x y hxy
      rw [k.secTerms' y (old x y hxy)]; exact h.sectionTerms x y hxy
  refine sim_keep k h hh rfl rfl rfl rfl rfl rfl (fun _ _ => rfl) ?_ h.cur rfl rfl (fun e => hne (lower_eq_nil.1 e)) h.lastName ?_ h.lastOk
  · intro x y hxy
    obtain ⟨-, -, a3, -, a5, -, -⟩ := k.obj y (old x y hxy)
    rw [a3]; exact h.names x y hxy
  · show s.p.lastMap.get? a.last.1 = some (ref _ ids a.last.2)
    rw [k.ref]; exact h.lastRef

theorem sim_section {F : Prop} {s : St} (hp : PInv F s) {a : Reader} {ids : List Nat} (h : Sim s a ids) {c : Str} {rest : List Str}
    (hc : PlainSec c rest) (hk : kind (c :: rest) = .section (strip (rest.headD [])) ((rest.drop 1).map strip)) :
    Sim (sectionEffect rest s) (a.row (c :: rest)) ids := by
  have k : Keep s (sectionEffect rest s) := keep_section hp hc
  have old : ∀ k x, s.sections.get? k = some x → x < s.next := fun k x hk => (hp.wf.secsLt _ (Dict.mem_of_get? hk)).1
  have hhas : a.secs.get? (lower (strip (rest.headD []))) = none ↔ s.sections.get? (lower (strip (rest.headD []))) = none := by
    rw [Dict.get?_eq_none, Dict.get?_eq_none, h.sections]
  have hcols : secColumns s rest = rest.drop 1 := by
    unfold secColumns
    split
    · rfl
    · next e =>
      cases hg : s.declSecs.get? (lower (rest.headD [])) with
      | none => simpa using e
      | some d => dsimp only; rw [h.declSecs _ _ hg]; simpa using e
  have hroot : s.p.lastMap.get? ROOT = some (ref (sectionEffect rest s) ids none) := hp.rootKey
  unfold Reader.row
  rw [hk]
  dsimp only
  obtain ⟨N, hN⟩ : ∃ N, N = strip (rest.headD []) := ⟨_, rfl⟩
  cases hg : s.sections.get? (lower N) with
  | some y =>
    have hylt := old _ _ hg
    obtain ⟨n, hn1, hn2⟩ := h.columns _ _ hg
    have hx : secOf s rest = y := by unfold secOf; rw [← hN, hg]; rfl
    have hsec : (sectionEffect rest s).sections = s.sections := by
      show (if _ then _ else _) = _
      rw [if_pos]; rw [Dict.has, ← hN, hg]; rfl
    rw [← hN, hn2]
    dsimp only
    refine sim_keep k h ?_ rfl rfl rfl rfl rfl rfl (fun _ _ => by rw [hsec]) ?_ ?_ ?_ rfl (show (py!"@value") ≠ [] by decide) rfl ?_ trivial
    · refine holds_keep k h.toHolds hp.wf.rootLt rfl (fun _ _ => by rw [hsec]) (by rw [hsec]; exact h.sections) ?_ ?_
      · intro x y hxy
        rw [hsec] at hxy
        obtain ⟨-, -, a3, -, a5, -, -⟩ := k.obj y (old x y hxy)
        rw [a3, a5]; exact h.columns x y hxy
      · intro x y hxy
        rw [hsec] at hxy
        rw [k.secTerms' y (old x y hxy)]; exact h.sectionTerms x y hxy
    · intro x y hxy
      rw [hsec] at hxy
      obtain ⟨-, -, a3, -, a5, -, -⟩ := k.obj y (old x y hxy)
      rw [a3]; exact h.names x y hxy
    · rw [hsec]; show s.sections.get? (lower N) = some (secOf s rest); rw [hx, hg]
    · show mungeParamMap (if secOf s rest = s.next then secObj s rest else s.heap (secOf s rest)).args = _
      rw [hx, if_neg (Nat.ne_of_lt hylt)]
    · exact hroot
  | none =>
    have hx : secOf s rest = s.next := by unfold secOf; rw [← hN, hg]; rfl
    have hsec : (sectionEffect rest s).sections = s.sections.set (lower N) s.next := by
      show (if _ then _ else _) = _
      rw [if_neg, hN]; rw [Dict.has, ← hN, hg]; decide
    have hnone : a.secs.get? (lower N) = none := by rw [hN]; rw [hN] at hg; exact hhas.2 hg
    have hget : ∀ x y, (sectionEffect rest s).sections.get? x = some y → (x = lower N ∧ y = s.next) ∨ (x ≠ lower N ∧ s.sections.get? x = some y) := by
      intro x y hxy
      rw [hsec, Dict.get?_set] at hxy
      split at hxy
      · next e => cases hxy; exact .inl ⟨e.symm, rfl⟩
      · next e => exact .inr ⟨fun e' => e e'.symm, hxy⟩
    have hnew : (sectionEffect rest s).heap s.next = { secObj s rest with sec := none } := by
      rw [sectionEffect_heap, hx]; simp only [if_true]
    have hnodes : ∀ n ∈ a.nodes, n.sec ≠ lower N := by
      intro n hn e
      have := h.secKnown n hn
      rw [e, hg] at this; cases this
    have hsn : ∀ n ∈ a.nodes, (sectionEffect rest s).sections.get? n.sec = s.sections.get? n.sec := by
      intro n hn
      rw [hsec, Dict.get?_set, if_neg (fun e => hnodes n hn e.symm)]
    rw [← hN, hnone]
    dsimp only
    have happ : ∀ v, a.secs ++ [(lower N, v)] = a.secs.set (lower N) v := fun v => (Dict.set_append (Dict.get?_eq_none.1 hnone) v).symm
    refine sim_keep k h ?_ rfl rfl rfl rfl rfl rfl hsn ?_ ?_ ?_ rfl (show (py!"@value") ≠ [] by decide) rfl ?_ trivial
    · refine holds_keep k h.toHolds hp.wf.rootLt rfl hsn ?_ ?_ ?_
      · show Dict.keys _ = Dict.keys (a.secs ++ _)
        rw [hsec, Dict.set_append (Dict.get?_eq_none.1 hg)]
        show List.map _ _ = List.map _ _
        rw [List.map_append, List.map_append]
        exact congrArg (· ++ _) h.sections
      · intro x y hxy
        show ∃ n, _ ∧ Dict.get? (a.secs ++ _) x = _
        rw [happ, Dict.get?_set]
        rcases hget x y hxy with ⟨rfl, rfl⟩ | ⟨e, hxy⟩
        · rw [hnew, if_pos rfl]
          refine ⟨N, by rw [hN]; rfl, ?_⟩
          show _ = some (N, (secColumns s rest).map strip)
          rw [hcols]
        · obtain ⟨-, -, a3, -, a5, -, -⟩ := k.obj y (old x y hxy)
          rw [a3, a5, if_neg (Ne.symm e)]; exact h.columns x y hxy
      · intro x y hxy
        rcases hget x y hxy with ⟨rfl, rfl⟩ | ⟨e, hxy⟩
        · rw [hnew]
          show [] = _
          symm
          unfold pick
          rw [List.map_eq_nil_iff, List.filter_eq_nil_iff]
          intro nt hm he
          simp only [Bool.and_eq_true, decide_eq_true_eq] at he
          exact hnodes nt.1 (List.of_mem_zip (show (nt.1, nt.2) ∈ _ from hm)).1 he.2
        · rw [k.secTerms' y (old x y hxy)]; exact h.sectionTerms x y hxy
    · intro x y hxy
      rcases hget x y hxy with ⟨rfl, rfl⟩ | ⟨e, hxy⟩
      · rw [hnew]; exact ⟨N, by rw [hN]; rfl, rfl⟩
      · obtain ⟨-, -, a3, -, a5, -, -⟩ := k.obj y (old x y hxy)
        rw [a3]; exact h.names x y hxy
    · rw [hsec, Dict.get?_set, if_pos rfl]; show _ = some (secOf s rest); rw [hx]
    · show mungeParamMap (if secOf s rest = s.next then secObj s rest else s.heap (secOf s rest)).args = _
      rw [hx, if_pos rfl]
      show mungeParamMap ((secColumns s rest).map strip) = _
      rw [hcols]
    · exact hroot

theorem sim_start (env : Env) (classes : Dict Cls) : Sim (newDoc env classes) Reader.start [] := by
  have hs : ∀ {k : Str} {x : Nat}, (newDoc env classes).sections.get? k = some x → k = py!"root" ∧ x = 0 := by
    intro k x h
    show _ ∧ _
    have h : Dict.get? [(py!"root", 0)] k = some x := h
    rw [Dict.get?_cons] at h
    split at h
    · next e => cases h; exact ⟨e.symm, rfl⟩
    · cases h
  refine { count := rfl, distinct := List.Pairwise.nil, exist := by simp, term := ?_, children := by intro i hi; exact absurd hi (Nat.not_lt_zero _), rootChildren := rfl, terms := rfl, sections := rfl, columns := ?_, sectionTerms := ?_, names := ?_, cur := rfl, cols := rfl, vname := rfl, vnameOk := by decide, lastName := rfl, lastRef := rfl, known := ?_, secKnown := by simp [Reader.start], nodesOk := by simp [Reader.start], lastOk := trivial, knownOk := ?_, rootKnown := rfl, plainKnown := rfl, decl := rfl, decl' := .inl rfl, declSecs := by intro k d h; cases h }
  · intro n t h; cases h
  · intro k x h
    obtain ⟨rfl, rfl⟩ := hs h
    exact ⟨_, rfl, rfl⟩
  · intro k x h
    obtain ⟨rfl, rfl⟩ := hs h
    rfl
  · intro k x h
    obtain ⟨rfl, rfl⟩ := hs h
    exact ⟨_, rfl, rfl⟩
  · intro k hk
    show Dict.get? [(py!"<elided_term>", 0), (py!"root", 0)] k = Option.map _ (Dict.get? [(py!"root", none)] k)
    simp only [Dict.get?_cons, Dict.get?_nil]
    have : py!"<elided_term>" ≠ k := Ne.symm hk
    rw [if_neg this]
    split <;> rfl
  · intro k i h
    have h : Dict.get? [(py!"root", none)] k = some i := h
    rw [Dict.get?_cons] at h
    split at h
    · cases h; trivial
    · cases h

theorem kind_ordinary {row : List Str} {r : Str} (h : kind row = .elided r ∨ ∃ p, kind row = .named p r) : ordinary r = true := by
  unfold kind at h
  split at h
  · rcases h with h | ⟨p, h⟩ <;> cases h
  · split at h
    · rcases h with h | ⟨p, h⟩ <;> cases h
    · split at h
      · rcases h with h | ⟨p, h⟩ <;> cases h
      · split at h
        · split at h <;> rcases h with h | ⟨p, h⟩ <;> cases h
        · split at h
          · split at h <;> rcases h with h | ⟨p, h⟩ <;> cases h
          · split at h
            · next ho =>
              split at h <;> rcases h with h | ⟨p, h⟩ <;> cases h <;> exact ho.1
            · rcases h with h | ⟨p, h⟩ <;> cases h

theorem ordinary_ne {r : Str} (h : ordinary r = true) :
    r ∉ [py!"section", py!"synonym", py!"declareterm", py!"declaresection", py!"declarevalueset"] := by
  intro hm
  simp only [List.mem_cons, List.not_mem_nil, or_false] at hm
  rcases hm with rfl | rfl | rfl | rfl | rfl <;> exact absurd h (by decide)

theorem ordinary_root {r : Str} (h : ordinary r = true) : r ≠ ROOT := by
  rintro rfl; exact absurd h (by decide)

theorem ordinary_vs {r : Str} (h : ordinary r = true) : r ≠ py!"declarevalueset" := by
  rintro rfl; exact absurd h (by decide)

theorem rowObj_value (c : Cls) (p r : Str) (c0 : Str) (rest : List Str) : (rowObj c p r rest).value = cellValue ((c0 :: rest).getD 1 []) := by
  show (Val.str (rest.headD [])).mk = _
  rw [cellValue_mk]
  cases rest <;> rfl

/-- The reader follows every ordinary row. -/
theorem sim_row {F : Prop} {s s' : St} (hp : PInv F s) {a : Reader} {ids : List Nat} (h : Sim s a ids) {row : List Str}
    (hr : PlainRow s row s') (hk : kind row ≠ .special) : ∃ ids', Sim s' (a.row row) ids' := by
  rcases hr.by_kind with ⟨k, rfl⟩ | ⟨c, rest, rfl, hc, k, rfl⟩ | ⟨c, rest, rfl, hc, k, rfl⟩ | ⟨c, x, rest, rfl, hc, k, rfl⟩ |
    ⟨c, p, r, rest, rfl, hc, he, k, rfl⟩ | k
  · refine ⟨ids, ?_⟩; unfold Reader.row; rw [k]; exact h
  · exact ⟨ids, sim_section hp h hc k⟩
  · refine ⟨ids, ?_⟩
    unfold Reader.row; rw [k]
    exact sim_header hp h (kind_header_ne k)
  · have ho := kind_ordinary (.inl k)
    unfold Reader.row; rw [k]
    dsimp only
    have hq : parentOf s ELIDED = ref s ids a.last.2 := by
      unfold parentOf lastTerm; rw [if_pos rfl, h.lastName, h.lastRef]; rfl
    have hfp : finalPt s.p ELIDED = a.last.1 := by
      unfold finalPt; rw [if_pos rfl]; exact h.lastName
    have h1 := sim_child hp h (p := ELIDED) (r := x) (o := rowObj (parserTermClass s (dotJoin ELIDED x)) ELIDED x rest)
      (newTerm_rowObj (canAdd_row hp hc rest).1 _ _ _) h.lastOk (notDeclared (by decide) (.inl (by decide)) (by decide))
      (fun hr => by
        have e : finalPt s.p ELIDED = ROOT := by rw [hfp, ← h.lastName] at hr ⊢; rw [← hp.name.low]; exact hr
        rw [e]; exact notDeclared (by decide) (.inr (ordinary_ne ho)) (by decide))
      (by rw [hfp, ← h.lastName]; exact hp.name.low) (fun hn => hn.1 rfl)
    rw [hfp, rowObj_value _ _ _ c] at h1
    unfold termEffect
    have i1 := addTerm_row_inv hp hc rest
    rw [hq] at i1 ⊢
    obtain ⟨ids', h2⟩ := sim_args (t := s.next) (k := 0) (vs := (rest.drop 1).map strip) hc.name (ordinary_vs ho) i1 h1 (Nat.lt_succ_self _)
      (by rw [addTerm_heap_new, finalObj_rt]) (by intro v hv; obtain ⟨w, -, rfl⟩ := List.mem_map.1 hv; exact strip_strip w)
    rw [addArgs_strip] at h2
    exact ⟨ids', h2⟩
  · have ho := kind_ordinary (.inr ⟨p, k⟩)
    unfold Reader.row; rw [k]
    dsimp only
    obtain ⟨hkn, hpv⟩ : (∃ i, Dict.get? a.known p = some i) ∧ p ≠ py!"declarevalueset" := by
      have := h.known p he
      rcases hc.known with e | e
      · exact absurd e he
      · rw [this] at e
        cases hg : Dict.get? a.known p with
        | none => rw [hg] at e; cases e
        | some i =>
          refine ⟨⟨i, rfl⟩, ?_⟩
          rintro rfl
          rw [h.plainKnown] at hg; cases hg
    obtain ⟨i, hi⟩ := hkn
    obtain ⟨c1, -, -, c3, -, c5, -⟩ := splitTermLower_cases hc.split
    have hq : parentOf s p = ref s ids i := by
      unfold parentOf; rw [if_neg he, h.known p he, hi]; rfl
    have hfp : finalPt s.p p = p := if_neg he
    have h1 := sim_named hp h (p := p) (r := r) (o := rowObj (parserTermClass s (dotJoin p r)) p r rest)
      (newTerm_rowObj (canAdd_row hp hc rest).1 _ _ _) (h.knownOk p i hi) (notDeclared c3 (.inr (ordinary_ne ho)) hpv)
      (fun _ => by rw [hfp]; exact notDeclared c3 (.inr (ordinary_ne ho)) hpv) (by rw [hfp]; exact c5) ⟨he, Nat.le_refl 1⟩ (ordinary_root ho) (ordinary_vs ho)
    rw [hfp, rowObj_value _ _ _ c] at h1
    unfold termEffect
    have i1 := addTerm_row_inv hp hc rest
    rw [hq] at i1 ⊢
    rw [hi]
    obtain ⟨ids', h2⟩ := sim_args (t := s.next) (k := 0) (vs := (rest.drop 1).map strip) hc.name (ordinary_vs ho) i1 h1 (Nat.lt_succ_self _)
      (by rw [addTerm_heap_new, finalObj_rt]) (by intro v hv; obtain ⟨w, -, rfl⟩ := List.mem_map.1 hv; exact strip_strip w)
    rw [addArgs_strip] at h2
    exact ⟨ids', h2⟩
  · exact absurd k hk

theorem plainFrom_head {known : List Str} {row : List Str} {rows : List (List Str)} (h : plainFrom known (row :: rows) = true) :
    kind row ≠ .special ∧ ∃ known', plainFrom known' rows = true := by
  unfold plainFrom at h
  cases hk : kind row <;> rw [hk] at h <;> simp only [Bool.and_eq_true] at h
  case special => cases h
  case named => exact ⟨by simp, _, h.2⟩
  all_goals exact ⟨by simp, _, h⟩

theorem sim_rows {F : Prop} {rows : List (List Str)} : ∀ {s s' : St} {a : Reader} {ids : List Nat} {known : List Str}, PInv F s → Sim s a ids →
    PlainRows s rows s' → plainFrom known rows = true → ∃ ids', Sim s' (rows.foldl Reader.row a) ids' := by
  induction rows with
  | nil => intro s s' a ids known _ h hr _; cases hr; exact ⟨ids, h⟩
  | cons row rows ih =>
    intro s s' a ids known hp h hr hk
    cases hr with
    | cons hr ht =>
      obtain ⟨k1, known', k2⟩ := plainFrom_head hk
      obtain ⟨ids', h'⟩ := sim_row hp h hr k1
      exact ih (hr.inv hp) h' ht k2

theorem holds_finish {s : St} {a : Reader} {ids : List Nat} (h : Holds s a ids) : Holds (after finishLoad s) a ids :=
  { count := h.count, distinct := h.distinct, exist := h.exist, term := h.term, children := h.children, rootChildren := h.rootChildren,
    terms := h.terms, sections := h.sections, columns := h.columns, sectionTerms := h.sectionTerms }

end Metatab
