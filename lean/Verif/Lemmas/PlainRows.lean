import Verif.Lemmas.Plain
import Verif.Lemmas.Rows
import Verif.Lemmas.Num
import Verif.Lemmas.StepsParse
import Verif.Props.Names
/-! What reading one row does to the state. -/
namespace Metatab
open Py

/-- Add a new object `o` with names `p`, `r` below `q`. -/
def addTerm (s : St) (o : Obj) (p r : Str) (q : Nat) : St :=
  { s with
    next := s.next + 1
    heap := fun j => if j = s.next then finalObj s o p r q else
      { s.heap j with children := if j = q then (s.heap j).children ++ [s.next] else (s.heap j).children
                      terms := if lower (finalPt s.p p) = ROOT ∧ j = s.p.lastSec then (s.heap j).terms ++ [s.next] else (s.heap j).terms }
    terms := if lower (finalPt s.p p) = ROOT then s.terms ++ [s.next] else s.terms
    p := nextP s.p p r o.col s.next }

/-- A term object as the parser builds it. -/
structure NewTerm (o : Obj) : Prop where
  children : o.children = []
  terms : o.terms = []
  sec : o.sec = none
  tvn : o.tvn = py!"@value"
  doc : o.isDecl = false
  cls : o.cls.isSection = false

/-- No value name in use is one of the reserved words. -/
structure TvnOk (s : St) : Prop where
  parser : ∀ n, lower (declProp s.p.declTerms n (py!"termvaluename") s.p.defTvn) ∉ reservedTvn
  doc : ∀ n x, lower (declProp s.declTerms n (py!"termvaluename") (s.heap x).defTvn) ∉ reservedTvn

/-- The new object can be read as a value-bearing term with names `p`, `r` below `q`. -/
structure CanAdd (s : St) (o : Obj) (p r : Str) (q : Nat) : Prop where
  new : NewTerm o
  names : ∃ r₀, substSynonym s.p.declTerms o.pt o.rt = .ok (p, r₀) ∧ r = remapRecord s.p.paramMap r₀
  value : ValueName p r
  found : (nextP s.p p r o.col s.next).lastMap.get? (parentKey s.p p o.col) = some q
  old : q < s.next
  final : dotJoin (lower (finalPt s.p p)) (lower r) ≠ py!"datafile.section" ∧
    dotJoin (lower (finalPt s.p p)) (lower r) ≠ py!"root.root" ∧ dotJoin (lower (finalPt s.p p)) (lower r) ≠ py!"root.section"

theorem finalObj_tvn {s : St} (ht : TvnOk s) (o : Obj) (p r : Str) (q : Nat) : lower (finalObj s o p r q).tvn ∉ reservedTvn := by
  unfold finalObj; dsimp only
  split
  · unfold finish; dsimp only
    split
    · exact ht.doc _ _
    · exact ht.parser _
  · exact ht.parser _

/-- Reading a newly built term. -/
theorem consume_new {F : Prop} {load : Bool} {s : St} {o : Obj} {p r : Str} {q : Nat} (w : WF F s) (ht : TvnOk s)
    (h : CanAdd s o p r q) :
    consume load s.next ({ s with next := s.next + 1 }.setObj s.next o) = .ok () (addTerm s o p r q) := by
  obtain ⟨r₀, hsyn, hr⟩ := h.names
  set s1 : St := { s with next := s.next + 1 }.setObj s.next o with hs1
  have h1 : s1.heap s.next = o := heap_setObj_self _ _ _
  have hlt := w.pSec.1
  have hx : s1.heap s.p.lastSec = s.heap s.p.lastSec := by
    rw [hs1, heap_setObj, if_neg (Nat.ne_of_lt hlt)]
  have hfo : finalObj s1 (s1.heap s.next) p r q = finalObj s o p r q := by
    rw [h1]; unfold finalObj finish
    rw [show s1.p = s.p from rfl, hx]; rfl
  have hfresh : FreshTerm s1 s.next := by
    refine ⟨by rw [h1]; exact h.new.children, ?_, ?_, ?_, by rw [h1]; exact h.new.sec, by rw [h1]; exact h.new.tvn,
      by rw [h1]; exact h.new.doc, by rw [h1]; exact h.new.cls⟩
    · intro hm; exact absurd (w.termsLt _ hm).1 (Nat.lt_irrefl _)
    · show s.next ∉ (s1.heap s.p.lastSec).terms
      rw [hx]; intro hm; exact absurd (w.secTermsLt _ _ hm) (Nat.lt_irrefl _)
    · exact Nat.ne_of_gt hlt
  rw [consume_run (s := s1) (t := s.next) (q := q) (p := p) (r₀ := r₀) hfresh (by rw [h1]; exact hsyn)]
  · rw [show s1.p = s.p from rfl, ← hr, hfo, h1]
    refine congrArg (Res.ok ()) ?_
    unfold place addTerm
    rw [finalObj_pt]
    refine St.ext rfl (funext fun j => ?_) rfl rfl rfl rfl rfl rfl rfl rfl rfl rfl
    by_cases hj : j = s.next
    · simp only [hj, if_true]
    · simp only [if_neg hj, hs1, heap_setObj]
      rfl
  · rw [show s1.p = s.p from rfl, ← hr]
    refine ⟨h.value, by rw [h1]; exact h.found, Nat.ne_of_lt h.old, h.final.1, by rw [h1]; exact ht.parser _, ?_, h.final.2⟩
    rw [hfo]; exact finalObj_tvn ht _ _ _ _

/-- The object a row stands for, when it is not a section. -/
def rowObj (c : Cls) (p r : Str) (rest : List Str) : Obj :=
  { Obj.blank with cls := c, raw := dotJoin p r, pt := p, rt := r, value := (Val.str (rest.headD [])).mk, args := (rest.drop 1).map strip,
                   col := 1 }

theorem splitTermLower_cases {t p r : Str} (h : splitTermLower t = .ok (p, r)) :
    p ≠ [] ∧ strip p = p ∧ strip r = r ∧ '.' ∉ p ∧ '.' ∉ r ∧ lower p = p ∧ lower r = r := by
  unfold splitTermLower splitTerm at h
  by_cases hd : '.' ∈ t
  · rw [if_pos hd] at h
    split at h
    · next a b hab =>
      obtain ⟨-, ha, hb⟩ := split_pair hab
      simp only [bind, Except.bind, pure, Except.pure, Except.ok.injEq, Prod.mk.injEq] at h
      obtain ⟨rfl, rfl⟩ := h
      refine ⟨?_, ?_, by simp, ?_, by simp; exact fun h => hb (mem_strip h), by simp, by simp⟩
      · rw [ne_eq, lower_eq_nil]; split
        · decide
        · assumption
      · split
        · decide
        · simp
      · split
        · decide
        · simp; exact fun h => ha (mem_strip h)
    · cases h
  · rw [if_neg hd] at h
    simp only [bind, Except.bind, pure, Except.pure, Except.ok.injEq, Prod.mk.injEq] at h
    obtain ⟨rfl, rfl⟩ := h
    exact ⟨by decide, by decide, by simp, by decide, by simp; exact fun h => hd (mem_strip h), by decide, by simp⟩

theorem splitTermLower_join {p r : Str} (h0 : p ≠ []) (h1 : strip p = p) (h2 : strip r = r) (h3 : '.' ∉ p) (h4 : '.' ∉ r)
    (h5 : lower p = p) (h6 : lower r = r) : splitTermLower (dotJoin p r) = .ok (p, r) := by
  unfold splitTermLower dotJoin
  rw [splitTerm_dot h3 h4]
  simp only [bind, Except.bind, pure, Except.pure, h1, h2, if_neg h0, h5, h6]

theorem splitTermLower_again {t p r : Str} (h : splitTermLower t = .ok (p, r)) : splitTermLower (dotJoin p r) = .ok (p, r) := by
  obtain ⟨h0, h1, h2, h3, h4, h5, h6⟩ := splitTermLower_cases h
  exact splitTermLower_join h0 h1 h2 h3 h4 h5 h6

/-- Building the object of a row that is not a section. -/
theorem rowTerm_run {s : St} {c : Str} {rest : List Str} {p r : Str} (hc : splitTermLower c = .ok (p, r))
    (hcls : (parserTermClass s (dotJoin p r)).isSection = false) :
    rowTerm false (c :: rest) s =
      .ok s.next ({ s with next := s.next + 1 }.setObj s.next (rowObj (parserTermClass s (dotJoin p r)) p r rest)) := by
  unfold rowTerm
  have hn : normalizeTerm c = .ok (dotJoin p r) := by unfold normalizeTerm; rw [hc]; rfl
  have h2 := splitTermLower_again hc
  simp only [bind_run, lift_run, List.headD_cons, hn, get_run]
  have e : ∀ cl, newTermObj cl (dotJoin p r) (Val.str (((c :: rest)[1]?).getD [])) ((c :: rest).drop 2) none none 1 false s =
      .ok s.next ({ s with next := s.next + 1 }.setObj s.next (rowObj cl p r rest)) := by
    intro cl
    unfold newTermObj rowObj
    simp only [bind_run, lift_run, h2, alloc_run]
    cases rest with
    | nil => rfl
    | cons a l => rfl
  cases hk : parserTermClass s (dotJoin p r) with
  | term => exact e _
  | user n => exact e _
  | «section» => rw [hk] at hcls; cases hcls
  | root => rw [hk] at hcls; cases hcls

/-- The object of an argument cell of the term `t` named `R`. -/
def argObj (c : Cls) (R : Str) (k : Nat) (v : Str) (t : Nat) : Obj :=
  { Obj.blank with cls := c, raw := dotJoin R (natStr k), pt := R, rt := natStr k, value := (Val.str v).mk, parent := some t,
                   col := k + 2 }

/-- A record name that argument cells can refer to. -/
structure GoodName (R : Str) : Prop where
  nonempty : R ≠ []
  stripped : strip R = R
  nodot : '.' ∉ R
  low : lower R = R

theorem argTerm_run {s : St} {t k : Nat} {v R : Str} (hR : (s.heap t).rt = R) (hg : GoodName R)
    (hcls : (parserTermClass s (dotJoin R (natStr k))).isSection = false) :
    argTerm false t k v s = .ok s.next ({ s with next := s.next + 1 }.setObj s.next
      (argObj (parserTermClass s (dotJoin R (natStr k))) R k v t)) := by
  unfold argTerm
  simp only [bind_run, get_run, hR, hg.low]
  have hname : R ++ '.' :: natStr k = dotJoin R (natStr k) := rfl
  rw [hname]
  have h2 : splitTermLower (dotJoin R (natStr k)) = .ok (R, natStr k) :=
    splitTermLower_join hg.nonempty hg.stripped (strip_natStr k) hg.nodot (not_mem_natStr (by decide) k) hg.low (lower_natStr k)
  have e : ∀ cl, newTermObj cl (dotJoin R (natStr k)) (Val.str v) [] (some t) none (k + 2) false s =
      .ok s.next ({ s with next := s.next + 1 }.setObj s.next (argObj cl R k v t)) := by
    intro cl
    unfold newTermObj argObj
    have hp : (if R = ROOT then R else R) = R := by split <;> rfl
    simp only [bind_run, lift_run, h2, obj_run, hR, hp, assert_run, decide_true, if_true, alloc_run, List.map_nil]
    rfl
  cases hk : parserTermClass s (dotJoin R (natStr k)) with
  | term => exact e _
  | user n => exact e _
  | «section» => rw [hk] at hcls; cases hcls
  | root => rw [hk] at hcls; cases hcls

/-- Blank argument cells are skipped. -/
theorem argLoop_blank {load isDecl : Bool} {t : Nat} : ∀ {vs : List Str} {k : Nat}, (∀ v ∈ vs, strip v = []) →
    argLoop load isDecl t k vs = pure ()
  | [], _, _ => rfl
  | v :: vs, k, h => by
    unfold argLoop
    have h1 := h v List.mem_cons_self
    rw [argLoop_blank fun v hv => h v (List.mem_cons_of_mem _ hv)]
    simp [h1]

/-- The effect of a term row on the state, before its argument cells. -/
theorem genRows_term {F : Prop} {files : Files} {sub : Str → Bool → M Unit} {load : Bool} {dir ref : Str} {ls : Nat} {c : Str}
    {rest : List Str} {rows : List (List Str)} {s : St} {p₀ r₀ p r : Str} {q : Nat} (w : WF F s) (ht : TvnOk s)
    (hskip : skipRow (c :: rest) = false) (hc : splitTermLower c = .ok (p₀, r₀))
    (hname : dotJoin p₀ r₀ ≠ py!"root.include" ∧ dotJoin p₀ r₀ ≠ py!"root.declare" ∧ dotJoin p₀ r₀ ≠ py!"root.section")
    (hcls : (parserTermClass s (dotJoin p₀ r₀)).isSection = false)
    (h : CanAdd s (rowObj (parserTermClass s (dotJoin p₀ r₀)) p₀ r₀ rest) p r q)
    (hh : dotJoin (lower (finalPt s.p p)) (lower r) ≠ py!"root.header") :
    genRows files sub load false dir ref ls ((c :: rest) :: rows) s =
      (argLoop load false s.next 0 ((rest.drop 1).map strip) >>= fun _ => genRows files sub load false dir ref ls rows)
        (addTerm s (rowObj (parserTermClass s (dotJoin p₀ r₀)) p₀ r₀ rest) p r q) := by
  set o := rowObj (parserTermClass s (dotJoin p₀ r₀)) p₀ r₀ rest with ho
  obtain ⟨-, -, -, -, -, l1, l2⟩ := splitTermLower_cases hc
  have hj : o.joinLc = dotJoin p₀ r₀ := by rw [ho]; unfold Obj.joinLc rowObj; simp only [l1, l2]
  rw [genRows_cons, hskip]
  simp only [Bool.false_eq_true, if_false]
  simp only [bind_run, rowTerm_run hc hcls, ← ho, obj_run, heap_setObj_self, hj, hname.1, hname.2.1, hname.2.2, or_self, if_false]
  have hcons := consume_new (load := load) w ht h
  unfold yieldWithArgs
  simp only [bind_run, hcons, obj_run]
  have hh' : (addTerm s o p r q).heap s.next = finalObj s o p r q := by simp [addTerm]
  have hj2 : (finalObj s o p r q).joinLc = dotJoin (lower (finalPt s.p p)) (lower r) := by
    unfold Obj.joinLc; rw [finalObj_pt, finalObj_rt]
  rw [hh', hj2]
  simp only [h.final.2.2, hh, or_self, if_false, finalObj_args]
  rfl

theorem nextP_declTerms (ps : PSt) (p r : Str) (c t : Nat) : (nextP ps p r c t).declTerms = ps.declTerms := by
  unfold nextP; split <;> rfl
theorem nextP_declSecs (ps : PSt) (p r : Str) (c t : Nat) : (nextP ps p r c t).declSecs = ps.declSecs := by
  unfold nextP; split <;> rfl
theorem nextP_defTvn (ps : PSt) (p r : Str) (c t : Nat) : (nextP ps p r c t).defTvn = ps.defTvn := by
  unfold nextP; split <;> rfl
theorem nextP_paramMap (ps : PSt) (p r : Str) (c t : Nat) : (nextP ps p r c t).paramMap = ps.paramMap := by
  unfold nextP; split <;> rfl
theorem nextP_lastSec (ps : PSt) (p r : Str) (c t : Nat) : (nextP ps p r c t).lastSec = ps.lastSec := by
  unfold nextP; split <;> rfl

theorem wf_addTerm {F : Prop} {s : St} {o : Obj} {p r : Str} {q : Nat} (w : WF F s) (ht : TvnOk s) (h : CanAdd s o p r q)
    (hp : ∀ q', o.parent = some q' → q' < s.next) (hl : Low o.pt ∧ Low o.rt) : WF F (addTerm s o p r q) := by
  have hstep : Step (Cap.all F) s ({ s with next := s.next + 1 }.setObj s.next o) :=
    .alloc o h.new.children h.new.terms hp (by intro x e; rw [h.new.sec] at e; cases e) hl
  have w1 : WF F ({ s with next := s.next + 1 }.setObj s.next o) := Step.wf (C := Cap.all F) hstep w
  have f : FreshObj s ({ s with next := s.next + 1 }.setObj s.next o) s.next o.cls o.parent o.sec :=
    ⟨rfl, o, rfl, h.new.children, h.new.terms, rfl, rfl, rfl⟩
  have := tri_consume (F := F) (U := True) (load := true) (f.ready w) w1
  have := wp_ok this (consume_new w ht h)
  exact Steps.wf (C := Cap.all F) this.1 w1

theorem addTerm_defTvn {s : St} {o : Obj} {p r : Str} {q : Nat} (j : Nat) :
    ((addTerm s o p r q).heap j).defTvn = if j = s.next then o.defTvn else (s.heap j).defTvn := by
  unfold addTerm; dsimp only
  by_cases hj : j = s.next
  · simp only [if_pos hj]; unfold finalObj; dsimp only; split <;> rfl
  · simp only [if_neg hj]

/-- A state in which plain rows are read as they stand. -/
structure Std (s : St) : Prop where
  tvn : TvnOk s
  cls : ∀ n, (parserTermClass s n).isSection = true → lower n = py!"root.section" ∨ lower n = py!"root.root"
  syn : synonyms s.p.declTerms = []

theorem parserTermClass_congr {s s' : St} (h1 : s'.classes = s.classes) (h2 : s'.superTerms = s.superTerms)
    (h3 : s'.p.declTerms = s.p.declTerms) (n : Str) : parserTermClass s' n = parserTermClass s n := by
  unfold parserTermClass parserSuperTerms; rw [h1, h2, h3]

theorem Std.congr {s s' : St} (h : Std s) (h1 : s'.classes = s.classes) (h2 : s'.superTerms = s.superTerms)
    (h3 : s'.p.declTerms = s.p.declTerms) (h4 : s'.declTerms = s.declTerms) (h5 : s'.p.defTvn = s.p.defTvn)
    (h6 : ∀ j, ∃ i, (s'.heap j).defTvn = (s.heap i).defTvn) : Std s' := by
  refine ⟨⟨?_, ?_⟩, ?_, by rw [h3]; exact h.syn⟩
  · rw [h3, h5]; exact h.tvn.parser
  · intro n x
    obtain ⟨i, hi⟩ := h6 x
    rw [h4, hi]; exact h.tvn.doc n i
  · intro n hn
    rw [parserTermClass_congr h1 h2 h3] at hn; exact h.cls n hn

theorem std_addTerm {F : Prop} {s : St} {o : Obj} {p r : Str} {q : Nat} (w : WF F s) (h : Std s) (ho : o.defTvn = py!"@value") :
    Std (addTerm s o p r q) := by
  refine h.congr rfl rfl (nextP_declTerms ..) rfl (nextP_defTvn ..) fun j => ?_
  rw [addTerm_defTvn]
  split
  · exact ⟨s.next, by rw [w.blank _ (Nat.le_refl _), ho]; rfl⟩
  · exact ⟨j, rfl⟩

theorem Std.subst {s : St} (h : Std s) (p r : Str) : substSynonym s.p.declTerms p r = .ok (p, r) := by
  unfold substSynonym; rw [h.syn]; rfl

theorem Std.notSection {s : St} (h : Std s) {p r : Str} (hl : lower (dotJoin p r) = dotJoin p r)
    (h1 : dotJoin p r ≠ py!"root.section") (h2 : dotJoin p r ≠ py!"root.root") : (parserTermClass s (dotJoin p r)).isSection = false := by
  cases hb : (parserTermClass s (dotJoin p r)).isSection with
  | false => rfl
  | true =>
    rcases h.cls _ hb with e | e
    · rw [hl] at e; exact absurd e h1
    · rw [hl] at e; exact absurd e h2

/-- A term named by its row. -/
theorem canAdd_named {F : Prop} {s : St} {o : Obj} {p r : Str} {q : Nat} (w : WF F s) (h : Std s) (hn : NewTerm o) (hp : o.pt = p)
    (hr : remapRecord s.p.paramMap o.rt = r) (hcol : o.col ≤ 1) (he : p ≠ ELIDED) (hne : p ≠ r) (hq : s.p.lastMap.get? p = some q)
    (hv : ValueName p r) (hd : dotJoin (lower p) (lower r) ≠ py!"datafile.section") : CanAdd s o p r q := by
  have hnm : Named p o.col := ⟨he, hcol⟩
  have hfp : finalPt s.p p = p := if_neg he
  refine ⟨hn, ⟨o.rt, ?_, hr.symm⟩, hv, ?_, w.pMap _ (Dict.mem_of_get? hq), ?_⟩
  · rw [hp]; exact h.subst _ _
  · unfold nextP parentKey
    rw [if_pos hnm, if_pos hnm]
    simp only
    rw [Dict.get?_set, if_neg (Ne.symm hne), Dict.get?_set, if_neg (Ne.symm he)]; exact hq
  · rw [hfp]; exact ⟨hd, hv.2.2, hv.2.1⟩

/-- A term whose parent is the latest named term: an elided row or an argument cell. -/
theorem canAdd_child {F : Prop} {s : St} {o : Obj} {p r : Str} {q : Nat} (w : WF F s) (h : Std s) (hn : NewTerm o) (hp : o.pt = p)
    (hr : remapRecord s.p.paramMap o.rt = r) (hcol : ¬ Named p o.col) (hq : s.p.lastMap.get? s.p.lastParent = some q)
    (hv : ValueName p r) (hf : dotJoin (lower (finalPt s.p p)) (lower r) ≠ py!"datafile.section" ∧
      dotJoin (lower (finalPt s.p p)) (lower r) ≠ py!"root.root" ∧
      dotJoin (lower (finalPt s.p p)) (lower r) ≠ py!"root.section") : CanAdd s o p r q := by
  refine ⟨hn, ⟨o.rt, ?_, hr.symm⟩, hv, ?_, w.pMap _ (Dict.mem_of_get? hq), hf⟩
  · rw [hp]; exact h.subst _ _
  · unfold nextP parentKey
    rw [if_neg hcol, if_neg hcol]; exact hq

theorem newTerm_rowObj {c : Cls} (hc : c.isSection = false) (p r : Str) (rest : List Str) : NewTerm (rowObj c p r rest) :=
  ⟨rfl, rfl, rfl, rfl, rfl, hc⟩
theorem newTerm_argObj {c : Cls} (hc : c.isSection = false) (R : Str) (k : Nat) (v : Str) (t : Nat) : NewTerm (argObj c R k v t) :=
  ⟨rfl, rfl, rfl, rfl, rfl, hc⟩

/-- One argument cell that is not blank. -/
theorem argLoop_cons {F : Prop} {load : Bool} {s : St} {t k : Nat} {v R p r : Str} {vs : List Str} {q : Nat} (w : WF F s) (ht : TvnOk s)
    (hR : (s.heap t).rt = R) (hg : GoodName R) (hcls : (parserTermClass s (dotJoin R (natStr k))).isSection = false)
    (hv : strip v ≠ []) (h : CanAdd s (argObj (parserTermClass s (dotJoin R (natStr k))) R k v t) p r q) :
    argLoop load false t k (v :: vs) s =
      argLoop load false t (k + 1) vs (addTerm s (argObj (parserTermClass s (dotJoin R (natStr k))) R k v t) p r q) := by
  rw [show argLoop load false t k (v :: vs) = (do
    if strip v ≠ [] then do
      let c ← argTerm false t k v
      consume load c
    argLoop load false t (k + 1) vs) from rfl]
  simp only [if_pos hv, bind_run, argTerm_run hR hg hcls, consume_new w ht h]

theorem argLoop_skip {load : Bool} {t k : Nat} {v : Str} {vs : List Str} (hv : strip v = []) :
    argLoop load false t k (v :: vs) = argLoop load false t (k + 1) vs := by
  rw [show argLoop load false t k (v :: vs) = (do
    if strip v ≠ [] then do
      let c ← argTerm false t k v
      consume load c
    argLoop load false t (k + 1) vs) from rfl]
  simp [hv]

end Metatab
