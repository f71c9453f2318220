import Verif.Model.Yaml
import Verif.Spec.Yaml
import Verif.Props.NewChild
import Verif.Props.Sections
/-! # C69: the YAML source -/
namespace Metatab
open Py _root_.Spec

/-- The name of a root-level term. -/
def rootName (k : Str) : Str := dotJoin ROOT (lower k)

/-- The events of one term. -/
def termEvents (y : YTerm) : List YEvent :=
  (rootName y.name, .leaf y.value, none) ::
    y.props.map fun kv => (dotJoin (lower y.name) (lower kv.1), .leaf kv.2, some (rootName y.name))

theorem yamlName_none (k : Str) : yamlName none k = rootName k := by
  unfold yamlName rootName dotJoin
  have : splitOn '.' (Option.getD none (py!"Root")) = [py!"Root"] := by decide
  rw [this]
  rw [List.getLastD_eq_getLast?]
  rw [show (py!"Root" : Str) = py!"Root" from rfl]
  rw [lower_append]
  rfl

theorem nodot_lower {k : Str} (h : '.' ∉ k) : '.' ∉ lower k := by
  rw [mem_lower (by decide) (by decide)]; exact h

theorem yamlName_some {k : Str} (hk : '.' ∉ k) (k' : Str) : yamlName (some (rootName k)) k' = dotJoin (lower k) (lower k') := by
  unfold yamlName rootName dotJoin
  rw [Option.getD_some, splitOn_append_sep (by decide), splitOn_not_mem (nodot_lower hk), lower_append]
  have : lower ('.' :: k') = '.' :: lower k' := rfl
  rw [this]
  simp

/-! ## What is yielded -/
theorem yield_scalars (d : Dict DTerm) {k : Str} (hk : '.' ∉ k) (skip : Option Str) : ∀ {kvs : KVs Val} {l : List (Str × Val)},
    scalars kvs = some l → yieldKVs d (some (rootName k)) skip kvs =
      ((l.filter fun kv => skip ≠ some kv.1).map fun kv => (dotJoin (lower k) (lower kv.1), .leaf kv.2, some (rootName k)), none)
  | .nil, l, h => by cases h; rfl
  | .cons k' (.leaf v) rest, l, h => by
    unfold scalars at h
    cases hr : scalars rest with
    | none => rw [hr] at h; cases h
    | some l' =>
      rw [hr] at h; cases h
      unfold yieldKVs
      rw [yield_scalars d hk skip hr]
      by_cases hs : skip = some k'
      · rw [if_pos hs, List.filter_cons_of_neg (by simpa using hs)]
      · rw [if_neg hs, List.filter_cons_of_pos (by simpa using hs), yamlName_some hk]
        unfold yieldVal YEvents.then
        rfl
  | .cons _ (.map _) _, _, h => by unfold scalars at h; cases h
  | .cons _ (.seq _) _, _, h => by unfold scalars at h; cases h

theorem get_scalars : ∀ {kvs : KVs Val} {l : List (Str × Val)} (_ : scalars kvs = some l) (x : Str), kvs.get? x = (Dict.get? l x).map .leaf
  | .nil, l, h, x => by cases h; rfl
  | .cons k' (.leaf v) rest, l, h, x => by
    unfold scalars at h
    cases hr : scalars rest with
    | none => rw [hr] at h; cases h
    | some l' =>
      rw [hr] at h; cases h
      unfold KVs.get?
      rw [get_scalars hr]
      by_cases e : k' = x
      · rw [if_pos e, e]; simp [Dict.get?]
      · rw [if_neg e]; simp [Dict.get?, e]
  | .cons _ (.map _) _, _, h, _ => by unfold scalars at h; cases h
  | .cons _ (.seq _) _, _, h, _ => by unfold scalars at h; cases h

theorem yield_items (d : Dict DTerm) {k : Str} (hk : '.' ∉ k) {es : Js Val} {is : List (Val × List (Str × Val))}
    (h : YItems (yamlValueName d (rootName k)) es is) :
    yieldJs d none (rootName k) es = ((is.map fun i => termEvents ⟨k, i.1, i.2⟩).flatten, none) := by
  induction h with
  | nil => rfl
  | @cons kvs l v es r h hv hr ih =>
    unfold yieldJs
    rw [get_scalars h, hv]
    simp only [Option.map_some]
    rw [ih, yield_scalars d hk _ h]
    unfold YEvents.then
    simp only [List.map_cons, List.flatten_cons, termEvents, List.singleton_append]
    congr 3
    congr 2
    funext kv
    by_cases e : kv.1 = yamlValueName d (rootName k)
    · simp [e]
    · simp [e, Ne.symm e]

theorem yield_table (d : Dict DTerm) {kvs : KVs Val} {ts : List YTerm} (h : YTable (fun k => yamlValueName d (rootName k)) kvs ts)
    (hp : ∀ y ∈ ts, '.' ∉ y.name) : yieldKVs d none none kvs = ((ts.map termEvents).flatten, none) := by
  induction h with
  | nil => rfl
  | one h ih =>
    unfold yieldKVs
    rw [ih fun y hy => hp y (List.mem_cons_of_mem _ hy), if_neg (by simp), yamlName_none]
    unfold yieldVal YEvents.then
    rfl
  | @many k es is rest ts hi h ih =>
    unfold yieldKVs
    rw [ih fun y hy => hp y (List.mem_append_right _ hy), if_neg (by simp), yamlName_none]
    unfold yieldVal
    have key : yieldJs d none (rootName k) es = ((is.map fun i => termEvents ⟨k, i.1, i.2⟩).flatten, none) := by
      cases hi with
      | nil => rfl
      | cons a b c => exact yield_items d (hp ⟨k, _, _⟩ (List.mem_append_left _ List.mem_cons_self)) (.cons a b c)
    rw [key]
    unfold YEvents.then
    simp [List.map_map, Function.comp_def]

/-! ## What is made -/
/-- A property that makes an ordinary child of a term named `k`. -/
structure _root_.Spec.YPropOk (s : St) (k : Str) (kv : Str × Val) : Prop where
  name : PlainPart kv.1
  notSec : lower kv.1 ≠ py!"section"
  cls : (docTermClass s (dotJoin (lower k) (lower kv.1))).isSection = false
  tvn : lower (declProp s.declTerms (dotJoin (lower k) (lower kv.1)) (py!"termvaluename") (py!"@value")) ∉ reservedTvn
  text : ∃ w, textOf kv.2 = some w

/-- A term that makes an ordinary term of the section `x`. -/
structure _root_.Spec.YTermOk (s : St) (x : Nat) (y : YTerm) : Prop where
  name : PlainPart y.name
  notRoot : lower y.name ≠ py!"root"
  cls : (docTermClass s (rootName y.name)).isSection = false
  tvn : lower (newTvn s x y.name) ∉ reservedTvn
  props : ∀ kv ∈ y.props, YPropOk s y.name kv

/-- The child `c` of `t` for a property. -/
structure _root_.Spec.IsProp (s : St) (t : Nat) (k : Str) (kv : Str × Val) (c : Nat) : Prop where
  join : (s.heap c).join = dotJoin (lower k) (lower kv.1)
  value : ∃ w, textOf kv.2 = some w ∧ (s.heap c).value = w.mk
  parent : (s.heap c).parent = some t
  sec : (s.heap c).sec = (s.heap t).sec
  leaf : (s.heap c).children = []

/-- The object `t` is the term `y` in the section `x`, with exactly its properties. -/
structure _root_.Spec.IsYTerm (s : St) (y : YTerm) (x t : Nat) : Prop where
  join : (s.heap t).join = rootName y.name
  value : (s.heap t).value = y.value.mk
  sec : (s.heap t).sec = some x
  parent : (s.heap t).parent = none
  kids : List.Forall₂ (IsProp s t y.name) y.props (s.heap t).children

theorem lowPlain' {a : Str} (h : PlainPart a) : PlainPart (lower a) :=
  ⟨by simpa using h.nodot, by simpa using h.nonempty, by rw [strip_lower, h.stripped]⟩

theorem reach_ok {s s' : St} (h : Reach (fun _ => True) s) (op : Op) (hv : op.valid s) (e : op.run s = .ok () s') : Reach (fun _ => True) s' := by
  have := Reach.step op h trivial hv
  unfold after at this
  rw [e] at this
  exact this

/-- The children of one term. -/
theorem yaml_kids (m : Dict Str) (secs : Dict Nat) {k : Str} (hk : PlainPart k) (hr : lower k ≠ py!"root") {t : Nat} : ∀ (ps : List (Str × Val))
    {s : St} (_ : Reach (fun _ => True) s) (_ : t < s.next) (_ : (s.heap t).rt = lower k) (_ : ∀ kv ∈ ps, YPropOk s k kv) (last : Dict Nat)
    (_ : last.get? (rootName k) = some t),
    ∃ s' last', yamlLoop m secs last (ps.map fun kv => (dotJoin (lower k) (lower kv.1), .leaf kv.2, some (rootName k))) s = .ok last' s' ∧
      Reach (fun _ => True) s' ∧ s.next ≤ s'.next ∧ (∀ j, j < s.next → j ≠ t → s'.heap j = s.heap j) ∧
      s' = { s with next := s'.next, heap := s'.heap } ∧
      ∃ cs, s'.heap t = { s.heap t with children := (s.heap t).children ++ cs } ∧ (∀ c ∈ cs, s.next ≤ c ∧ c < s'.next) ∧
        List.Forall₂ (IsProp s' t k) ps cs := by
  intro ps
  induction ps with
  | nil =>
    intro s h ht hrt _ last _
    exact ⟨s, last, rfl, h, Nat.le_refl _, fun _ _ _ => rfl, rfl, [], by simp, by simp, .nil⟩
  | cons kv ps ih =>
    intro s h ht hrt hps last hl
    obtain ⟨w, hw⟩ := (hps kv List.mem_cons_self).text
    have ho := hps kv List.mem_cons_self
    have hkid : KidOk s t (dotJoin (lower k) (lower kv.1)) (lower k) (lower kv.1) := by
      refine ⟨⟨lower k, ?_, .inr ⟨hr, rfl, by rw [hrt]⟩⟩, ?_, ho.notSec, ho.tvn⟩
      · rw [splitTermLower_dot (lowPlain' hk) (lowPlain' ho.name), lower_lower, lower_lower]
      · have : lower (dotJoin (lower k) (lower kv.1)) = dotJoin (lower k) (lower kv.1) := by
          unfold dotJoin; rw [lower_append]
          show _ ++ '.' :: lower (lower kv.1) = _
          rw [lower_lower, lower_lower]
        rw [this]; exact ho.cls
    have hrun := C68_new ht hkid hw
    obtain ⟨o, hoo⟩ : ∃ o, o = kidObj s t (dotJoin (lower k) (lower kv.1)) (lower k) (lower kv.1) w := ⟨_, rfl⟩
    rw [← hoo] at hrun
    obtain ⟨s1, hs1⟩ : ∃ s1, s1 = withChild s t o := ⟨_, rfl⟩
    rw [← hs1] at hrun
    have h1 : ∀ j, s1.heap j = if j = s.next then o else if j = t then { s.heap t with children := (s.heap t).children ++ [s.next] } else s.heap j :=
      fun j => by rw [hs1]; rfl
    have hn1 : s1.next = s.next + 1 := by rw [hs1]; rfl
    have ht1 : s1.heap t = { s.heap t with children := (s.heap t).children ++ [s.next] } := by rw [h1, if_neg (by omega), if_pos rfl]
    have hR1 : Reach (fun _ => True) s1 := reach_ok h (.newChild t (dotJoin (lower k) (lower kv.1)) kv.2 []) ht (by
      show (newChild _ _ _ _ >>= fun _ => pure ()) s = _
      rw [bind_run, hrun]; rfl)
    have hne : rootName k ≠ dotJoin (lower k) (lower kv.1) := by
      intro e
      have e2 := congrArg (splitOn '.') e
      unfold rootName dotJoin at e2
      rw [splitOn_append_sep (by decide), splitOn_append_sep (nodot_lower hk.nodot)] at e2
      exact hr (List.cons.inj e2).1.symm
    have hcls : ∀ n, docTermClass s1 n = docTermClass s n := fun n => by rw [hs1]; rfl
    obtain ⟨s', last', hrun', hR', hle, hfr, heq, cs, hcs, hcl, hall⟩ := ih hR1 (by omega) (by rw [ht1]; exact hrt)
      (fun kv' hk' => by
        obtain ⟨a, b, c, d, e⟩ := hps kv' (List.mem_cons_of_mem _ hk')
        exact ⟨a, b, by rw [hcls]; exact c, by rw [hs1]; exact d, e⟩)
      (last.set (dotJoin (lower k) (lower kv.1)) s.next) (by rw [Dict.get?_set, if_neg (Ne.symm hne)]; exact hl)
    have hsn : s'.heap s.next = o := by rw [hfr s.next (by omega) (by omega), h1, if_pos rfl]
    refine ⟨s', last', ?_, hR', by omega, fun j hj hjt => ?_, ?_, s.next :: cs, ?_, fun c hc => ?_, .cons ?_ hall⟩
    · rw [List.map_cons]
      unfold yamlLoop
      rw [bind_run]
      have : yamlEvent m secs last (dotJoin (lower k) (lower kv.1), .leaf kv.2, some (rootName k)) s =
          .ok (last.set (dotJoin (lower k) (lower kv.1)) s.next) s1 := by
        unfold yamlEvent
        simp only [hl, bind_run, hrun, pure_run]
      rw [this]
      exact hrun'
    · rw [hfr j (by omega) hjt, h1, if_neg (by omega), if_neg hjt]
    · rw [heq, hs1]; rfl
    · rw [hcs, ht1]; simp
    · rcases List.mem_cons.1 hc with rfl | hc
      · omega
      · have := hcl c hc; omega
    · refine ⟨by rw [hsn, hoo]; rfl, ⟨w, hw, by rw [hsn, hoo]; rfl⟩, by rw [hsn, hoo]; rfl, ?_, by rw [hsn, hoo]; rfl⟩
      rw [hsn, hoo, hcs, ht1]; rfl

theorem yamlLoop_append (m : Dict Str) (secs : Dict Nat) : ∀ (a b : List YEvent) (last : Dict Nat) (s : St),
    yamlLoop m secs last (a ++ b) s = (yamlLoop m secs last a >>= fun l => yamlLoop m secs l b) s
  | [], b, last, s => rfl
  | ev :: a, b, last, s => by
    show (yamlEvent m secs last ev >>= fun l => yamlLoop m secs l (a ++ b)) s = ((yamlEvent m secs last ev >>= fun l => yamlLoop m secs l a) >>= _) s
    simp only [bind_run]
    cases yamlEvent m secs last ev s with
    | err e s' => rfl
    | ok l s' => simp only [yamlLoop_append m secs a b l s', bind_run]

/-- The section of a term: the one the map gives for its name, or the root section. -/
def _root_.Spec.secFor (m : Dict Str) (secs : Dict Nat) (k : Str) : Option Nat := secs.get? ((m.get? (rootName k)).getD (py!"root"))

/-- One term. -/
theorem yaml_term (m : Dict Str) (secs : Dict Nat) {s : St} (h : Reach (fun _ => True) s) {x : Nat} {n : Str} (hx : Registered s x n) {y : YTerm}
    (hy : YTermOk s x y) (hsec : secFor m secs y.name = some x) (last : Dict Nat) :
    ∃ s' last', yamlLoop m secs last (termEvents y) s = .ok last' s' ∧ Reach (fun _ => True) s' ∧ s.next < s'.next ∧
      (∀ j, j < s.next → j ≠ x → s'.heap j = s.heap j) ∧ s'.heap x = { s.heap x with terms := (s.heap x).terms ++ [s.next] } ∧
      s'.terms = s.terms ++ [s.next] ∧ IsYTerm s' y x s.next ∧ s' = { s with next := s'.next, heap := s'.heap, terms := s'.terms } := by
  have w : WF False s := h.wf fun f => f.elim
  have hxlt : x < s.next := (w.secsLt (lower n, x) (Dict.mem_of_get? hx.known)).1
  have hlow : lower (rootName y.name) = rootName y.name := by
    unfold rootName dotJoin; rw [lower_append]
    show _ ++ '.' :: lower (lower y.name) = _
    rw [lower_lower]; rfl
  have hrun := newTerm_root w hx (N := rootName y.name) (B := y.name)
    (by
      unfold rootName
      rw [splitTermLower_dot (a := ROOT) ⟨by decide, by decide, by decide⟩ (lowPlain' hy.name), lower_lower]; rfl)
    (by rw [hlow]; exact hy.cls) hy.tvn y.value
  obtain ⟨o, ho⟩ : ∃ o, o = newObj s x (docTermClass s (lower (rootName y.name))) (rootName y.name) y.name y.value := ⟨_, rfl⟩
  rw [← ho] at hrun
  obtain ⟨s1, hs1⟩ : ∃ s1, s1 = withTerm s x o := ⟨_, rfl⟩
  rw [← hs1] at hrun
  have h1 : ∀ j, s1.heap j = if j = s.next then o else if j = x then { s.heap x with terms := (s.heap x).terms ++ [s.next] } else s.heap j :=
    fun j => by rw [hs1]; rfl
  have hn1 : s1.next = s.next + 1 := by rw [hs1]; rfl
  have hsn : s1.heap s.next = o := by rw [h1, if_pos rfl]
  have hR1 : Reach (fun _ => True) s1 := reach_ok h (.newTerm x (rootName y.name) y.value []) ⟨hxlt, hx.cls⟩ (by
    show (newTerm _ _ _ _ >>= fun _ => pure ()) s = _
    rw [bind_run, hrun]; rfl)
  have hcls : ∀ n, docTermClass s1 n = docTermClass s n := fun n => by rw [hs1]; rfl
  obtain ⟨s', last', hrun', hR', hle, hfr, heq, cs, hcs, hcl, hall⟩ := yaml_kids m secs hy.name hy.notRoot (t := s.next) y.props hR1 (by omega)
    (by rw [hsn, ho]; rfl)
    (fun kv hk => by
      obtain ⟨a, b, c, d, e⟩ := hy.props kv hk
      exact ⟨a, b, by rw [hcls]; exact c, by rw [hs1]; exact d, e⟩)
    (last.set (rootName y.name) s.next) (by rw [Dict.get?_set, if_pos rfl])
  rw [hsn] at hcs
  have hkids : (s'.heap s.next).children = cs := by rw [hcs, ho]; rfl
  refine ⟨s', last', ?_, hR', by omega, fun j hj hjx => ?_, ?_, ?_, ⟨?_, ?_, ?_, ?_, ?_⟩, ?_⟩
  · unfold termEvents yamlLoop
    rw [bind_run]
    have : yamlEvent m secs last (rootName y.name, .leaf y.value, none) s = .ok (last.set (rootName y.name) s.next) s1 := by
      unfold yamlEvent
      unfold secFor at hsec
      simp only [hsec, bind_run, hrun, pure_run]
    rw [this]
    exact hrun'
  · rw [hfr j (by omega) (by omega), h1, if_neg (by omega), if_neg hjx]
  · rw [hfr x (by omega) (by omega), h1, if_neg (by omega), if_pos rfl]
  · rw [heq, hs1]; rfl
  · rw [hcs, ho]; rfl
  · rw [hcs, ho]; rfl
  · rw [hcs, ho]; rfl
  · rw [hcs, ho]; rfl
  · rw [hkids]; exact hall
  · rw [heq, hs1]; rfl

/-- What the later terms leave alone. -/
structure _root_.Spec.Later (s s' : St) : Prop where
  next : s.next ≤ s'.next
  heap : ∀ j, j < s.next → s'.heap j = { s.heap j with terms := (s'.heap j).terms }
  rest : s' = { s with next := s'.next, heap := s'.heap, terms := s'.terms }

theorem isYTerm_later {s s' : St} (h : Reach (fun _ => True) s) (hl : Later s s') {y : YTerm} {x t : Nat} (ht : t < s.next) (hy : IsYTerm s y x t) :
    IsYTerm s' y x t := by
  have e := hl.heap t ht
  have w : WF False s := h.wf fun f => f.elim
  refine ⟨?_, ?_, ?_, ?_, ?_⟩
  · rw [e]; exact hy.join
  · rw [e]; exact hy.value
  · rw [e]; exact hy.sec
  · rw [e]; exact hy.parent
  · have hk := hy.kids
    have hc : (s'.heap t).children = (s.heap t).children := by rw [e]
    rw [hc]
    have hlt := w.kidLt t
    revert hk hlt
    generalize (s.heap t).children = cs
    generalize y.props = ps
    intro hk hlt
    induction hk with
    | nil => exact .nil
    | @cons kv c ps cs hp _ ih =>
      refine .cons ?_ (ih fun c hc => hlt c (List.mem_cons_of_mem _ hc))
      have ec := hl.heap c (hlt c List.mem_cons_self)
      refine ⟨by rw [ec]; exact hp.join, ?_, by rw [ec]; exact hp.parent, ?_, by rw [ec]; exact hp.leaf⟩
      · obtain ⟨w, a, b⟩ := hp.value
        exact ⟨w, a, by rw [ec]; exact b⟩
      · rw [ec, e]; exact hp.sec

/-- All terms. -/
theorem yaml_terms (m : Dict Str) (secs : Dict Nat) : ∀ (ts : List YTerm) {s : St} (_ : Reach (fun _ => True) s) (last : Dict Nat)
    (_ : ∀ y ∈ ts, ∃ x n, secFor m secs y.name = some x ∧ Registered s x n ∧ YTermOk s x y),
    ∃ s' last' ids, yamlLoop m secs last (ts.map termEvents).flatten s = .ok last' s' ∧ Reach (fun _ => True) s' ∧ Later s s' ∧
      s'.terms = s.terms ++ ids ∧ (∀ t ∈ ids, s.next ≤ t ∧ t < s'.next) ∧
      List.Forall₂ (fun y t => ∃ x, secFor m secs y.name = some x ∧ IsYTerm s' y x t) ts ids ∧
      (∀ j, j < s.next → (s'.heap j).terms = (s.heap j).terms ++ ids.filter fun t => (s'.heap t).sec = some j) := by
  intro ts
  induction ts with
  | nil =>
    intro s h last _
    exact ⟨s, last, [], rfl, h, ⟨Nat.le_refl _, fun _ _ => rfl, rfl⟩, by simp, by simp, .nil, by simp⟩
  | cons y ts ih =>
    intro s h last hok
    obtain ⟨x, n, hsec, hx, hy⟩ := hok y List.mem_cons_self
    obtain ⟨s1, last1, hrun1, hR1, hlt1, hfr1, hxx, hterms1, hy1, heq1⟩ := yaml_term m secs h hx hy hsec last
    have hl1 : Later s s1 := ⟨by omega, fun j hj => by
      by_cases e : j = x
      · subst e; rw [hxx]
      · rw [hfr1 j hj e], heq1⟩
    have hsecs : s1.sections = s.sections := by rw [heq1]
    have hdecl : s1.declTerms = s.declTerms := by rw [heq1]
    have hcls : ∀ n, docTermClass s1 n = docTermClass s n := fun n => by rw [heq1]; rfl
    have hok1 : ∀ y ∈ ts, ∃ x n, secFor m secs y.name = some x ∧ Registered s1 x n ∧ YTermOk s1 x y := by
      intro y' hy'
      obtain ⟨x', n', a, b, c⟩ := hok y' (List.mem_cons_of_mem _ hy')
      have hx'lt : x' < s.next := ((h.wf (F := False) fun f => f.elim).secsLt (lower n', x') (Dict.mem_of_get? b.known)).1
      have e := hl1.heap x' hx'lt
      refine ⟨x', n', a, ⟨by rw [e]; exact b.cls, by rw [e]; exact b.value, by rw [hsecs]; exact b.known, by rw [e]; exact b.plain⟩,
        c.name, c.notRoot, by rw [hcls]; exact c.cls, ?_, fun kv hk => ?_⟩
      · have : newTvn s1 x' y'.name = newTvn s x' y'.name := by
          have hd : (s1.heap x').defTvn = (s.heap x').defTvn := by rw [e]
          unfold newTvn
          rw [hdecl, hd]
        rw [this]; exact c.tvn
      · obtain ⟨p, q, r, u, v⟩ := c.props kv hk
        exact ⟨p, q, by rw [hcls]; exact r, by rw [hdecl]; exact u, v⟩
    obtain ⟨s', last', ids, hrun', hR', hl', hterms', hids, hall, hst⟩ := ih hR1 last1 hok1
    have hy' := isYTerm_later hR1 hl' hlt1 hy1
    refine ⟨s', last', s.next :: ids, ?_, hR', ⟨by have := hl'.next; omega, fun j hj => ?_, ?_⟩, ?_, fun t ht => ?_,
      .cons ⟨x, hsec, hy'⟩ hall, fun j hj => ?_⟩
    · rw [List.map_cons, List.flatten_cons, yamlLoop_append, bind_run, hrun1]
      exact hrun'
    · rw [hl'.heap j (by omega), hl1.heap j hj]
    · rw [hl'.rest, heq1]
    · rw [hterms', hterms1]; simp
    · have := hl'.next
      rcases List.mem_cons.1 ht with rfl | ht
      · omega
      · have := hids t ht; omega
    · rw [hst j (by omega)]
      by_cases e : j = x
      · subst e
        rw [hxx, List.filter_cons_of_pos (by rw [hy'.sec]; simp)]
        simp
      · rw [hfr1 j hj e, List.filter_cons_of_neg (by rw [hy'.sec]; simpa using Ne.symm e)]

/-- The declaration of the section `n` lists the term `k`. -/
def _root_.Spec.listsTerm (d : Dict DSec) (k n : Str) : Bool :=
  match d.get? n with
  | some e => decide (k ∈ e.terms.map lower)
  | none => false

theorem get_const {k n : Str} : ∀ (l : List Str), Dict.get? (l.map fun t => (lower t, n)) k = if k ∈ l.map lower then some n else none
  | [] => by simp [Dict.get?]
  | t :: l => by
    rw [List.map_cons, List.map_cons]
    by_cases e : lower t = k
    · simp [Dict.get?, e]
    · have e' : k ≠ lower t := Ne.symm e
      have := get_const (k := k) (n := n) l
      simp only [Dict.get?, List.find?_cons] at this ⊢
      simp [e, e', this]

theorem getOrNewSection_decl {n : Str} {ps : List Str} {s s' : St} {x : Nat} (h : getOrNewSection n ps s = .ok x s') : s'.declSecs = s.declSecs := by
  cases hs : s.sections.get? n with
  | none => rw [getOrNewSection_new s hs] at h; cases h; rfl
  | some y =>
    cases hl : s.sections.get? (lower n) with
    | none => simp [getOrNewSection, Dict.has, hs, hl] at h
    | some z => simp [getOrNewSection, Dict.has, hs, hl] at h; rw [h.2]

theorem yamlSections_spec : ∀ (names : List Str) (m : Dict Str) (secs : Dict Nat) {s s1 : St} {m1 : Dict Str} {secs1 : Dict Nat},
    yamlSections names m secs s = .ok (m1, secs1) s1 →
    (Reach (fun _ => True) s → Reach (fun _ => True) s1) ∧ s1.declSecs = s.declSecs ∧
    (∀ n, (secs1.get? n).isSome = ((secs.get? n).isSome || decide (n ∈ names))) ∧
    ∀ k, m1.get? k = (names.reverse.find? (listsTerm s.declSecs k)).or (m.get? k)
  | [], m, secs, s, s1, m1, secs1, h => by
    cases h
    exact ⟨id, rfl, fun n => by simp, fun k => by simp⟩
  | n :: ns, m, secs, s, s1, m1, secs1, h => by
    unfold yamlSections at h
    rw [bind_run, get_run] at h
    dsimp only at h
    cases hd : s.declSecs.get? n with
    | none => rw [hd] at h; cases h
    | some d =>
      rw [hd] at h
      simp only [bind_run] at h
      cases hg : getOrNewSection n d.args s with
      | err e s' => rw [hg] at h; cases h
      | ok x s' =>
        rw [hg] at h
        have hds := getOrNewSection_decl hg
        obtain ⟨a, b, c, e⟩ := yamlSections_spec ns _ _ h
        refine ⟨fun hr => a (reach_ok hr (.getOrNewSection n d.args) trivial (by
          show (getOrNewSection _ _ >>= fun _ => pure ()) s = _
          rw [bind_run, hg]; rfl)), by rw [b, hds], fun k => ?_, fun k => ?_⟩
        · rw [c k, Dict.get?_set]
          by_cases e : n = k
          · simp [e]
          · have : ¬ k = n := Ne.symm e
            simp [e, this]
        · rw [e k, hds, Dict.get?_update, ← List.map_reverse, get_const, List.reverse_cons, List.find?_append]
          have : listsTerm s.declSecs k n = decide (k ∈ d.terms.map lower) := by unfold listsTerm; rw [hd]
          by_cases hk : k ∈ d.terms.map lower
          · have hk' : k ∈ d.terms.reverse.map lower := by simpa using hk
            rw [if_pos hk']
            simp only [List.find?_cons, this, hk, decide_true]
            cases (List.find? (listsTerm s.declSecs k) ns.reverse) <;> rfl
          · have hk' : k ∉ d.terms.reverse.map lower := by simpa using hk
            rw [if_neg hk']
            simp only [List.find?_cons, this, hk, decide_false, List.find?_nil]
            cases (List.find? (listsTerm s.declSecs k) ns.reverse) <;> rfl

/-- **C69** Each of the six section names has a section, and a term name goes to the last of them whose declaration lists it, ignoring
letter case. -/
theorem C69_sections {s s1 : St} {m : Dict Str} {secs : Dict Nat} (h : yamlSections yamlSectionNames [] [] s = .ok (m, secs) s1) :
    (∀ n, (secs.get? n).isSome = decide (n ∈ yamlSectionNames)) ∧
    ∀ k, m.get? k = yamlSectionNames.reverse.find? (listsTerm s.declSecs k) := by
  obtain ⟨-, -, c, e⟩ := yamlSections_spec _ _ _ h
  refine ⟨fun n => by rw [c]; rfl, fun k => by rw [e]; simp [Dict.get?]⟩

/-- **C69** A YAML file of scalars and of lists of mappings of scalars is read without error: for each scalar and for each element of a list
there is one new term, in the order of the file, at the end of the document and of the section its name is declared for (the root section
if none is); its value is the scalar, or the element's entry of the declared value name; its children are the other entries of the
element, in order. Everything that was there before is unchanged. -/
theorem C69_reads_partial {s s1 : St} (h : Reach (fun _ => True) s) {m : Dict Str} {secs : Dict Nat} {d : KVs Val} {ts : List YTerm}
    (hs : yamlSections yamlSectionNames [] [] s = .ok (m, secs) s1)
    (ht : YTable (fun k => lower (declProp s1.declTerms (rootName k) (py!"termvaluename") [])) d ts)
    (hok : ∀ y ∈ ts, ∃ x n, secFor m secs y.name = some x ∧ Registered s1 x n ∧ YTermOk s1 x y) :
    ∃ s' ids, yamlDoc d s = .ok () s' ∧ s'.terms = s1.terms ++ ids ∧
      List.Forall₂ (fun y t => ∃ x, secFor m secs y.name = some x ∧ IsYTerm s' y x t) ts ids ∧
      (∀ j, j < s1.next → (s'.heap j).terms = (s1.heap j).terms ++ ids.filter fun t => (s'.heap t).sec = some j) ∧
      (∀ j, j < s1.next → s'.heap j = { s1.heap j with terms := (s'.heap j).terms }) ∧
      s' = { s1 with next := s'.next, heap := s'.heap, terms := s'.terms } := by
  obtain ⟨s', last', ids, hrun, -, hl, h1, -, h2, h3⟩ := yaml_terms m secs ts ((yamlSections_spec _ _ _ hs).1 h) [] hok
  refine ⟨s', ids, ?_, h1, h2, h3, hl.heap, hl.rest⟩
  have hy := yield_table s1.declTerms ht fun y hy => by
    obtain ⟨_, _, _, _, c⟩ := hok y hy
    exact c.name.nodot
  unfold yamlDoc
  rw [bind_run, hs]
  simp only [bind_run, get_run, hy, hrun, pure_run]

theorem yield_followed (d : Dict DTerm) {b : KVs Val} {evs : YEvents} : ∀ {a : KVs Val} {l : List YEvent}, yieldKVs d none none a = (l, none) →
    yieldKVs d none none b = evs → yieldKVs d none none (followed a b) = (l ++ evs.1, evs.2)
  | .nil, l, h, hb => by
    unfold yieldKVs at h
    cases h
    exact hb
  | .cons k v rest, l, h, hb => by
    unfold yieldKVs at h
    rw [if_neg (by simp)] at h
    obtain ⟨l1, h1⟩ : ∃ l1, yieldVal d none (yamlName none k) v = (l1, none) := by
      cases hv : yieldVal d none (yamlName none k) v with
      | mk l1 e =>
        cases e with
        | none => exact ⟨l1, rfl⟩
        | some e => rw [hv] at h; cases h
    obtain ⟨l2, h2⟩ : ∃ l2, yieldKVs d none none rest = (l2, none) := by
      cases hr : yieldKVs d none none rest with
      | mk l2 e =>
        cases e with
        | none => exact ⟨l2, rfl⟩
        | some e => rw [h1, hr] at h; cases h
    rw [h1, h2] at h
    have e := yield_followed d h2 hb
    rw [followed]
    unfold yieldKVs
    rw [if_neg (by simp), h1, e]
    cases h
    simp [YEvents.then]

/-- **C69** A list whose first element is no mapping, as in `keyword: [a, b]`, ends the reading with TypeError: the terms of the entries before
it are there, those of the entries after it are not. -/
theorem C69_stops {s s1 : St} (h : Reach (fun _ => True) s) {m : Dict Str} {secs : Dict Nat} {d : KVs Val} {ts : List YTerm}
    (hs : yamlSections yamlSectionNames [] [] s = .ok (m, secs) s1)
    (ht : YTable (fun k => lower (declProp s1.declTerms (rootName k) (py!"termvaluename") [])) d ts)
    (hok : ∀ y ∈ ts, ∃ x n, secFor m secs y.name = some x ∧ Registered s1 x n ∧ YTermOk s1 x y) {k : Str} {e : J Val} {es : Js Val} {more : KVs Val}
    (he : ∀ kvs, e ≠ .map kvs) :
    ∃ s' ids, yamlDoc (followed d (.cons k (.seq (.cons e es)) more)) s = .err .typeError s' ∧ s'.terms = s1.terms ++ ids ∧
      List.Forall₂ (fun y t => ∃ x, secFor m secs y.name = some x ∧ IsYTerm s' y x t) ts ids ∧
      (∀ j, j < s1.next → s'.heap j = { s1.heap j with terms := (s'.heap j).terms }) := by
  obtain ⟨s', last', ids, hrun, -, hl, h1, -, h2, h3⟩ := yaml_terms m secs ts ((yamlSections_spec _ _ _ hs).1 h) [] hok
  refine ⟨s', ids, ?_, h1, h2, hl.heap⟩
  have hy := yield_table s1.declTerms ht fun y hy => by
    obtain ⟨_, _, _, _, c⟩ := hok y hy
    exact c.name.nodot
  have hb : yieldKVs s1.declTerms none none (.cons k (.seq (.cons e es)) more) = ([], some .typeError) := by
    unfold yieldKVs
    rw [if_neg (by simp)]
    unfold yieldVal
    cases e with
    | map kvs => exact absurd rfl (he kvs)
    | leaf v => rfl
    | seq l => rfl
  unfold yamlDoc
  rw [bind_run, hs]
  simp only [bind_run, get_run, yield_followed _ hy hb, List.append_nil, hrun]
  rfl

/-- **C69** A file is only read without error if every mapping has its term before its entries: each name of a parent is the name of an
earlier entry. -/
theorem yamlLoop_parents (m : Dict Str) (secs : Dict Nat) : ∀ (evs : List YEvent) (last last' : Dict Nat) (s s' : St),
    yamlLoop m secs last evs s = .ok last' s' → ∀ pre tn v p post, evs = pre ++ (tn, v, some p) :: post →
      (last.get? p).isSome = true ∨ p ∈ pre.map (·.1)
  | [], _, _, _, _, _, pre, _, _, _, _, e => by cases pre <;> cases e
  | ev :: evs, last, last', s, s', h, pre, tn, v, p, post, e => by
    unfold yamlLoop at h
    rw [bind_run] at h
    cases hr : yamlEvent m secs last ev s with
    | err x s1 => rw [hr] at h; cases h
    | ok l1 s1 =>
      rw [hr] at h
      have hl : ∀ q, (l1.get? q).isSome = true → (last.get? q).isSome = true ∨ q = ev.1 := by
        intro q hq
        have key : ∀ (name : Str) (mm : M Nat), (do let t ← mm; return last.set name t : M (Dict Nat)) s = .ok l1 s1 →
            (last.get? q).isSome = true ∨ q = name := by
          intro name mm hm
          rw [bind_run] at hm
          cases hmm : mm s with
          | err _ _ => rw [hmm] at hm; cases hm
          | ok t s2 =>
            rw [hmm] at hm
            cases hm
            rw [Dict.get?_set] at hq
            by_cases e : name = q
            · exact .inr e.symm
            · rw [if_neg e] at hq; exact .inl hq
        obtain ⟨name, val, par⟩ := ev
        cases val with
        | map _ => unfold yamlEvent at hr; cases hr
        | seq _ => unfold yamlEvent at hr; cases hr
        | leaf w =>
          cases par with
          | none =>
            unfold yamlEvent at hr
            cases hx : secs.get? ((m.get? name).getD (py!"root")) with
            | none => simp only [hx] at hr; cases hr
            | some x => simp only [hx] at hr; exact key _ _ hr
          | some p0 =>
            unfold yamlEvent at hr
            cases hx : last.get? p0 with
            | none => simp only [hx] at hr; cases hr
            | some x => simp only [hx] at hr; exact key _ _ hr
      cases pre with
      | nil =>
        cases e
        cases hx : last.get? p with
        | some x => exact .inl rfl
        | none =>
          exfalso
          unfold yamlEvent at hr
          cases v with
          | leaf w => simp only [hx] at hr; cases hr
          | map _ => cases hr
          | seq _ => cases hr
      | cons ev' pre =>
        cases e
        rcases yamlLoop_parents m secs _ l1 last' s1 s' h pre tn v p post rfl with h1 | h1
        · rcases hl p h1 with h2 | h2
          · exact .inl h2
          · exact .inr (by rw [List.map_cons, h2]; exact List.mem_cons_self)
        · exact .inr (List.mem_cons_of_mem _ h1)

/-- **C69** If a file is read without error, every entry inside a mapping or list element comes after an entry that made a term of the
mapping's name. -/
theorem C69_parent {s s' : St} {d : KVs Val} (h : yamlDoc d s = .ok () s') {m : Dict Str} {secs : Dict Nat} {s1 : St}
    (hs : yamlSections yamlSectionNames [] [] s = .ok (m, secs) s1) {pre post : List YEvent} {tn p : Str} {v : J Val}
    (e : (yieldKVs s1.declTerms none none d).1 = pre ++ (tn, v, some p) :: post) : p ∈ pre.map (·.1) := by
  unfold yamlDoc at h
  rw [bind_run, hs] at h
  simp only [bind_run, get_run] at h
  cases hl : yamlLoop m secs [] (yieldKVs s1.declTerms none none d).1 s1 with
  | err x s2 => rw [hl] at h; cases h
  | ok l s2 =>
    rcases yamlLoop_parents m secs _ _ _ _ _ hl pre tn v p post e with h1 | h1
    · cases h1
    · exact h1

/-- **C69** A mapping of scalars directly under a name, as in `creator: {name: …}`, is never read: the first of its entries has no term to belong
to. -/
theorem C69_mapping {s s1 : St} {m : Dict Str} {secs : Dict Nat} (hs : yamlSections yamlSectionNames [] [] s = .ok (m, secs) s1) {k k' : Str} {v : Val}
    (rest : KVs Val) (more : KVs Val) :
    yamlDoc (.cons k (.map (.cons k' (.leaf v) rest)) more) s = .err .keyError s1 := by
  have e : ∃ l x, yieldKVs s1.declTerms none none (.cons k (.map (.cons k' (.leaf v) rest)) more) =
      ((yamlName (some (yamlName none k)) k', .leaf v, some (yamlName none k)) :: l, x) := by
    unfold yieldKVs
    rw [if_neg (by simp)]
    unfold yieldVal yieldKVs
    rw [if_neg (by simp)]
    unfold yieldVal YEvents.then
    dsimp only
    cases (yieldKVs s1.declTerms (some (yamlName none k)) none rest).2 <;> exact ⟨_, _, rfl⟩
  obtain ⟨l, x, e⟩ := e
  unfold yamlDoc
  rw [bind_run, hs]
  simp only [bind_run, get_run, e]
  unfold yamlLoop
  rw [bind_run]
  have : yamlEvent m secs [] (yamlName (some (yamlName none k)) k', .leaf v, some (yamlName none k)) s1 = .err .keyError s1 := rfl
  rw [this]

/-! ## Examples -/
/-- A declare file with the six sections. -/
def yamlFiles : Files :=
  { rows := fun n =>
      if n = py!"d.csv" then some
        [[py!"Section", py!"DeclaredSections"], [py!"DeclareSection", py!"Root"], [py!"DeclareSection", py!"Contacts", py!"Email"],
         [py!"DeclareSection", py!"Documentation"], [py!"DeclareSection", py!"Resources"], [py!"DeclareSection", py!"References"],
         [py!"DeclareSection", py!"Schema"], [py!"Section", py!"DeclaredTerms", py!"TermValueName", py!"Section"],
         [py!"DeclareTerm", py!"Root.Creator", py!"Name", py!"Contacts"], [py!"DeclareTerm", py!"Note", py!"Text", py!"Documentation"]]
      else none
    decl := fun _ n => some n }
/-- A new document with these declarations. -/
def yamlStart : St := after (loadDeclarations yamlFiles 3 [py!"d.csv"]) exDoc
/-- `title: T`, `creator: [{email: e, name: N}, {name: M}]`. -/
def exYaml : KVs Val :=
  .cons (py!"title") (.leaf (.str (py!"T"))) (.cons (py!"creator") (.seq
    (.cons (.map (.cons (py!"email") (.leaf (.str (py!"e"))) (.cons (py!"name") (.leaf (.str (py!"N"))) .nil)))
    (.cons (.map (.cons (py!"name") (.leaf (.str (py!"M"))) .nil)) .nil))) .nil)

/-- The document after the sections have been made. -/
def yamlMid : St := after (yamlSections yamlSectionNames [] []) yamlStart
/-- The terms the file stands for. -/
def exYTerms : List YTerm :=
  [⟨py!"title", .str (py!"T"), []⟩, ⟨py!"creator", .str (py!"N"), [(py!"email", .str (py!"e"))]⟩, ⟨py!"creator", .str (py!"M"), []⟩]
def exSecMap : Dict Str := [(py!"root.creator", py!"contacts"), (py!"note", py!"documentation")]
def exSecs : Dict Nat := [(py!"root", 0), (py!"contacts", 21), (py!"documentation", 22), (py!"resources", 23), (py!"references", 24), (py!"schema", 25)]

theorem yamlStart_reach : Reach (fun _ => True) yamlStart := by
  unfold yamlStart exDoc
  exact Reach.step (.loadDeclarations yamlFiles 3 [py!"d.csv"]) (.new exEnv _) trivial trivial

theorem yamlMid_run : yamlSections yamlSectionNames [] [] yamlStart = .ok (exSecMap, exSecs) yamlMid := ok_after (by decide +kernel)

/-- The file stands for three terms. -/
theorem exYaml_table : YTable (fun k => lower (declProp yamlMid.declTerms (rootName k) (py!"termvaluename") [])) exYaml exYTerms := by
  have hn : lower (declProp yamlMid.declTerms (rootName (py!"creator")) (py!"termvaluename") []) = py!"name" := by decide +kernel
  refine .one (.many (is := [(.str (py!"N"), [(py!"email", .str (py!"e"))]), (.str (py!"M"), [])]) ?_ .nil)
  rw [hn]
  exact .cons (l := [(py!"email", .str (py!"e")), (py!"name", .str (py!"N"))]) rfl (by decide)
    (.cons (l := [(py!"name", .str (py!"M"))]) rfl (by decide) .nil)

theorem exYaml_ok : ∀ y ∈ exYTerms, ∃ x n, secFor exSecMap exSecs y.name = some x ∧ Registered yamlMid x n ∧ YTermOk yamlMid x y := by
  intro y hy
  have hR : Registered yamlMid 0 (py!"Root") := ⟨by decide +kernel, by decide +kernel, by decide +kernel, by decide +kernel⟩
  have hC : Registered yamlMid 21 (py!"contacts") := ⟨by decide +kernel, by decide +kernel, by decide +kernel, by decide +kernel⟩
  have hn : PlainPart (py!"creator") := ⟨by decide, by decide, by decide⟩
  rcases List.mem_cons.1 hy with rfl | hy
  · exact ⟨0, _, by decide +kernel, hR, ⟨⟨by decide, by decide, by decide⟩, by decide, by decide +kernel, by decide +kernel, by simp⟩⟩
  · rcases List.mem_cons.1 hy with rfl | hy
    · refine ⟨21, _, by decide +kernel, hC, ⟨hn, by decide, by decide +kernel, by decide +kernel, fun kv hk => ?_⟩⟩
      obtain rfl := List.mem_singleton.1 hk
      exact ⟨⟨by decide, by decide, by decide⟩, by decide, by decide +kernel, by decide +kernel, _, rfl⟩
    · obtain rfl := List.mem_singleton.1 hy
      exact ⟨21, _, by decide +kernel, hC, ⟨hn, by decide, by decide +kernel, by decide +kernel, by simp⟩⟩

/-- The hypotheses of `C69_reads_partial` can be met. -/
example : ∃ s' a b c, yamlDoc exYaml yamlStart = .ok () s' ∧ s'.terms = yamlMid.terms ++ [a, b, c] ∧
    (s'.heap a).join = py!"root.title" ∧ (s'.heap b).value = .str (py!"N") ∧ (s'.heap c).value = .str (py!"M") ∧ (s'.heap b).sec = some 21 ∧
    ∃ k, (s'.heap b).children = [k] ∧ (s'.heap k).join = py!"creator.email" := by
  obtain ⟨s', ids, h1, h2, h3, -⟩ := C69_reads_partial yamlStart_reach yamlMid_run exYaml_table exYaml_ok
  cases h3 with
  | @cons _ a _ _ ha h3 =>
    cases h3 with
    | @cons _ b _ _ hb h3 =>
      cases h3 with
      | @cons _ c _ _ hc h3 =>
        cases h3
        obtain ⟨xa, -, ya⟩ := ha
        obtain ⟨xb, eb, yb⟩ := hb
        obtain ⟨xc, -, yc⟩ := hc
        have hxb : xb = 21 := by
          have : secFor exSecMap exSecs (py!"creator") = some 21 := by decide
          exact Option.some.inj (eb.symm.trans this)
        have hk := yb.kids
        generalize hcs : (s'.heap b).children = cs at hk
        cases hk with
        | @cons _ k _ _ hk0 hk =>
          cases hk
          exact ⟨s', a, b, c, h1, h2, ya.join, yb.value, yc.value, by rw [yb.sec, hxb], k, hcs, hk0.join⟩

/-- A list of scalars after the three terms, and a term that is not read. -/
example : ∃ s' ids, yamlDoc (followed exYaml (.cons (py!"keyword") (.seq (.cons (.leaf (.str (py!"a"))) .nil)) (.cons (py!"note") (.leaf (.str (py!"n"))) .nil)))
    yamlStart = .err .typeError s' ∧ s'.terms = yamlMid.terms ++ ids ∧ ids.length = 3 := by
  obtain ⟨s', ids, h1, h2, h3, -⟩ := C69_stops yamlStart_reach yamlMid_run exYaml_table exYaml_ok (k := py!"keyword") (e := .leaf (.str (py!"a"))) (es := .nil)
    (more := .cons (py!"note") (.leaf (.str (py!"n"))) .nil) (fun _ h => by cases h)
  exact ⟨s', ids, h1, h2, h3.length_eq.symm⟩

/-- The hypotheses of `C69_parent` can be met. -/
example : ∃ pre tn v p post, (yieldKVs yamlMid.declTerms none none exYaml).1 = pre ++ (tn, v, some p) :: post ∧ p = py!"root.creator" := by
  rw [yield_table _ exYaml_table (by decide)]
  exact ⟨[_, _], _, _, _, _, rfl, rfl⟩

/-- **C69** `creator: {name: N}` is not read. -/
theorem C69_mapping_witness :
    yamlDoc (.cons (py!"creator") (.map (.cons (py!"name") (.leaf (.str (py!"N"))) .nil)) .nil) yamlStart = .err .keyError yamlMid :=
  C69_mapping yamlMid_run .nil .nil

/-- **C69** Nor is a list of scalars, `keyword: [a, b]`. -/
theorem C69_scalars_witness :
    (yamlDoc (.cons (py!"keyword") (.seq (.cons (.leaf (.str (py!"a"))) (.cons (.leaf (.str (py!"b"))) .nil))) .nil) yamlStart).val =
      .error .typeError := by
  decide +kernel

/-- **C69** An element of a list without the entry for the value is no term of its own; its entries become properties of the element
before: here the first creator gets the e-mail address of the second. -/
theorem C69_unnamed_witness :
    let d : KVs Val := .cons (py!"creator") (.seq (.cons (.map (.cons (py!"name") (.leaf (.str (py!"N"))) .nil))
      (.cons (.map (.cons (py!"email") (.leaf (.str (py!"m"))) .nil)) .nil))) .nil
    let s := after (yamlDoc d) yamlStart
    (yamlDoc d yamlStart).val = .ok () ∧ (s.terms.drop yamlMid.terms.length).map (fun t => ((s.heap t).value, (s.heap t).children.map fun c => ((s.heap c).join, (s.heap c).value))) =
      [(.str (py!"N"), [(py!"creator.email", .str (py!"m"))])] := by
  decide +kernel

/-- **C69** A term declared without its `Root.` prefix does not come to its section: `Note` is declared for Documentation and is put in Root. -/
theorem C69_bare_witness :
    let d : KVs Val := .cons (py!"note") (.leaf (.str (py!"x"))) .nil
    let s := after (yamlDoc d) yamlStart
    (yamlDoc d yamlStart).val = .ok () ∧ (s.terms.drop yamlMid.terms.length).map (fun t => ((s.heap t).join, (s.heap t).sec)) = [(py!"root.note", some s.root)] := by
  decide +kernel

end Metatab
