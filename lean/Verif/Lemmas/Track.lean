import Verif.Lemmas.Reader
import Verif.Spec.Quiet
/-! The parser follows the reference reader from any regular state.

`Lemmas/Reader` follows it from the empty document. Here the rows may come after others, such as `Declare` rows, so nothing is said
about value names, the document's list of terms and the root section's children, and the columns and the last term are only known
from the first section row on. -/
namespace Metatab
open Py _root_.Spec

/-- The part of `Holds` that the outline of a document depends on. -/
structure Tracks (s : St) (a : Reader) (ids : List Nat) : Prop where
  count : ids.length = a.nodes.length
  distinct : ids.Nodup
  exist : ∀ t ∈ ids, t < s.next ∧ (s.heap t).cls.isSection = false
  term : ∀ n t, (n, t) ∈ a.nodes.zip ids → (s.heap t).pt = n.pt ∧ (s.heap t).rt = n.rt ∧ (s.heap t).value = n.value ∧
    (s.heap t).parent = some (ref s ids n.parent) ∧ (s.heap t).sec = s.sections.get? n.sec
  children : ∀ i, i < ids.length → (s.heap (ref s ids (some i))).children = pick a.nodes ids fun n => n.parent = some i
  sections : s.sections.keys = a.secs.keys
  columns : ∀ k x, s.sections.get? k = some x → ∃ n, (s.heap x).value = .str n ∧ a.secs.get? k = some (n, (s.heap x).args)
  noHeader : ∀ k x, s.sections.get? k = some x → (s.heap x).headerArgs = []
  sectionTerms : ∀ k x, s.sections.get? k = some x → (s.heap x).terms = pick a.nodes ids fun n => n.pt = py!"root" && n.sec = k

/-- The state and the reference reader agree; if `G` holds, also on the columns and on the last term. -/
structure Track (G : Prop) (s : St) (a : Reader) (ids : List Nat) : Prop extends Tracks s a ids where
  names : ∀ k x, s.sections.get? k = some x → ∃ n, (s.heap x).value = .str n ∧ lower n = k
  cur : s.sections.get? a.cur = some s.p.lastSec
  cols : G → s.p.paramMap = mungeParamMap a.cols
  lastName : G → s.p.lastParent = a.last.1
  lastRef : G → s.p.lastMap.get? a.last.1 = some (ref s ids a.last.2)
  known : ∀ k i, k ≠ ELIDED → Dict.get? a.known k = some i → s.p.lastMap.get? k = some (ref s ids i)
  secKnown : ∀ n ∈ a.nodes, (s.sections.get? n.sec).isSome
  nodesOk : ∀ n ∈ a.nodes, RefOk ids.length n.parent
  lastOk : RefOk ids.length a.last.2
  knownOk : ∀ k i, Dict.get? a.known k = some i → RefOk ids.length i
  declSecs : s.declSecs = []

theorem Tracks.ref_lt {s : St} {a : Reader} {ids : List Nat} (h : Tracks s a ids) (hr : s.root < s.next) {i : Option Nat} (hi : RefOk ids.length i) :
    ref s ids i < s.next := by
  cases i with
  | none => exact hr
  | some i => rw [ref_some hi]; exact (h.exist _ (List.getElem_mem hi)).1

/-- Different references are different objects. -/
theorem Tracks.ref_inj {s : St} {a : Reader} {ids : List Nat} (h : Tracks s a ids) (hr : (s.heap s.root).cls.isSection = true)
    {i j : Option Nat} (hi : RefOk ids.length i) (hj : RefOk ids.length j) (e : ref s ids i = ref s ids j) : i = j := by
  have nr : ∀ k, (hk : k < ids.length) → ids[k] ≠ s.root := by
    intro k hk e
    have := (h.exist _ (List.getElem_mem hk)).2
    rw [e, hr] at this; cases this
  cases i with
  | none =>
    cases j with
    | none => rfl
    | some j => rw [ref_some hj] at e; exact absurd e.symm (nr j hj)
  | some i =>
    cases j with
    | none => rw [ref_some hi] at e; exact absurd e (nr i hi)
    | some j =>
      rw [ref_some hi, ref_some hj] at e
      rw [(List.Nodup.getElem_inj_iff h.distinct).1 e]

theorem finalObj_headerArgs {s : St} {o : Obj} {p r : Str} {q : Nat} : (finalObj s o p r q).headerArgs = o.headerArgs := by
  unfold finalObj finish dress
  split <;> rfl

/-- One more term. -/
theorem tracks_add {G F : Prop} {s : St} (hp : PInvG G F s) {a : Reader} {ids : List Nat} (h : Track G s a ids) {o : Obj} (hn : NewTerm o)
    {p r : Str} {par : Option Nat} (hpar : RefOk ids.length par)
    (hl : lower (finalPt s.p p) = finalPt s.p p) {known : List (Str × Option Nat)} {last : Str × Option Nat} :
    Tracks (addTerm s o p r (ref s ids par))
      { a with nodes := a.nodes ++ [⟨finalPt s.p p, r, o.value, par, a.cur, a.vname⟩], known := known, last := last } (ids ++ [s.next]) := by
  obtain ⟨q, hq⟩ : ∃ q, q = ref s ids par := ⟨_, rfl⟩
  rw [← hq]
  have hqlt : q < s.next := by rw [hq]; exact h.toTracks.ref_lt hp.wf.rootLt hpar
  have hold : ∀ t ∈ ids, t < s.next := fun t ht => (h.exist t ht).1
  have hroot : ∀ i, ref (addTerm s o p r q) ids i = ref s ids i := by
    intro i; cases i <;> rfl
  have href : ∀ i, RefOk ids.length i → ref (addTerm s o p r q) (ids ++ [s.next]) i = ref s ids i := by
    intro i hi; rw [ref_append hi, hroot]
  have hx := hp.wf.pSec.1
  have hlen : (ids ++ [s.next]).length = ids.length + 1 := by simp
  refine ⟨?_, ?_, ?_, ?_, ?_, ?_, ?_, ?_, ?_⟩
  · simp [h.count]
  · rw [List.nodup_append]
    refine ⟨h.distinct, List.nodup_singleton _, ?_⟩
    intro x hx y hy
    rw [List.mem_singleton.1 hy]; exact Nat.ne_of_lt (hold x hx)
  · intro t ht
    rcases List.mem_append.1 ht with ht | ht
    · refine ⟨Nat.lt_succ_of_lt (hold t ht), ?_⟩
      rw [addTerm_heap_old (hold t ht)]; exact (h.exist t ht).2
    · rw [List.mem_singleton.1 ht, addTerm_heap_new, finalObj_cls]
      exact ⟨Nat.lt_succ_self _, hn.cls⟩
  · intro n t hm
    simp only at hm
    rw [List.zip_append h.count.symm] at hm
    rcases List.mem_append.1 hm with hm | hm
    · obtain ⟨a1, a2, a3, a6, a7⟩ := h.term n t hm
      rw [addTerm_heap_old (hold t (zip_mem_right hm)), href _ (h.nodesOk n (List.of_mem_zip hm).1)]
      exact ⟨a1, a2, a3, a6, a7⟩
    · simp only [List.zip_cons_cons, List.zip_nil_right, List.mem_singleton, Prod.mk.injEq] at hm
      obtain ⟨rfl, rfl⟩ := hm
      rw [addTerm_heap_new, finalObj_pt, finalObj_rt, finalObj_value, finalObj_parent, finalObj_sec, href _ hpar, ← hq]
      exact ⟨rfl, rfl, rfl, rfl, h.cur.symm⟩
  · intro i hi
    rw [pick_append h.count]
    by_cases hil : i < ids.length
    · rw [href (some i) hil, addTerm_heap_old (h.toTracks.ref_lt hp.wf.rootLt (i := some i) hil)]
      simp only
      rw [h.children i hil]
      by_cases he : par = some i
      · rw [if_pos (by rw [hq, he]), if_pos (by simp [he])]
      · rw [if_neg (fun e => he (h.toTracks.ref_inj hp.wf.rootSec hpar (j := some i) hil (hq.symm.trans e.symm)))]
        simp [he]
    · have hie : i = ids.length := by omega
      have : ref (addTerm s o p r q) (ids ++ [s.next]) (some i) = s.next := by
        unfold ref; simp [hie]
      rw [this, addTerm_heap_new, finalObj_children, hn.children]
      have h1 : pick a.nodes ids (fun n => n.parent = some i) = [] := by
        unfold pick
        rw [List.map_eq_nil_iff, List.filter_eq_nil_iff]
        intro nt hm he
        have := h.nodesOk nt.1 (List.of_mem_zip (show (nt.1, nt.2) ∈ _ from hm)).1
        rw [of_decide_eq_true he, hie] at this
        exact Nat.lt_irrefl _ this
      have h2 : par ≠ some i := by
        intro e
        rw [e, hie] at hpar
        exact Nat.lt_irrefl _ hpar
      rw [h1]; simp [h2]
  · exact h.sections
  · intro k x hk
    have hxlt := (hp.wf.secsLt _ (Dict.mem_of_get? hk)).1
    rw [addTerm_heap_old hxlt]
    exact h.columns k x hk
  · intro k x hk
    have hxlt := (hp.wf.secsLt _ (Dict.mem_of_get? hk)).1
    rw [addTerm_heap_old hxlt]
    exact h.noHeader k x hk
  · intro k x hk
    have hk : s.sections.get? k = some x := hk
    have hxlt : x < s.next := (hp.wf.secsLt _ (Dict.mem_of_get? hk)).1
    rw [addTerm_heap_old hxlt, pick_append h.count]
    show (if lower (finalPt s.p p) = ROOT ∧ x = s.p.lastSec then (s.heap x).terms ++ [s.next] else (s.heap x).terms) = _
    rw [h.sectionTerms k x hk, hl]
    have hkx : x = s.p.lastSec ↔ a.cur = k := by
      constructor
      · intro e
        obtain ⟨n1, v1, l1⟩ := h.names _ _ hk
        obtain ⟨n2, v2, l2⟩ := h.names _ _ h.cur
        rw [← e, v1] at v2
        cases v2
        rw [← l1, ← l2]
      · intro e
        have := h.cur
        rw [e, hk] at this; exact Option.some.inj this
    by_cases he : finalPt s.p p = ROOT ∧ x = s.p.lastSec
    · rw [if_pos he, if_pos (by simp only [Bool.and_eq_true, decide_eq_true_eq]; exact ⟨he.1, hkx.1 he.2⟩)]
    · rw [if_neg he, if_neg (by simp only [Bool.and_eq_true, decide_eq_true_eq]; exact fun hc => he ⟨hc.1, hkx.2 hc.2⟩), List.append_nil]

/-- A term that rows cannot refer to: an elided row or an argument cell. -/
theorem track_child {G F : Prop} {s : St} (hp : PInvG G F s) {a : Reader} {ids : List Nat} (h : Track G s a ids) {o : Obj} (hn : NewTerm o)
    {p r : Str} {par : Option Nat} (hpar : RefOk ids.length par)
    (hl : lower (finalPt s.p p) = finalPt s.p p) (hnm : ¬ Named p o.col) :
    Track G (addTerm s o p r (ref s ids par))
      { a with nodes := a.nodes ++ [⟨finalPt s.p p, r, o.value, par, a.cur, a.vname⟩] } (ids ++ [s.next]) := by
  have hh := tracks_add (r := r) hp h hn hpar hl (known := a.known) (last := a.last)
  have hps : (addTerm s o p r (ref s ids par)).p = s.p := addTerm_p_arg hnm
  obtain ⟨q, hq⟩ : ∃ q, q = ref s ids par := ⟨_, rfl⟩
  rw [← hq] at hh hps ⊢
  have href : ∀ i, RefOk ids.length i → ref (addTerm s o p r q) (ids ++ [s.next]) i = ref s ids i := by
    intro i hi; rw [ref_append hi]; cases i <;> rfl
  have hlen : (ids ++ [s.next]).length = ids.length + 1 := by simp
  refine { hh with names := ?_, cur := ?_, cols := ?_, lastName := ?_, lastRef := ?_, known := ?_, nodesOk := ?_, secKnown := ?_, lastOk := ?_, knownOk := ?_, declSecs := h.declSecs }
  · intro k x hk
    have hxlt : x < s.next := (hp.wf.secsLt _ (Dict.mem_of_get? hk)).1
    rw [addTerm_heap_old hxlt]; exact h.names k x hk
  · rw [hps]; exact h.cur
  · rw [hps]; exact h.cols
  · rw [hps]; exact h.lastName
  · rw [hps, href _ h.lastOk]; exact h.lastRef
  · intro k i hk hg
    rw [hps, h.known k i hk hg, href _ (h.knownOk k i hg)]
  · intro n hm
    rcases List.mem_append.1 hm with hm | hm
    · exact h.secKnown n hm
    · rw [List.mem_singleton.1 hm]; show (s.sections.get? a.cur).isSome; rw [h.cur]; rfl
  · intro n hm
    rw [hlen]
    rcases List.mem_append.1 hm with hm | hm
    · exact refOk_succ (h.nodesOk n hm)
    · rw [List.mem_singleton.1 hm]; exact refOk_succ hpar
  · rw [hlen]; exact refOk_succ h.lastOk
  · intro k i hk; rw [hlen]; exact refOk_succ (h.knownOk k i hk)

/-- A term that later rows can refer to. -/
theorem track_named {G F : Prop} {s : St} (hp : PInvG G F s) {a : Reader} {ids : List Nat} (h : Track G s a ids) {o : Obj} (hn : NewTerm o)
    {p r : Str} {par : Option Nat} (hpar : RefOk ids.length par)
    (hl : lower (finalPt s.p p) = finalPt s.p p) (hnm : Named p o.col) :
    Track G (addTerm s o p r (ref s ids par))
      { a with nodes := a.nodes ++ [⟨finalPt s.p p, r, o.value, par, a.cur, a.vname⟩]
               known := (r, some a.nodes.length) :: a.known, last := (r, some a.nodes.length) } (ids ++ [s.next]) := by
  have hh := tracks_add (r := r) hp h hn hpar hl (known := (r, some a.nodes.length) :: a.known) (last := (r, some a.nodes.length))
  have hps : (addTerm s o p r (ref s ids par)).p = { s.p with lastParent := r, lastMap := (s.p.lastMap.set ELIDED s.next).set r s.next } := by
    show nextP .. = _
    unfold nextP; rw [if_pos hnm]
  obtain ⟨q, hq⟩ : ∃ q, q = ref s ids par := ⟨_, rfl⟩
  rw [← hq] at hh hps ⊢
  have href : ∀ i, RefOk ids.length i → ref (addTerm s o p r q) (ids ++ [s.next]) i = ref s ids i := by
    intro i hi; rw [ref_append hi]; cases i <;> rfl
  have hnew : ref (addTerm s o p r q) (ids ++ [s.next]) (some a.nodes.length) = s.next := by
    unfold ref; simp [← h.count]
  have hlen : (ids ++ [s.next]).length = ids.length + 1 := by simp
  have hok : RefOk (ids ++ [s.next]).length (some a.nodes.length) := by
    rw [hlen, ← h.count]; exact Nat.lt_succ_self _
  refine { hh with names := ?_, cur := ?_, cols := ?_, lastName := ?_, lastRef := ?_, known := ?_, nodesOk := ?_, secKnown := ?_, lastOk := hok, knownOk := ?_, declSecs := h.declSecs }
  · intro k x hk
    have hxlt : x < s.next := (hp.wf.secsLt _ (Dict.mem_of_get? hk)).1
    rw [addTerm_heap_old hxlt]; exact h.names k x hk
  · rw [hps]; exact h.cur
  · rw [hps]; exact h.cols
  · intro _; rw [hps]
  · intro _; rw [hps, hnew]; show Dict.get? (Dict.set _ _ _) _ = _; rw [Dict.get?_set, if_pos rfl]
  · intro k i hk hg
    rw [hps]
    show Dict.get? (Dict.set (Dict.set _ _ _) _ _) _ = _
    rw [Dict.get?_cons] at hg
    rw [Dict.get?_set, Dict.get?_set]
    by_cases hrk : r = k
    · rw [if_pos hrk] at hg ⊢
      cases hg
      rw [hnew]
    · rw [if_neg hrk] at hg
      rw [if_neg hrk, if_neg (Ne.symm hk), h.known k i hk hg, href _ (h.knownOk k i hg)]
  · intro n hm
    rcases List.mem_append.1 hm with hm | hm
    · exact h.secKnown n hm
    · rw [List.mem_singleton.1 hm]; show (s.sections.get? a.cur).isSome; rw [h.cur]; rfl
  · intro n hm
    rw [hlen]
    rcases List.mem_append.1 hm with hm | hm
    · exact refOk_succ (h.nodesOk n hm)
    · rw [List.mem_singleton.1 hm]; exact refOk_succ hpar
  · intro k i hk
    rw [Dict.get?_cons] at hk
    split at hk
    · cases hk; exact hok
    · rw [hlen]; exact refOk_succ (h.knownOk k i hk)

/-- The argument cells of a term. -/
theorem track_args {F : Prop} {t : Nat} {R : Str} (hg : PlainName R) : ∀ {vs : List Str} {k : Nat} {s : St}
    {a : Reader} {ids : List Nat}, PInv F s → Track True s a ids → t < s.next → (s.heap t).rt = R →
    (∀ v ∈ vs, strip v = v) → ∃ ids', Track True (argsEffect t k vs s) (Reader.addArgs R k vs a) ids'
  | [], _, s, a, ids, _, h, _, _, _ => ⟨ids, h⟩
  | v :: vs, k, s, a, ids, hp, h, ht, hR, hst => by
    obtain ⟨i1, i2, i3⟩ := argEffect_inv (k := k) (v := v) hp ht (by rw [hR]; exact hg)
    have hs := hst v List.mem_cons_self
    have key : ∃ ids', Track True (argEffect t k v s) (if strip v = [] then a
       else { a with nodes := a.nodes ++ [⟨R, colName a.cols k, .str (strip v), a.last.2, a.cur, a.vname⟩] }) ids' := by
      unfold argEffect
      by_cases hb : strip v = []
      · rw [if_pos hb, if_pos hb]; exact ⟨ids, h⟩
      · rw [if_neg hb, if_neg hb, hR]
        obtain ⟨hcls, hca⟩ := canAdd_arg (k := k) (v := v) hp hR hg
        have hne : R ≠ ELIDED := fun e => hg.plain (by rw [e]; decide)
        have hfp : finalPt s.p R = R := if_neg hne
        have hlast : lastTerm s = ref s ids a.last.2 := by
          unfold lastTerm; rw [h.lastName trivial, h.lastRef trivial]; rfl
        have hnew : NewTerm (argCell s t k v) := by unfold argCell; rw [hR]; exact newTerm_argObj hcls _ _ _ _
        have hnn : ¬ Named R (argCell s t k v).col := by
          intro hn; have := hn.2; simp [argCell, argObj] at this
        have := track_child hp h (p := R) (r := colName a.cols k) hnew h.lastOk (by rw [hfp]; exact hg.low) hnn
        rw [hfp, show (argCell s t k v).value = .str (strip v) by
          unfold argCell argObj
          simp only
          rw [cellValue_mk]; unfold cellValue; rw [if_neg (by intro e; rw [e] at hb; exact hb rfl)]] at this
        rw [hlast, h.cols trivial, remap_colName]
        exact ⟨_, this⟩
    obtain ⟨ids', h'⟩ := key
    obtain ⟨ids'', h''⟩ := track_args hg (vs := vs) (k := k + 1) i1 h' i2 (i3.trans hR) fun v hv => hst v (List.mem_cons_of_mem _ hv)
    exact ⟨ids'', h''⟩

theorem tracks_keep {s s' : St} {a a' : Reader} {ids : List Nat} (k : Keep s s') (h : Tracks s a ids) (hr : s.root < s.next)
    (hn : a'.nodes = a.nodes) (hsec : ∀ n ∈ a.nodes, s'.sections.get? n.sec = s.sections.get? n.sec)
    (h1 : s'.sections.keys = a'.secs.keys)
    (h2 : ∀ k x, s'.sections.get? k = some x → ∃ n, (s'.heap x).value = .str n ∧ a'.secs.get? k = some (n, (s'.heap x).args))
    (h4 : ∀ k x, s'.sections.get? k = some x → (s'.heap x).headerArgs = [])
    (h3 : ∀ k x, s'.sections.get? k = some x → (s'.heap x).terms = pick a'.nodes ids fun n => n.pt = py!"root" && n.sec = k) :
    Tracks s' a' ids := by
  refine ⟨by rw [hn]; exact h.count, h.distinct, ?_, ?_, ?_, h1, h2, h4, h3⟩
  · intro t ht
    obtain ⟨e1, e2⟩ := h.exist t ht
    exact ⟨Nat.lt_of_lt_of_le e1 k.next, by rw [k.cls t e1]; exact e2⟩
  · intro n t hm
    rw [hn] at hm
    obtain ⟨a1, a2, a3, a6, a7⟩ := h.term n t hm
    obtain ⟨e1, e2⟩ := h.exist t (zip_mem_right hm)
    obtain ⟨b1, b2, b3, b4, b5, b6, b7⟩ := k.obj t e1
    refine ⟨b1.trans a1, b2.trans a2, b3.trans a3, ?_, ?_⟩
    · rw [b4, a6, k.ref]
    · rw [k.sec t e1 e2, a7, hsec n (List.of_mem_zip hm).1]
  · intro i hi
    rw [hn, k.ref, k.children' _ (h.ref_lt hr (i := some i) hi)]; exact h.children i hi

/-- What is left to show when a row only changes the current section. -/
theorem track_keep {G : Prop} {s s' : St} {a a' : Reader} {ids : List Nat} (k : Keep s s') (h : Track G s a ids) (hh : Tracks s' a' ids)
    (hn : a'.nodes = a.nodes) (hkn : a'.known = a.known) (hlm : s'.p.lastMap = s.p.lastMap) (hds : s'.declSecs = s.declSecs)
    (hsec : ∀ n ∈ a.nodes, s'.sections.get? n.sec = s.sections.get? n.sec)
    (names : ∀ k x, s'.sections.get? k = some x → ∃ n, (s'.heap x).value = .str n ∧ lower n = k)
    (cur : s'.sections.get? a'.cur = some s'.p.lastSec) (cols : s'.p.paramMap = mungeParamMap a'.cols)
    (lastName : s'.p.lastParent = a'.last.1)
    (lastRef : s'.p.lastMap.get? a'.last.1 = some (ref s' ids a'.last.2)) (lastOk : RefOk ids.length a'.last.2) : Track True s' a' ids := by
  refine { hh with names, cur, cols := fun _ => cols, lastName := fun _ => lastName, lastRef := fun _ => lastRef, known := ?_, secKnown := ?_, nodesOk := ?_, lastOk, knownOk := ?_, declSecs := ?_ }
  · intro x i hx hg
    rw [hkn] at hg
    rw [hlm, h.known x i hx hg, k.ref]
  · intro n hm; rw [hn] at hm; rw [hsec n hm]; exact h.secKnown n hm
  · rw [hn]; exact h.nodesOk
  · rw [hkn]; exact h.knownOk
  · rw [hds]; exact h.declSecs

theorem track_section {G F : Prop} {s : St} (hp : PInvG G F s) {a : Reader} {ids : List Nat} (h : Track G s a ids) {c : Str} {rest : List Str}
    (hc : PlainSec c rest) (hk : kind (c :: rest) = .section (strip (rest.headD [])) ((rest.drop 1).map strip)) :
    Track True (sectionEffect rest s) (a.row (c :: rest)) ids := by
  have k : Keep s (sectionEffect rest s) := keep_section hp hc
  have old : ∀ k x, s.sections.get? k = some x → x < s.next := fun k x hk => (hp.wf.secsLt _ (Dict.mem_of_get? hk)).1
  have hhas : a.secs.get? (lower (strip (rest.headD []))) = none ↔ s.sections.get? (lower (strip (rest.headD []))) = none := by
    rw [Dict.get?_eq_none, Dict.get?_eq_none, h.sections]
  have hcols : secColumns s rest = rest.drop 1 := by
    unfold secColumns
    rw [h.declSecs]
    split
    · rfl
    · next e => simp only [Dict.get?_nil]; simpa using e
  have hha : ∀ j, j < s.next → ((sectionEffect rest s).heap j).headerArgs = (s.heap j).headerArgs := by
    intro j hj
    rw [sectionEffect_heap]; simp only [if_neg (Nat.ne_of_lt hj)]
  have hroot : s.p.lastMap.get? ROOT = some (ref (sectionEffect rest s) ids none) := hp.rootKey
  unfold Reader.row
  rw [hk]
  dsimp only
  obtain ⟨N, hN⟩ : ∃ N, N = strip (rest.headD []) := ⟨_, rfl⟩
  cases hg : s.sections.get? (lower N) with
  | some y =>
    have hylt := old _ _ hg
    obtain ⟨n, hn1, hn2⟩ := h.columns _ _ hg
    have hx : secOf s rest = y := by unfold secOf; rw [← hN, hg]; rfl
    have hsec : (sectionEffect rest s).sections = s.sections := by
      show (if _ then _ else _) = _
      rw [if_pos]; rw [Dict.has, ← hN, hg]; rfl
    rw [← hN, hn2]
    dsimp only
    refine track_keep k h ?_ rfl rfl rfl rfl (fun _ _ => by rw [hsec]) ?_ ?_ ?_ rfl ?_ trivial
    · refine tracks_keep k h.toTracks hp.wf.rootLt rfl (fun _ _ => by rw [hsec]) (by rw [hsec]; exact h.sections) ?_ ?_ ?_
      · intro x y hxy
        rw [hsec] at hxy
        obtain ⟨-, -, a3, -, a5, -, -⟩ := k.obj y (old x y hxy)
        rw [a3, a5]; exact h.columns x y hxy
      · intro x y hxy
        rw [hsec] at hxy
        rw [hha y (old x y hxy)]; exact h.noHeader x y hxy
      · intro x y hxy
        rw [hsec] at hxy
        rw [k.secTerms' y (old x y hxy)]; exact h.sectionTerms x y hxy
    · intro x y hxy
      rw [hsec] at hxy
      obtain ⟨-, -, a3, -, a5, -, -⟩ := k.obj y (old x y hxy)
      rw [a3]; exact h.names x y hxy
    · rw [hsec]; show s.sections.get? (lower N) = some (secOf s rest); rw [hx, hg]
    · show mungeParamMap (if secOf s rest = s.next then secObj s rest else s.heap (secOf s rest)).args = _
      rw [hx, if_neg (Nat.ne_of_lt hylt)]
    · exact hroot
  | none =>
    have hx : secOf s rest = s.next := by unfold secOf; rw [← hN, hg]; rfl
    have hsec : (sectionEffect rest s).sections = s.sections.set (lower N) s.next := by
      show (if _ then _ else _) = _
      rw [if_neg, hN]; rw [Dict.has, ← hN, hg]; decide
    have hnone : a.secs.get? (lower N) = none := by rw [hN]; rw [hN] at hg; exact hhas.2 hg
    have hget : ∀ x y, (sectionEffect rest s).sections.get? x = some y → (x = lower N ∧ y = s.next) ∨ (x ≠ lower N ∧ s.sections.get? x = some y) := by
      intro x y hxy
      rw [hsec, Dict.get?_set] at hxy
      split at hxy
      · next e => cases hxy; exact .inl ⟨e.symm, rfl⟩
      · next e => exact .inr ⟨fun e' => e e'.symm, hxy⟩
    have hnew : (sectionEffect rest s).heap s.next = { secObj s rest with sec := none } := by
      rw [sectionEffect_heap, hx]; simp only [if_true]
    have hnodes : ∀ n ∈ a.nodes, n.sec ≠ lower N := by
      intro n hn e
      have := h.secKnown n hn
      rw [e, hg] at this; cases this
    have hsn : ∀ n ∈ a.nodes, (sectionEffect rest s).sections.get? n.sec = s.sections.get? n.sec := by
      intro n hn
      rw [hsec, Dict.get?_set, if_neg (fun e => hnodes n hn e.symm)]
    rw [← hN, hnone]
    dsimp only
    have happ : ∀ v, a.secs ++ [(lower N, v)] = a.secs.set (lower N) v := fun v => (Dict.set_append (Dict.get?_eq_none.1 hnone) v).symm
    refine track_keep k h ?_ rfl rfl rfl rfl hsn ?_ ?_ ?_ rfl ?_ trivial
    · refine tracks_keep k h.toTracks hp.wf.rootLt rfl hsn ?_ ?_ ?_ ?_
      · show Dict.keys _ = Dict.keys (a.secs ++ _)
        rw [hsec, Dict.set_append (Dict.get?_eq_none.1 hg)]
        show List.map _ _ = List.map _ _
        rw [List.map_append, List.map_append]
        exact congrArg (· ++ _) h.sections
      · intro x y hxy
        show ∃ n, _ ∧ Dict.get? (a.secs ++ _) x = _
        rw [happ, Dict.get?_set]
        rcases hget x y hxy with ⟨rfl, rfl⟩ | ⟨e, hxy⟩
        · rw [hnew, if_pos rfl]
          refine ⟨N, by rw [hN]; rfl, ?_⟩
          show _ = some (N, (secColumns s rest).map strip)
          rw [hcols]
        · obtain ⟨-, -, a3, -, a5, -, -⟩ := k.obj y (old x y hxy)
          rw [a3, a5, if_neg (Ne.symm e)]; exact h.columns x y hxy
      · intro x y hxy
        rcases hget x y hxy with ⟨rfl, rfl⟩ | ⟨e, hxy⟩
        · rw [hnew]; rfl
        · rw [hha y (old x y hxy)]; exact h.noHeader x y hxy
      · intro x y hxy
        rcases hget x y hxy with ⟨rfl, rfl⟩ | ⟨e, hxy⟩
        · rw [hnew]
          show [] = _
          symm
          unfold pick
          rw [List.map_eq_nil_iff, List.filter_eq_nil_iff]
          intro nt hm he
          simp only [Bool.and_eq_true, decide_eq_true_eq] at he
          exact hnodes nt.1 (List.of_mem_zip (show (nt.1, nt.2) ∈ _ from hm)).1 he.2
        · rw [k.secTerms' y (old x y hxy)]; exact h.sectionTerms x y hxy
    · intro x y hxy
      rcases hget x y hxy with ⟨rfl, rfl⟩ | ⟨e, hxy⟩
      · rw [hnew]; exact ⟨N, by rw [hN]; rfl, rfl⟩
      · obtain ⟨-, -, a3, -, a5, -, -⟩ := k.obj y (old x y hxy)
        rw [a3]; exact h.names x y hxy
    · rw [hsec, Dict.get?_set, if_pos rfl]; show _ = some (secOf s rest); rw [hx]
    · show mungeParamMap (if secOf s rest = s.next then secObj s rest else s.heap (secOf s rest)).args = _
      rw [hx, if_pos rfl]
      show mungeParamMap ((secColumns s rest).map strip) = _
      rw [hcols]
    · exact hroot

theorem Track.full {G : Prop} {s : St} {a : Reader} {ids : List Nat} (h : Track G s a ids) (g : G) : Track True s a ids :=
  { h.toTracks with names := h.names, cur := h.cur, cols := fun _ => h.cols g, lastName := fun _ => h.lastName g, lastRef := fun _ => h.lastRef g, known := h.known, secKnown := h.secKnown, nodesOk := h.nodesOk, lastOk := h.lastOk, knownOk := h.knownOk, declSecs := h.declSecs }

/-- Rows without filled argument cells up to the first section row. -/
def headOk : List (List Str) → Bool
  | [] => true
  | row :: rows =>
    match kind row with
    | .noise => headOk rows
    | .named _ _ => (row.drop 2).all (fun v => decide (strip v = [])) && headOk rows
    | .section _ _ => true
    | _ => false

theorem addArgs_blank {r : Str} : ∀ {vs : List Str} {k : Nat} {a : Reader}, (∀ v ∈ vs, strip v = []) → Reader.addArgs r k vs a = a
  | [], _, _, _ => rfl
  | v :: vs, k, a, h => by
    rw [Reader.addArgs, if_pos (h v List.mem_cons_self)]
    exact addArgs_blank fun w hw => h w (List.mem_cons_of_mem _ hw)

/-- A row for a named term. -/
theorem track_named_row {G F : Prop} {s : St} (hp : PInvG G F s) {a : Reader} {ids : List Nat} (h : Track G s a ids) {c : Str} {rest : List Str}
    {p r : Str} {i : Option Nat} (hi : Dict.get? a.known p = some i) (hc : PlainCell s c p r) (he : p ≠ ELIDED) (k : kind (c :: rest) = .named p r)
    (hg : G ∨ ∀ v ∈ rest.drop 1, strip v = []) : ∃ ids', PInvG G F (termEffect p r rest s) ∧ Track G (termEffect p r rest s) (a.row (c :: rest)) ids' := by
  unfold Reader.row; rw [k]
  dsimp only
  obtain ⟨c1, -, -, c3, -, c5, -⟩ := splitTermLower_cases hc.split
  have hq : parentOf s p = ref s ids i := by
    unfold parentOf; rw [if_neg he, h.known p i he hi]; rfl
  have hfp : finalPt s.p p = p := if_neg he
  have h1 := track_named hp h (p := p) (r := r) (o := rowObj (parserTermClass s (dotJoin p r)) p r rest)
    (newTerm_rowObj (canAdd_row hp hc rest).1 _ _ _) (h.knownOk p i hi) (by rw [hfp]; exact c5) ⟨he, Nat.le_refl 1⟩
  rw [hfp, rowObj_value _ _ _ c] at h1
  have i1 := addTerm_row_inv hp hc rest
  unfold termEffect
  rw [hq] at i1 ⊢
  rw [hi]
  rcases hg with hg | hg
  · obtain ⟨ids', h2⟩ := track_args (t := s.next) (k := 0) (vs := (rest.drop 1).map strip) hc.name (i1.full hg) (h1.full hg) (Nat.lt_succ_self _)
      (by rw [addTerm_heap_new, finalObj_rt]) (by intro v hv; obtain ⟨w, -, rfl⟩ := List.mem_map.1 hv; exact strip_strip w)
    rw [addArgs_strip] at h2
    have i2 := argsEffect_inv (t := s.next) (k := 0) (vs := (rest.drop 1).map strip) (i1.full hg) (Nat.lt_succ_self _)
      (by rw [addTerm_heap_new, finalObj_rt]; exact hc.name)
    refine ⟨ids', ?_, ?_⟩
    · exact ⟨i2.wf, i2.std, i2.rootKey, i2.rootName, i2.parent, i2.name, fun _ => i2.cols trivial, i2.secCls, i2.secs, i2.declared⟩
    · exact { h2.toTracks with names := h2.names, cur := h2.cur, cols := fun _ => h2.cols trivial, lastName := fun _ => h2.lastName trivial, lastRef := fun _ => h2.lastRef trivial, known := h2.known, secKnown := h2.secKnown, nodesOk := h2.nodesOk, lastOk := h2.lastOk, knownOk := h2.knownOk, declSecs := h2.declSecs }
  · rw [argsEffect_blank (blank_strip hg), show (c :: rest).drop 2 = rest.drop 1 from rfl, addArgs_blank hg]
    exact ⟨_, i1, h1⟩

/-- The row does this, whatever the loop's last section is. -/
def Does (rows : List (List Str)) (s s' : St) : Prop :=
  ∀ (files : Files) (sub : Str → Bool → M Unit) (dir fref : Str) (ls : Nat), ∃ ls', ∀ more,
    genRows files sub true false dir fref ls (rows ++ more) s = genRows files sub true false dir fref ls' more s'

theorem Does.cons {row : List Str} {rows : List (List Str)} {s s1 s2 : St} (h : Does [row] s s1) (k : Does rows s1 s2) : Does (row :: rows) s s2 := by
  intro files sub dir fref ls
  obtain ⟨l1, e1⟩ := h files sub dir fref ls
  obtain ⟨l2, e2⟩ := k files sub dir fref l1
  refine ⟨l2, fun more => ?_⟩
  have := e1 (rows ++ more)
  rw [List.singleton_append] at this
  rw [List.cons_append, this, e2]

theorem PlainRow.does {F : Prop} {s s' : St} {row : List Str} (h : PInv F s) (hr : PlainRow s row s') : Does [row] s s' := by
  intro files sub dir fref ls
  obtain ⟨ls', e⟩ := hr.run (files := files) (sub := sub) (dir := dir) (ref := fref) (ls := ls) h
  exact ⟨ls', fun more => e more⟩

/-- The document lists the terms of `T` and those that its sections list. -/
def Listed (T : List Nat) (s : St) : Prop := ∀ t, t ∈ s.terms ↔ t ∈ T ∨ ∃ kv ∈ s.sections, t ∈ (s.heap kv.2).terms

/-- What rows leave alone of an object. -/
structure KeptObj (o o' : Obj) : Prop where
  cls : o'.cls = o.cls
  pt : o'.pt = o.pt
  rt : o'.rt = o.rt
  value : o'.value = o.value
  sec : o.cls.isSection = false → o'.sec = o.sec

theorem KeptObj.refl (o : Obj) : KeptObj o o := ⟨rfl, rfl, rfl, rfl, fun _ => rfl⟩

theorem KeptObj.trans {a b c : Obj} (h : KeptObj a b) (k : KeptObj b c) : KeptObj a c :=
  ⟨k.cls.trans h.cls, k.pt.trans h.pt, k.rt.trans h.rt, k.value.trans h.value, fun e => (k.sec (h.cls ▸ e)).trans (h.sec e)⟩

theorem declProp_section {D : Dict DTerm}
    (h : ∀ kv ∈ D, kv.1 ≠ py!"root.declaresection" → ∀ v ∈ kv.2.props.get? (py!"termvaluename"), lower v ≠ py!"section") {n d : Str}
    (hn : n ≠ py!"root.declaresection") (hd : lower d ≠ py!"section") : lower (declProp D n (py!"termvaluename") d) ≠ py!"section" := by
  unfold declProp
  cases hg : Dict.get? D n with
  | none => exact hd
  | some t =>
    dsimp only
    cases hv : t.props.get? (py!"termvaluename") with
    | none => exact hd
    | some v => exact h _ (Dict.mem_of_get? hg) hn v hv

theorem join_declaresection {p r : Str} (hr : r ≠ py!"declaresection") : dotJoin p r ≠ py!"root.declaresection" := by
  intro e
  unfold dotJoin at e
  have : ∀ (a b c d : Str), a ++ '.' :: b = c ++ '.' :: d → '.' ∉ c → '.' ∉ d → b = d := by
    intro a
    induction a with
    | nil =>
      intro b c d h hc hd
      cases c with
      | nil => simpa using h
      | cons x c =>
        simp only [List.nil_append, List.cons_append, List.cons.injEq] at h
        exact absurd (h.1 ▸ List.mem_cons_self) hc
    | cons x a ih =>
      intro b c d h hc hd
      cases c with
      | nil =>
        simp only [List.nil_append, List.cons_append, List.cons.injEq] at h
        exact absurd (h.2 ▸ List.mem_append_right a List.mem_cons_self) hd
      | cons y c =>
        simp only [List.cons_append, List.cons.injEq] at h
        exact ih b c d h.2 (fun hm => hc (List.mem_cons_of_mem _ hm)) hd
  exact hr (this p r (py!"root") (py!"declaresection") (by simpa using e) (by decide) (by decide))

/-- What rows do to the tables of declarations and to the document's list. -/
structure SameDecl (s s' : St) : Prop where
  doc : s'.declTerms = s.declTerms
  parser : s'.p.declTerms = s.p.declTerms
  sup : s'.superTerms = s.superTerms
  env : s'.env = s.env
  listed : ∀ T, Listed T s → Listed T s'
  next : s.next ≤ s'.next
  old : ∀ i, i < s.next → KeptObj (s.heap i) (s'.heap i)
  root : s'.root = s.root
  kept : ∀ k x, s.sections.get? k = some x → s'.sections.get? k = some x
  classes : s'.classes = s.classes
  secs : s'.declSecs = s.declSecs
  pSecs : s'.p.declSecs = s.p.declSecs
  tvn : NoSecTvn s → NoSecTvn s'
  fresh : ∀ k x, s'.sections.get? k = some x → s.sections.get? k = some x ∨ s.next ≤ x

theorem SameDecl.refl (s : St) : SameDecl s s := ⟨rfl, rfl, rfl, rfl, fun _ => id, Nat.le_refl _, fun _ _ => .refl _, rfl, fun _ _ => id, rfl, rfl, rfl, id, fun _ _ => .inl⟩

theorem SameDecl.trans {a b c : St} (h : SameDecl a b) (k : SameDecl b c) : SameDecl a c :=
  ⟨k.doc.trans h.doc, k.parser.trans h.parser, k.sup.trans h.sup, k.env.trans h.env, fun T l => k.listed T (h.listed T l), Nat.le_trans h.next k.next,
    fun i hi => (h.old i hi).trans (k.old i (Nat.lt_of_lt_of_le hi h.next)), k.root.trans h.root,
    fun n x hx => k.kept n x (h.kept n x hx), k.classes.trans h.classes, k.secs.trans h.secs, k.pSecs.trans h.pSecs, fun g => k.tvn (h.tvn g),
    fun n x hx => (k.fresh n x hx).elim (h.fresh n x) fun g => .inr (Nat.le_trans h.next g)⟩

/-- What adding a term needs: sections exist, and the current one is registered. -/
structure Homes (s : St) : Prop where
  secs : ∀ kv ∈ s.sections, kv.2 < s.next
  isSec : ∀ kv ∈ s.sections, (s.heap kv.2).cls.isSection = true
  cur : ∃ k, (k, s.p.lastSec) ∈ s.sections

theorem homes_addTerm {s : St} (h : Homes s) {o : Obj} {p r : Str} {q : Nat} : Homes (addTerm s o p r q) :=
  ⟨fun kv hkv => Nat.lt_succ_of_lt (h.secs kv hkv), fun kv hkv => by rw [addTerm_heap_old (h.secs kv hkv)]; exact h.isSec kv hkv, by
    obtain ⟨k, hk⟩ := h.cur
    refine ⟨k, ?_⟩
    show (k, (nextP s.p p r o.col s.next).lastSec) ∈ s.sections
    rw [nextP_lastSec]; exact hk⟩

theorem listed_addTerm {s : St} (h : Homes s) {o : Obj} {p r : Str} {q : Nat} {T : List Nat} (l : Listed T s) : Listed T (addTerm s o p r q) := by
  have e : ∀ kv ∈ s.sections, ((addTerm s o p r q).heap kv.2).terms =
      if lower (finalPt s.p p) = ROOT ∧ kv.2 = s.p.lastSec then (s.heap kv.2).terms ++ [s.next] else (s.heap kv.2).terms := by
    intro kv hkv
    rw [addTerm_heap_old (h.secs kv hkv)]
  intro t
  show t ∈ (if lower (finalPt s.p p) = ROOT then s.terms ++ [s.next] else s.terms) ↔ t ∈ T ∨ ∃ kv ∈ s.sections, _
  by_cases hr : lower (finalPt s.p p) = ROOT
  · rw [if_pos hr, List.mem_append, List.mem_singleton, l t, or_assoc]
    refine or_congr_right ?_
    constructor
    · rintro (⟨kv, hkv, ht⟩ | rfl)
      · refine ⟨kv, hkv, ?_⟩
        rw [e kv hkv]
        split
        · exact List.mem_append_left _ ht
        · exact ht
      · obtain ⟨k, hk⟩ := h.cur
        refine ⟨_, hk, ?_⟩
        rw [e _ hk, if_pos ⟨hr, rfl⟩]
        exact List.mem_append_right _ List.mem_cons_self
    · rintro ⟨kv, hkv, ht⟩
      rw [e kv hkv] at ht
      split at ht
      · rcases List.mem_append.1 ht with ht | ht
        · exact .inl ⟨kv, hkv, ht⟩
        · exact .inr (List.mem_singleton.1 ht)
      · exact .inl ⟨kv, hkv, ht⟩
  · rw [if_neg hr, l t]
    refine or_congr_right ?_
    constructor
    · rintro ⟨kv, hkv, ht⟩
      exact ⟨kv, hkv, by rw [e kv hkv, if_neg (fun x => hr x.1)]; exact ht⟩
    · rintro ⟨kv, hkv, ht⟩
      rw [e kv hkv, if_neg (fun x => hr x.1)] at ht
      exact ⟨kv, hkv, ht⟩

theorem noSecTvn_addTerm {s : St} (h : Homes s) {o : Obj} {p r : Str} {q : Nat} (ho : o.defTvn = py!"@value") (g : NoSecTvn s) :
    NoSecTvn (addTerm s o p r q) := by
  obtain ⟨k, hk⟩ := h.cur
  refine ⟨?_, g.doc, ?_, ?_, ?_⟩
  · show ∀ kv ∈ (nextP s.p p r o.col s.next).declTerms, _
    rw [nextP_declTerms]; exact g.parser
  · show lower (nextP s.p p r o.col s.next).defTvn ≠ _
    rw [nextP_defTvn]; exact g.current
  · intro x hx
    rw [addTerm_defTvn]
    split
    · rw [ho]; decide
    · exact g.default x (Nat.lt_of_le_of_ne (Nat.le_of_lt_succ hx) ‹_›)
  · intro x hx hr
    by_cases e : x = s.next
    · subst e
      rw [addTerm_heap_new] at hr ⊢
      rw [finalObj_rt] at hr
      unfold finalObj
      dsimp only
      split
      · unfold finish
        dsimp only
        split
        · exact declProp_section g.doc (join_declaresection hr) (g.default _ (h.secs _ hk))
        · exact declProp_section g.parser (join_declaresection hr) g.current
      · exact declProp_section g.parser (join_declaresection hr) g.current
    · have hlt := Nat.lt_of_le_of_ne (Nat.le_of_lt_succ hx) e
      rw [addTerm_heap_old hlt] at hr ⊢
      exact g.objects x hlt hr

theorem sameDecl_addTerm {s : St} (h : Homes s) {o : Obj} {p r : Str} {q : Nat} (ho : o.defTvn = py!"@value") : SameDecl s (addTerm s o p r q) :=
  ⟨rfl, nextP_declTerms .., rfl, rfl, fun _ => listed_addTerm h, Nat.le_succ _, fun i hi => by
    rw [addTerm_heap_old hi]; exact ⟨rfl, rfl, rfl, rfl, fun _ => rfl⟩, rfl, fun _ _ => id, rfl, rfl, nextP_declSecs .., noSecTvn_addTerm h ho,
    fun _ _ => .inl⟩

theorem sameDecl_args {t : Nat} : ∀ {vs : List Str} {k : Nat} {s : St}, Homes s → SameDecl s (argsEffect t k vs s)
  | [], _, s, _ => .refl s
  | v :: vs, k, s, h => by
    have : SameDecl s (argEffect t k v s) ∧ Homes (argEffect t k v s) := by
      unfold argEffect
      split
      · exact ⟨.refl s, h⟩
      · exact ⟨sameDecl_addTerm h rfl, homes_addTerm h⟩
    rw [argsEffect]
    exact this.1.trans (sameDecl_args this.2)

theorem sameDecl_term {s : St} (h : Homes s) {p r : Str} {rest : List Str} : SameDecl s (termEffect p r rest s) := by
  unfold termEffect
  exact (sameDecl_addTerm h rfl).trans (sameDecl_args (homes_addTerm h))

theorem sameDecl_section {s : St} (h : Homes s) {rest : List Str} : SameDecl s (sectionEffect rest s) := by
  refine ⟨rfl, rfl, rfl, rfl, fun T l t => ?_, Nat.le_succ _, fun i hi => ?_, rfl, fun k x hx => ?_, rfl, rfl, rfl, fun g => ?_, fun k x hx => ?_⟩
  rotate_right
  · change Dict.get? (if s.sections.has (lower (strip (rest.headD []))) then s.sections else s.sections.set (lower (strip (rest.headD []))) s.next) k = some x at hx
    split at hx
    · exact .inl hx
    · rw [Dict.get?_set] at hx
      split at hx
      · cases hx; exact .inr (Nat.le_refl _)
      · exact .inl hx
  rotate_right
  · have e : ∀ x, x < s.next + 1 → x ≠ s.next → x < s.next := fun x h1 h2 => by omega
    refine ⟨g.parser, g.doc, by show lower (py!"@value") ≠ _; decide, fun x hx => ?_, fun x hx => ?_⟩
    · unfold sectionEffect
      dsimp only
      split <;> split
      · show lower (py!"@value") ≠ _; decide
      · exact g.default x (e x hx ‹_›)
      · show lower (py!"@value") ≠ _; decide
      · exact g.default x (e x hx ‹_›)
    · unfold sectionEffect
      dsimp only
      split <;> split
      · intro _; show lower (py!"@value") ≠ _; decide
      · exact g.objects x (e x hx ‹_›)
      · intro _; show lower (py!"@value") ≠ _; decide
      · exact g.objects x (e x hx ‹_›)
  rotate_right
  · show Dict.get? (if s.sections.has (lower (strip (rest.headD []))) then s.sections else s.sections.set (lower (strip (rest.headD []))) s.next) k = some x
    split
    · exact hx
    · next hh =>
      rw [Dict.get?_set, if_neg]
      · exact hx
      · rintro rfl
        exact hh (Dict.has_iff.2 (List.mem_map.2 ⟨_, Dict.mem_of_get? hx, rfl⟩))
  rotate_left
  · unfold sectionEffect
    dsimp only
    rw [if_neg (Nat.ne_of_lt hi)]
    split
    · next hx =>
      refine ⟨rfl, rfl, rfl, rfl, fun hc => ?_⟩
      have : (s.heap i).cls.isSection = true := by
        unfold secOf at hx
        cases hg : s.sections.get? (lower (strip (rest.headD []))) with
        | none => rw [hg] at hx; exact absurd hx (Nat.ne_of_lt hi)
        | some x =>
          rw [hg] at hx
          rw [hx]
          exact h.isSec _ (Dict.mem_of_get? hg)
      rw [hc] at this; cases this
    · exact .refl _
  have e : ∀ j, j < s.next → ((sectionEffect rest s).heap j).terms = (s.heap j).terms := by
    intro j hj
    unfold sectionEffect
    dsimp only
    split <;> rw [if_neg (Nat.ne_of_lt hj)]
  have n : ((sectionEffect rest s).heap s.next).terms = [] := by
    unfold sectionEffect
    dsimp only
    split <;> rw [if_pos rfl] <;> rfl
  show t ∈ s.terms ↔ t ∈ T ∨ ∃ kv ∈ (if s.sections.has (lower (strip (rest.headD []))) then s.sections else s.sections.set (lower (strip (rest.headD []))) s.next), _
  have old : t ∈ s.terms ↔ t ∈ T ∨ ∃ kv ∈ s.sections, t ∈ ((sectionEffect rest s).heap kv.2).terms := by
    rw [l t]
    refine or_congr_right ?_
    constructor
    · rintro ⟨kv, hkv, ht⟩; exact ⟨kv, hkv, by rw [e _ (h.secs kv hkv)]; exact ht⟩
    · rintro ⟨kv, hkv, ht⟩; exact ⟨kv, hkv, by rw [e _ (h.secs kv hkv)] at ht; exact ht⟩
  split
  · exact old
  · next hh =>
    rw [Dict.set_append (by
      intro hm
      exact hh (Dict.has_iff.2 hm)), old]
    refine or_congr_right ?_
    constructor
    · rintro ⟨kv, hkv, ht⟩; exact ⟨kv, List.mem_append_left _ hkv, ht⟩
    · rintro ⟨kv, hkv, ht⟩
      rcases List.mem_append.1 hkv with hkv | hkv
      · exact ⟨kv, hkv, ht⟩
      · rw [List.mem_singleton.1 hkv, n] at ht; cases ht

theorem Track.homes {G F : Prop} {s : St} {a : Reader} {ids : List Nat} (h : Track G s a ids) (hp : PInvG G F s) : Homes s :=
  ⟨fun kv hkv => (hp.wf.secsLt kv hkv).1, fun kv hkv => (hp.wf.secsLt kv hkv).2.1, _, Dict.mem_of_get? h.cur⟩

/-- Rows are read from any regular state as the reference reader reads them. -/
theorem track_rows {F : Prop} {rows : List (List Str)} : ∀ (G : Prop) (s : St) (a : Reader) (ids : List Nat) (known : List Str), PInvG G F s →
    Track G s a ids → (∀ k ∈ known, (Dict.get? a.known k).isSome) → plainFrom known rows = true →
    (∀ row ∈ rows, kind row ≠ .special ∧ ∀ n c, kind row ≠ .header n c) → (G ∨ headOk rows = true) →
    ∃ (G' : Prop) (s' : St) (ids' : List Nat), Does rows s s' ∧ PInvG G' F s' ∧ Track G' s' (rows.foldl Reader.row a) ids' ∧ SameDecl s s' := by
  induction rows with
  | nil =>
    intro G s a ids known hp h _ _ _ _
    exact ⟨G, s, ids, fun _ _ _ _ ls => ⟨ls, fun _ => rfl⟩, hp, h, .refl s⟩
  | cons row rows ih =>
    intro G s a ids known hp h hkn hpl hnh hg
    have hnh' : ∀ row ∈ rows, kind row ≠ .special ∧ ∀ n c, kind row ≠ .header n c := fun r hr => hnh r (List.mem_cons_of_mem _ hr)
    rw [List.foldl_cons]
    unfold plainFrom at hpl
    unfold headOk at hg
    have fin : ∀ {G1 : Prop} {s1 : St} {a1 : Reader} {ids1 : List Nat} {known1 : List Str}, a.row row = a1 → Does [row] s s1 → SameDecl s s1 → PInvG G1 F s1 →
        Track G1 s1 a1 ids1 → (∀ k ∈ known1, (Dict.get? a1.known k).isSome) → plainFrom known1 rows = true → (G1 ∨ headOk rows = true) →
        ∃ (G' : Prop) (s' : St) (ids' : List Nat), Does (row :: rows) s s' ∧ PInvG G' F s' ∧ Track G' s' (rows.foldl Reader.row (a.row row)) ids' ∧
          SameDecl s s' := by
      intro G1 s1 a1 ids1 known1 e hd hsd hp1 h1 hk1 hpl1 hg1
      obtain ⟨G', s', ids', d, i, t, sd⟩ := ih _ _ _ _ _ hp1 h1 hk1 hpl1 hnh' hg1
      refine ⟨G', s', ids', hd.cons d, i, ?_, hsd.trans sd⟩
      rw [e]; exact t
    cases hk : kind row with
    | special => exact absurd hk (hnh row List.mem_cons_self).1
    | header n c => exact absurd hk ((hnh row List.mem_cons_self).2 n c)
    | noise =>
      rw [hk] at hpl hg
      refine fin (a1 := a) (by unfold Reader.row; rw [hk]) ?_ (.refl s) hp h hkn hpl hg
      intro files sub dir fref ls
      exact ⟨ls, fun more => by rw [List.singleton_append, genRows_cons, kind_noise hk]; rfl⟩
    | «section» n cols =>
      rw [hk] at hpl
      obtain ⟨c, rest, rfl, hs, hn, hcols⟩ := kind_section hk
      have hk' := hk
      rw [hn, hcols] at hk'
      refine fin (s1 := sectionEffect rest s) rfl ?_ (sameDecl_section (h.homes hp)) (sectionEffect_inv hp hs) (track_section hp h hs hk') ?_ hpl (.inl trivial)
      · intro files sub dir fref ls
        exact ⟨_, fun more => by rw [List.singleton_append, genRows_section hp hs]⟩
      · intro k hkk
        have : (a.row (c :: rest)).known = a.known := by
          unfold Reader.row; rw [hk]; dsimp only; split <;> rfl
        rw [this]; exact hkn k hkk
    | elided x =>
      rw [hk] at hpl hg
      obtain ⟨c, rest, rfl, hc⟩ := kind_elided hk s
      have g : G := by
        rcases hg with g | g
        · exact g
        · cases g
      have hp' := hp.full g
      have h' := h.full g
      have hq : parentOf s ELIDED = ref s ids a.last.2 := by
        unfold parentOf lastTerm; rw [if_pos rfl, h'.lastName trivial, h'.lastRef trivial]; rfl
      have hfp : finalPt s.p ELIDED = a.last.1 := by
        unfold finalPt; rw [if_pos rfl]; exact h'.lastName trivial
      have h1 := track_child hp' h' (p := ELIDED) (r := x) (o := rowObj (parserTermClass s (dotJoin ELIDED x)) ELIDED x rest)
        (newTerm_rowObj (canAdd_row hp' hc rest).1 _ _ _) h'.lastOk
        (by rw [hfp, ← h'.lastName trivial]; exact hp.name.low) (fun hn => hn.1 rfl)
      rw [hfp, rowObj_value _ _ _ c] at h1
      have i1 := addTerm_row_inv hp' hc rest
      have i2 := termEffect_inv hp' hc rest
      have hte : termEffect ELIDED x rest s = argsEffect s.next 0 ((rest.drop 1).map strip)
        (addTerm s (rowObj (parserTermClass s (dotJoin ELIDED x)) ELIDED x rest) ELIDED x (ref s ids a.last.2)) := by
        unfold termEffect; rw [hq]
      rw [hq] at i1
      obtain ⟨ids', h2⟩ := track_args (t := s.next) (k := 0) (vs := (rest.drop 1).map strip) hc.name i1 h1 (Nat.lt_succ_self _)
        (by rw [addTerm_heap_new, finalObj_rt]) (by intro v hv; obtain ⟨w, -, rfl⟩ := List.mem_map.1 hv; exact strip_strip w)
      rw [addArgs_strip, ← hte] at h2
      have hrow : a.row (c :: rest) = Reader.addArgs x 0 (rest.drop 1)
          { a with nodes := a.nodes ++ [⟨a.last.1, x, cellValue ((c :: rest).getD 1 []), a.last.2, a.cur, a.vname⟩] } := by
        unfold Reader.row; rw [hk]; rfl
      refine fin hrow (PlainRow.does hp' (.term hc)) (sameDecl_term (h.homes hp)) i2 h2 ?_ hpl (.inl trivial)
      intro k hkk
      rw [addArgs_known]
      exact hkn k hkk
    | named p r =>
      rw [hk] at hpl hg
      simp only [Bool.and_eq_true, List.contains_eq_mem, decide_eq_true_eq] at hpl
      obtain ⟨i, hi⟩ := Option.isSome_iff_exists.1 (hkn p hpl.1)
      have hne : p ≠ ELIDED := by
        rcases kind_cases row with ⟨h', _⟩ | ⟨c, rest, rfl, -, ⟨h', -⟩ | ⟨h', -⟩ | ⟨x, h', -⟩ | ⟨p', r', h', -, -, -, he⟩ | h'⟩ <;>
          rw [hk] at h' <;> cases h'
        exact he
      obtain ⟨c, rest, rfl, hc, he⟩ := kind_named (s := s) hk (by rw [h.known p i hne hi]; rfl)
      have hg' : G ∨ ∀ v ∈ rest.drop 1, strip v = [] := by
        rcases hg with g | g
        · exact .inl g
        · rw [Bool.and_eq_true] at g
          exact .inr fun v hv => of_decide_eq_true (List.all_eq_true.1 g.1 v hv)
      obtain ⟨ids', i2, h2⟩ := track_named_row hp h hi hc he hk hg'
      refine fin rfl ?_ (sameDecl_term (h.homes hp)) i2 h2 (known1 := r :: known) ?_ hpl.2 ?_
      · intro files sub dir fref ls
        exact ⟨ls, fun more => genRows_plainG hp hg' hc⟩
      · intro k hkk
        have : (a.row (c :: rest)).known = (r, some a.nodes.length) :: a.known := by
          unfold Reader.row; rw [hk]; dsimp only; rw [addArgs_known]
        rw [this, Dict.get?_cons]
        split
        · rfl
        · next hrk =>
          rcases List.mem_cons.1 hkk with e | e
          · exact absurd e.symm hrk
          · exact hkn k e
      · rcases hg with g | g
        · exact .inl g
        · rw [Bool.and_eq_true] at g
          exact .inr g.2
where
  addArgs_known {x : Str} : ∀ {vs : List Str} {k : Nat} {a : Reader}, (Reader.addArgs x k vs a).known = a.known
    | [], _, _ => rfl
    | v :: vs, k, a => by
      rw [Reader.addArgs, addArgs_known]
      split <;> rfl

end Metatab
