import Verif.Spec.TreeFile
import Verif.Spec.Outline
import Verif.Lemmas.Shown
/-! Files whose sections are trees of their own are read as outlines. -/
namespace Metatab
open Py _root_.Spec

/-- The node at place `i` refers to an earlier node of the same section, of the name it says, or to the root. -/
structure NodeOk (nodes : List Node) (i : Nat) (n : Node) : Prop where
  value : ∃ v, n.value = asVal v
  vname : n.valueName = py!"@value"
  top : n.parent = none → n.pt = py!"root"
  sub : ∀ j, n.parent = some j → j < i ∧ n.pt ≠ py!"root" ∧ ∃ q, nodes[j]? = some q ∧ q.rt = n.pt ∧ q.sec = n.sec

/-- What is kept while such a file is read. -/
structure Neat (a : Reader) (known : List (Str × Str)) : Prop where
  vname : a.vname = py!"@value"
  root : Dict.get? a.known (py!"root") = some none
  known : ∀ p c, p ≠ py!"root" → Dict.get? known p = some c →
    ∃ j q, Dict.get? a.known p = some (some j) ∧ a.nodes[j]? = some q ∧ q.rt = p ∧ q.sec = c
  last : a.last = (py!"root", none) ∨ ∃ j q, a.last.2 = some j ∧ a.nodes[j]? = some q ∧ q.rt = a.last.1 ∧ q.sec = a.cur ∧ a.last.1 ≠ py!"root"
  nodes : ∀ i n, a.nodes[i]? = some n → NodeOk a.nodes i n

theorem get_push {α : Type} {l : List α} {x q : α} {j : Nat} (h : l[j]? = some q) : (l ++ [x])[j]? = some q := by
  rw [List.getElem?_append_left]
  · exact h
  · exact (List.getElem?_eq_some_iff.1 h).1

theorem NodeOk.push {nodes : List Node} {i : Nat} {n m : Node} (h : NodeOk nodes i n) : NodeOk (nodes ++ [m]) i n :=
  ⟨h.value, h.vname, h.top, fun j hj => by
    obtain ⟨a, b, q, c, d⟩ := h.sub j hj
    exact ⟨a, b, q, get_push c, d⟩⟩

theorem nodes_push {nodes : List Node} {m : Node} (h : ∀ i n, nodes[i]? = some n → NodeOk nodes i n) (hm : NodeOk nodes nodes.length m) :
    ∀ i n, (nodes ++ [m])[i]? = some n → NodeOk (nodes ++ [m]) i n := by
  intro i n hi
  by_cases hlt : i < nodes.length
  · rw [List.getElem?_append_left hlt] at hi
    exact (h i n hi).push
  · rw [List.getElem?_append_right (by omega)] at hi
    obtain ⟨h1, h2⟩ := List.getElem?_eq_some_iff.1 hi
    have : i = nodes.length := by simp at h1; omega
    subst this
    simp at h2
    subst h2
    exact hm.push

theorem Neat.push {a : Reader} {known : List (Str × Str)} (h : Neat a known) {m : Node} (hm : NodeOk a.nodes a.nodes.length m) :
    Neat { a with nodes := a.nodes ++ [m] } known where
  vname := h.vname
  root := h.root
  known := fun p c hp hk => by
    obtain ⟨j, q, x1, x2, x3⟩ := h.known p c hp hk
    exact ⟨j, q, x1, get_push x2, x3⟩
  last := by
    rcases h.last with e | ⟨j, q, x1, x2, x3⟩
    · exact .inl e
    · exact .inr ⟨j, q, x1, get_push x2, x3⟩
  nodes := nodes_push h.nodes hm

theorem neat_args {known : List (Str × Str)} {r : Str} : ∀ (vs : List Str) {k : Nat} {a : Reader}, Neat a known → a.last.1 = r → r ≠ py!"root" →
    Neat (Reader.addArgs r k vs a) known ∧ (Reader.addArgs r k vs a).cur = a.cur
  | [], _, _, h, _, _ => ⟨h, rfl⟩
  | v :: vs, k, a, h, hr, hne => by
    unfold Reader.addArgs
    by_cases hv : strip v = []
    · rw [if_pos hv]
      exact neat_args vs h hr hne
    · rw [if_neg hv]
      refine neat_args vs (h.push ⟨⟨some _, rfl⟩, h.vname, ?_, ?_⟩) hr hne
      · intro hn
        rcases h.last with e | ⟨j, q, x1, -⟩
        · rw [e] at hr; exact absurd hr.symm hne
        · exact absurd (x1.symm.trans hn) (by simp)
      · intro j hj
        rcases h.last with e | ⟨i, q, x1, x2, x3, x4, -⟩
        · rw [e] at hr; exact absurd hr.symm hne
        · have : i = j := by
            have := x1.symm.trans hj
            injection this
          subst this
          exact ⟨(List.getElem?_eq_some_iff.1 x2).1, hne, q, x2, x3.trans hr, x4⟩

theorem args_blank {r : Str} : ∀ (vs : List Str) {k : Nat} {a : Reader}, (vs.all fun c => decide (strip c = [])) = true → Reader.addArgs r k vs a = a
  | [], _, _, _ => rfl
  | v :: vs, k, a, h => by
    rw [List.all_cons, Bool.and_eq_true] at h
    unfold Reader.addArgs
    rw [if_pos (of_decide_eq_true h.1)]
    exact args_blank vs h.2

theorem cellValue_asVal (c : Str) : ∃ v, cellValue c = asVal v := by
  unfold cellValue
  split
  · exact ⟨none, rfl⟩
  · exact ⟨some (strip c), rfl⟩

theorem neat_rows : ∀ (rows : List (List Str)) {known : List (Str × Str)} {a : Reader}, Neat a known → treeFrom known a.cur rows = true →
    ∃ known', Neat (rows.foldl Reader.row a) known'
  | [], known, a, h, _ => ⟨known, h⟩
  | row :: rows, known, a, h, ht => by
    rw [List.foldl_cons]
    unfold treeFrom at ht
    cases hk : kind row with
    | special => rw [hk] at ht; cases ht
    | header n c => rw [hk] at ht; cases ht
    | noise =>
      rw [hk] at ht
      have e : a.row row = a := by unfold Reader.row; rw [hk]
      rw [e]
      exact neat_rows rows h ht
    | «section» n cols =>
      rw [hk] at ht
      have e : ∃ secs cs, a.row row = { a with secs := secs, cur := lower n, cols := cs, vname := py!"@value", last := (py!"root", none) } := by
        unfold Reader.row
        rw [hk]
        dsimp only
        split
        · exact ⟨_, _, rfl⟩
        · exact ⟨_, _, rfl⟩
      obtain ⟨secs, cs, e⟩ := e
      rw [e]
      exact neat_rows rows ⟨rfl, h.root, h.known, .inl rfl, h.nodes⟩ ht
    | elided r =>
      rw [hk] at ht
      dsimp only at ht
      rw [Bool.and_eq_true] at ht
      have e : a.row row = { a with nodes := a.nodes ++ [⟨a.last.1, r, cellValue (row.getD 1 []), a.last.2, a.cur, a.vname⟩] } := by
        unfold Reader.row
        rw [hk]
        exact args_blank _ ht.1
      rw [e]
      refine neat_rows rows (h.push ⟨cellValue_asVal _, h.vname, ?_, ?_⟩) ht.2
      · intro hn
        rcases h.last with e | ⟨j, q, x1, -⟩
        · show a.last.1 = _; rw [e]
        · exact absurd (x1.symm.trans hn) (by simp)
      · intro j hj
        rcases h.last with e | ⟨i, q, x1, x2, x3, x4, x5⟩
        · have hj : a.last.2 = some j := hj
          rw [e] at hj; cases hj
        · have : i = j := by
            have := x1.symm.trans hj
            injection this
          subst this
          exact ⟨(List.getElem?_eq_some_iff.1 x2).1, x5, q, x2, x3, x4⟩
    | named p r =>
      rw [hk] at ht
      dsimp only at ht
      rw [Bool.and_eq_true, Bool.or_eq_true] at ht
      have hr : r ≠ py!"root" := by
        rintro rfl
        exact absurd (kind_ordinary (.inr ⟨p, hk⟩)) (by decide)
      have e : a.row row = Reader.addArgs r 0 (row.drop 2)
          { a with nodes := a.nodes ++ [⟨p, r, cellValue (row.getD 1 []), ((Dict.get? a.known p).getD none), a.cur, a.vname⟩]
                   known := (r, some a.nodes.length) :: a.known
                   last := (r, some a.nodes.length) } := by
        unfold Reader.row
        rw [hk]
      rw [e]
      have hpar : NodeOk a.nodes a.nodes.length ⟨p, r, cellValue (row.getD 1 []), ((Dict.get? a.known p).getD none), a.cur, a.vname⟩ := by
        refine ⟨cellValue_asVal _, h.vname, ?_, ?_⟩
        · intro hn
          show p = _
          rcases ht.1 with hp | hp
          · exact of_decide_eq_true hp
          · by_cases hpr : p = py!"root"
            · exact hpr
            · obtain ⟨j, q, x1, -⟩ := h.known p _ hpr (of_decide_eq_true hp)
              have hn : (Dict.get? a.known p).getD none = none := hn
              rw [x1] at hn
              cases hn
        · intro j hj
          have hj : (Dict.get? a.known p).getD none = some j := hj
          have hpr : p ≠ py!"root" := by
            rintro rfl
            rw [h.root] at hj
            cases hj
          rcases ht.1 with hp | hp
          · exact absurd (of_decide_eq_true hp) hpr
          · obtain ⟨i, q, x1, x2, x3, x4⟩ := h.known p _ hpr (of_decide_eq_true hp)
            rw [x1] at hj
            injection hj with hj
            subst hj
            exact ⟨(List.getElem?_eq_some_iff.1 x2).1, hpr, q, x2, x3, x4⟩
      obtain ⟨g1, g2⟩ := neat_args (known := (r, a.cur) :: known) (r := r) (row.drop 2) (k := 0)
        (a := { a with nodes := a.nodes ++ [⟨p, r, cellValue (row.getD 1 []), ((Dict.get? a.known p).getD none), a.cur, a.vname⟩]
                       known := (r, some a.nodes.length) :: a.known
                       last := (r, some a.nodes.length) }) (by
          refine ⟨h.vname, ?_, ?_, .inr ⟨a.nodes.length, ⟨p, r, cellValue (row.getD 1 []), ((Dict.get? a.known p).getD none), a.cur, a.vname⟩, rfl, ?_, rfl, rfl, hr⟩, nodes_push h.nodes hpar⟩
          · show Dict.get? ((r, some a.nodes.length) :: a.known) _ = _
            rw [Dict.get?_cons, if_neg hr]
            exact h.root
          · intro p' c hp' hkn
            show ∃ j q, Dict.get? ((r, some a.nodes.length) :: a.known) p' = _ ∧ _
            rw [Dict.get?_cons] at hkn ⊢
            by_cases hrp : r = p'
            · rw [if_pos hrp] at hkn ⊢
              injection hkn with hkn
              refine ⟨_, _, rfl, List.getElem?_concat_length, hrp, hkn⟩
            · rw [if_neg hrp] at hkn ⊢
              obtain ⟨j, q, x1, x2, x3⟩ := h.known p' c hp' hkn
              exact ⟨j, q, x1, get_push x2, x3⟩
          · exact List.getElem?_concat_length) rfl hr
      refine neat_rows rows g1 ?_
      rw [g2]
      exact ht.2

theorem tree_nodes {rows : List (List Str)} (h : treeFile rows = true) : ∀ i n, (readAll rows).nodes[i]? = some n → NodeOk (readAll rows).nodes i n := by
  obtain ⟨k, hk⟩ := neat_rows rows (known := []) (a := Reader.start)
    ⟨rfl, rfl, fun _ _ _ h => (by cases h), .inl rfl, fun _ _ h => (by cases h)⟩ h
  exact hk.nodes

theorem tree_kinds : ∀ {rows : List (List Str)} {known : List (Str × Str)} {cur : Str}, treeFrom known cur rows = true →
    ∀ row ∈ rows, kind row ≠ .special ∧ ∀ n c, kind row ≠ .header n c
  | [], _, _, _, row, hm => by cases hm
  | r :: rows, known, cur, h, row, hm => by
    unfold treeFrom at h
    rcases List.mem_cons.1 hm with rfl | hm
    · constructor
      · intro e; rw [e] at h; cases h
      · intro n c e; rw [e] at h; cases h
    · cases hk : kind r <;> rw [hk] at h <;> dsimp only at h
      case special => cases h
      case header => cases h
      case noise => exact tree_kinds h row hm
      case «section» => exact tree_kinds h row hm
      case elided => rw [Bool.and_eq_true] at h; exact tree_kinds h.2 row hm
      case named => rw [Bool.and_eq_true] at h; exact tree_kinds h.2 row hm

/-! ## The outline -/

theorem pick_places {f : Node → Bool} {d : Nat} : ∀ (nodes : List Node) (ids pre : List Nat), ids.length = nodes.length →
    pick nodes ids f = ((nodes.zipIdx pre.length).filter fun ni => f ni.1).map fun ni => (pre ++ ids).getD ni.2 d
  | [], [], _, _ => rfl
  | n :: nodes, t :: ids, pre, h => by
    have ih := pick_places (f := f) (d := d) nodes ids (pre ++ [t]) (by simpa using h)
    unfold pick at ih ⊢
    rw [List.length_append, List.length_singleton, List.append_assoc, List.singleton_append] at ih
    rw [List.zip_cons_cons, List.zipIdx_cons, List.filter_cons, List.filter_cons]
    dsimp only
    split
    · rw [List.map_cons, List.map_cons, ih]
      simp
    · exact ih

theorem pick_at {s : St} {a : Reader} {ids : List Nat} (h : Tracks s a ids) (f : Node → Bool) :
    pick a.nodes ids f = (places a.nodes f).map fun i => ref s ids (some i) := by
  rw [pick_places (d := s.root) a.nodes ids [] h.count]
  unfold places
  rw [List.map_map]
  rfl

theorem mem_places {nodes : List Node} {f : Node → Bool} {i : Nat} (h : i ∈ places nodes f) : ∃ n, nodes[i]? = some n ∧ f n = true := by
  unfold places at h
  obtain ⟨ni, h5, rfl⟩ := List.mem_map.1 h
  obtain ⟨h6, h7⟩ := List.mem_filter.1 h5
  exact ⟨ni.1, List.mem_zipIdx_iff_getElem?.1 h6, h7⟩

theorem items_map {s : St} {x : Nat} {g : Nat → Item} {r : Nat → Nat} : ∀ (l : List Nat), (∀ i ∈ l, ShowsItem s x (g i) (r i)) →
    ShowsItems s x (l.map g) (l.map r)
  | [], _ => by unfold ShowsItems; rfl
  | i :: l, h => by
    rw [List.map_cons, List.map_cons]
    unfold ShowsItems
    exact ⟨_, _, rfl, h i List.mem_cons_self, items_map l fun u hu => h u (List.mem_cons_of_mem _ hu)⟩

theorem zip_mem {nodes : List Node} {ids : List Nat} {n : Node} {i : Nat} (hi : i < ids.length) (h : nodes[i]? = some n) : (n, ids[i]) ∈ nodes.zip ids := by
  obtain ⟨h1, h2⟩ := List.getElem?_eq_some_iff.1 h
  rw [List.mem_iff_getElem]
  exact ⟨i, by rw [List.length_zip]; omega, by simp [h2]⟩

theorem Tracks.at {s : St} {a : Reader} {ids : List Nat} (h : Tracks s a ids) {i : Nat} {n : Node} (hi : a.nodes[i]? = some n) :
    (n, ref s ids (some i)) ∈ a.nodes.zip ids := by
  have : i < ids.length := by rw [h.count]; exact (List.getElem?_eq_some_iff.1 hi).1
  rw [ref_some this]
  exact zip_mem this hi

/-- Each term is an item. -/
theorem item_shows {s : St} {a : Reader} {ids : List Nat} (h : Tracks s a ids) (hn : ∀ i n, a.nodes[i]? = some n → NodeOk a.nodes i n) :
    ∀ (m i : Nat), a.nodes.length - i ≤ m → ∀ n, a.nodes[i]? = some n → ∀ x, s.sections.get? n.sec = some x →
      ShowsItem s x (itemOf a.nodes m i) (ref s ids (some i))
  | 0, i, hm, n, hni, _, _ => by
    have := (List.getElem?_eq_some_iff.1 hni).1
    omega
  | m + 1, i, hm, n, hni, x, hx => by
    have hi := (List.getElem?_eq_some_iff.1 hni).1
    obtain ⟨-, a2, a3, -, a7⟩ := h.term n _ (Tracks.at h hni)
    obtain ⟨v, hv⟩ := (hn i n hni).value
    have hch := h.children i (by rw [h.count]; exact hi)
    rw [pick_at h] at hch
    have key : ∀ k ∈ places a.nodes (fun k => decide (k.parent = some i)), ∃ nk, a.nodes[k]? = some nk ∧ nk.parent = some i := by
      intro k hk
      obtain ⟨nk, h1, h2⟩ := mem_places hk
      exact ⟨nk, h1, of_decide_eq_true h2⟩
    unfold itemOf
    rw [hni]
    dsimp only
    unfold ShowsItem
    refine ⟨a2, ?_, a7.trans hx, ?_, ?_⟩
    · rw [a3, hv]
      cases v <;> rfl
    · intro c hc
      rw [hch] at hc
      obtain ⟨k, hk, rfl⟩ := List.mem_map.1 hc
      obtain ⟨nk, h1, h3⟩ := key k hk
      obtain ⟨-, -, q, b2, b3, -⟩ := (hn k nk h1).sub i h3
      rw [hni] at b2
      injection b2 with b2
      obtain ⟨c1, -, -, c6, -⟩ := h.term nk _ (Tracks.at h h1)
      rw [h3] at c6
      exact ⟨c6, by rw [c1, ← b3, ← b2]⟩
    · rw [hch]
      refine items_map _ fun k hk => ?_
      obtain ⟨nk, h1, h3⟩ := key k hk
      obtain ⟨b1, -, q, b2, -, b4⟩ := (hn k nk h1).sub i h3
      rw [hni] at b2
      injection b2 with b2
      exact item_shows h hn m k (by omega) nk h1 x (by rw [← b4, ← b2]; exact hx)

theorem forall₂_keys {α β : Type} {R : Str × α → Str × β → Prop} : ∀ (l : List (Str × α)) (m : List (Str × β)), l.map (·.1) = m.map (·.1) →
    (∀ kv ∈ l, ∀ d, (kv.1, d) ∈ m → R kv (kv.1, d)) → List.Forall₂ R l m
  | [], [], _, _ => .nil
  | [], _ :: _, h, _ => by cases h
  | _ :: _, [], h, _ => by cases h
  | kv :: l, (k, d) :: m, h, hR => by
    rw [List.map_cons, List.map_cons] at h
    injection h with h1 h2
    dsimp only at h1
    subst h1
    exact .cons (hR kv List.mem_cons_self d List.mem_cons_self)
      (forall₂_keys l m h2 fun kv' hm d' hd => hR kv' (List.mem_cons_of_mem _ hm) d' (List.mem_cons_of_mem _ hd))

/-- A document read from such a file is the outline of what was read. -/
theorem outline_shown {s : St} {a : Reader} {ids : List Nat} (h : Tracks s a ids)
    (hn : ∀ i n, a.nodes[i]? = some n → NodeOk a.nodes i n) (hr : (s.heap s.root).rt = py!"root") 
    (hnd : s.sections.keys.Nodup) (hnm : ∀ k x, s.sections.get? k = some x → ∃ n, (s.heap x).value = .str n ∧ lower n = k) :
    Shows s (readerOutline a) := by
  refine ⟨hr, ?_⟩
  unfold readerOutline
  rw [List.forall₂_map_right_iff]
  refine forall₂_keys _ _ h.sections ?_
  intro kv hkv d hd
  have hk := Dict.get?_of_mem hnd hkv
  have hd' := Dict.get?_of_mem (by rw [← h.sections]; exact hnd) hd
  obtain ⟨nm, e1, e2⟩ := h.columns _ _ hk
  rw [hd'] at e2
  injection e2 with e2
  subst e2
  obtain ⟨nm', f1, f2⟩ := hnm _ _ hk
  rw [e1] at f1
  injection f1 with f1
  subst f1
  have hst := h.sectionTerms _ _ hk
  rw [pick_at h] at hst
  have key : ∀ i ∈ places a.nodes (fun n => decide (n.pt = py!"root") && decide (n.sec = kv.1)),
      ∃ n, a.nodes[i]? = some n ∧ n.pt = py!"root" ∧ n.sec = kv.1 := by
    intro i hi
    obtain ⟨n, h1, h2⟩ := mem_places hi
    rw [Bool.and_eq_true] at h2
    exact ⟨n, h1, of_decide_eq_true h2.1, of_decide_eq_true h2.2⟩
  refine ⟨f2.symm, e1, ?_, ?_, ?_⟩
  · unfold Obj.secPropertyNames
    rw [h.noHeader _ _ hk, if_neg (fun h => h rfl)]
  · show ShowsItems s kv.2 (List.map _ _) _
    rw [hst]
    refine items_map _ fun i hi => ?_
    obtain ⟨n, h1, -, h3⟩ := key i hi
    exact item_shows h hn _ i (Nat.sub_le _ _) n h1 kv.2 (by rw [h3]; exact hk)
  · intro t ht
    rw [hst] at ht
    obtain ⟨i, hi, rfl⟩ := List.mem_map.1 ht
    obtain ⟨n, h1, h2, -⟩ := key i hi
    obtain ⟨c1, -, -, c6, -⟩ := h.term n _ (Tracks.at h h1)
    refine ⟨c1.trans h2, .inr ?_⟩
    rw [c6]
    cases hp : n.parent with
    | none => rfl
    | some j => exact absurd h2 ((hn i n h1).sub j hp).2.1

/-- Reading such a file. -/
theorem tree_shown {env : Env} {classes : Dict Cls} (hcl : PlainClasses classes) {rows : List (List Str)} (h : plainFile rows = true)
    (ht : treeFile rows = true) (files : Files) (fuel : Nat) (path : Str) :
    ∃ s, parseRows files (fuel + 1) path rows (newDoc env classes) = .ok () s ∧ Shows s (fileOutline rows) := by
  obtain ⟨s', h'⟩ := plainFile_rows (env := env) hcl h
  have i0 := pinv_new (F := True) (env := env) hcl
  obtain ⟨ids, hs⟩ := sim_rows i0 (sim_start env classes) h' h
  have hnh : NoHeaders s' := noHeaders_rows h' (tree_kinds ht) fun j => by
    show ((newDoc env classes).heap j).headerArgs = []
    unfold newDoc
    simp only
    split <;> rfl
  exact ⟨_, parse_plain hcl h' files fuel path, outline_shown ((holds_finish hs.toHolds).tracks hnh) (tree_nodes ht) (h'.inv i0).rootName
    (h'.inv i0).wf.secsNodup hs.names⟩

end Metatab
