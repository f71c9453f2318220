import Verif.Lemmas.TreeFile
import Verif.Lemmas.TrackDoc
/-! Files with `Declare` rows in front are read as outlines. -/
namespace Metatab
open Py _root_.Spec

/-! ## Reading behind other nodes -/

/-- A reference behind `k` other nodes. -/
def moveRef (k : Nat) (i : Option Nat) : Option Nat := i.map (· + k)

def moveNode (k : Nat) (n : Node) : Node := { n with parent := moveRef k n.parent }

/-- A reader with other nodes in front. -/
def moveReader (pre : List Node) (a : Reader) : Reader :=
  { a with nodes := pre ++ a.nodes.map (moveNode pre.length), known := a.known.map fun e => (e.1, moveRef pre.length e.2),
           last := (a.last.1, moveRef pre.length a.last.2) }

theorem shift_get {k : Nat} {p : Str} : ∀ (l : List (Str × Option Nat)),
    (Dict.get? (l.map fun e => (e.1, moveRef k e.2)) p).getD none = moveRef k ((Dict.get? l p).getD none)
  | [] => rfl
  | e :: l => by
    obtain ⟨n, i⟩ := e
    rw [List.map_cons, Dict.get?_cons, Dict.get?_cons]
    dsimp only
    split
    · rfl
    · exact shift_get l

theorem shift_node {pre : List Node} {a : Reader} (n : Node) :
    pre ++ a.nodes.map (moveNode pre.length) ++ [moveNode pre.length n] = pre ++ (a.nodes ++ [n]).map (moveNode pre.length) := by
  rw [List.map_append, List.append_assoc]; rfl

theorem shift_args {pre : List Node} {r : Str} : ∀ (vs : List Str) (k : Nat) (a : Reader),
    Reader.addArgs r k vs (moveReader pre a) = moveReader pre (Reader.addArgs r k vs a)
  | [], _, _ => rfl
  | v :: vs, k, a => by
    rw [Reader.addArgs, Reader.addArgs]
    by_cases hv : strip v = []
    · rw [if_pos hv, if_pos hv]
      exact shift_args vs _ a
    · rw [if_neg hv, if_neg hv, ← shift_args vs]
      congr 1
      unfold moveReader
      dsimp only
      rw [← shift_node]
      rfl

theorem shift_row {pre : List Node} (a : Reader) (row : List Str) : (moveReader pre a).row row = moveReader pre (a.row row) := by
  unfold Reader.row
  cases hk : kind row with
  | noise => rfl
  | special => rfl
  | «section» n cols =>
    dsimp only
    have e : (moveReader pre a).secs = a.secs := rfl
    rw [e]
    cases a.secs.get? (lower n) with
    | none => rfl
    | some q => obtain ⟨_, cs⟩ := q; rfl
  | header n cols => rfl
  | elided r =>
    dsimp only
    rw [← shift_args]
    congr 1
    unfold moveReader
    dsimp only
    rw [← shift_node]
    rfl
  | named p r =>
    dsimp only
    rw [← shift_args]
    congr 1
    unfold moveReader
    dsimp only
    rw [shift_get, ← shift_node, List.length_append, List.length_map, Nat.add_comm pre.length]
    rfl

theorem shift_rows {pre : List Node} : ∀ (rows : List (List Str)) (a : Reader),
    rows.foldl Reader.row (moveReader pre a) = moveReader pre (rows.foldl Reader.row a)
  | [], _ => rfl
  | row :: rows, a => by rw [List.foldl_cons, List.foldl_cons, shift_row, shift_rows rows]

theorem declReader_shift (decls : List Str) : declReader decls = moveReader (declReader decls).nodes Reader.start := by
  unfold moveReader
  rw [show Reader.start.nodes = [] from rfl, List.map_nil, List.append_nil]
  rfl

/-! ## The outline behind other nodes -/

theorem places_shift {pre nodes : List Node} {f : Node → Bool} :
    places (pre ++ nodes.map (moveNode pre.length)) f =
      places pre f ++ (places nodes fun n => f (moveNode pre.length n)).map (· + pre.length) := by
  have key : ∀ (l : List Node) (b : Nat), ((l.map (moveNode pre.length)).zipIdx (b + pre.length)).filter (fun ni => f ni.1) =
      ((l.zipIdx b).filter fun ni => f (moveNode pre.length ni.1)).map fun ni => (moveNode pre.length ni.1, ni.2 + pre.length) := by
    intro l
    induction l with
    | nil => intro b; rfl
    | cons n l ih =>
      intro b
      rw [List.map_cons, List.zipIdx_cons, List.zipIdx_cons, List.filter_cons, List.filter_cons]
      have := ih (b + 1)
      rw [show b + 1 + pre.length = b + pre.length + 1 by omega] at this
      dsimp only
      split
      · rw [List.map_cons, this]
      · exact this
  unfold places
  rw [List.zipIdx_append, List.filter_append, List.map_append]
  have := key nodes 0
  rw [Nat.zero_add] at this
  rw [Nat.zero_add, this, List.map_map, List.map_map]
  rfl

theorem places_none {nodes : List Node} {f : Node → Bool} (h : ∀ n ∈ nodes, f n = false) : places nodes f = [] := by
  unfold places
  rw [List.filter_eq_nil_iff.2, List.map_nil]
  intro ni hni
  have := List.mem_zipIdx_iff_getElem?.1 hni
  rw [h _ (List.mem_of_getElem? this)]
  simp

theorem moveRef_eq {k i : Nat} {p : Option Nat} : moveRef k p = some (i + k) ↔ p = some i := by
  unfold moveRef
  cases p with
  | none => simp
  | some j => simp

/-- The trees do not depend on the nodes in front, nor on the bound. -/
theorem item_shift {pre nodes : List Node} (hpre : ∀ n ∈ pre, n.parent = none) (hn : ∀ i n, nodes[i]? = some n → NodeOk nodes i n) :
    ∀ (m m' i : Nat), nodes.length - i ≤ m → nodes.length - i ≤ m' → i < nodes.length →
      itemOf (pre ++ nodes.map (moveNode pre.length)) m (i + pre.length) = itemOf nodes m' i
  | 0, _, i, h, _, hi => by omega
  | _ + 1, 0, i, _, h, hi => by omega
  | m + 1, m' + 1, i, h, h', hi => by
    unfold itemOf
    rw [List.getElem?_append_right (by omega), Nat.add_sub_cancel, List.getElem?_map, List.getElem?_eq_getElem hi]
    dsimp only [Option.map_some]
    rw [places_shift, places_none (nodes := pre), List.nil_append, List.map_map]
    · have e : (fun n => decide ((moveNode pre.length n).parent = some (i + pre.length))) = fun n : Node => decide (n.parent = some i) := by
        funext n
        exact decide_eq_decide.2 moveRef_eq
      rw [e]
      refine congrArg₂ (Item.mk _) rfl (List.map_congr_left ?_)
      intro j hj
      obtain ⟨n, h1, h2⟩ := mem_places hj
      obtain ⟨h3, -⟩ := (hn j n h1).sub i (of_decide_eq_true h2)
      exact item_shift hpre hn m m' j (by omega) (by omega) (List.getElem?_eq_some_iff.1 h1).1
    · intro n hm
      rw [hpre n hm]
      rfl

/-- The section list begins with the root. -/
theorem secs_root : ∀ (rows : List (List Str)) {a : Reader}, (∃ rest, a.secs = (py!"root", py!"Root", []) :: rest ∧ py!"root" ∉ Dict.keys rest) →
    ∃ rest, (rows.foldl Reader.row a).secs = (py!"root", py!"Root", []) :: rest ∧ py!"root" ∉ Dict.keys rest
  | [], _, h => h
  | row :: rows, a, h => by
    rw [List.foldl_cons]
    refine secs_root rows ?_
    obtain ⟨rest, h1, h2⟩ := h
    have args : ∀ (r : Str) (vs : List Str) (k : Nat) (b : Reader), (Reader.addArgs r k vs b).secs = b.secs := by
      intro r vs
      induction vs with
      | nil => intro k b; rfl
      | cons v vs ih => intro k b; rw [Reader.addArgs, ih]; split <;> rfl
    unfold Reader.row
    cases hk : kind row with
    | noise => exact ⟨rest, h1, h2⟩
    | special => exact ⟨rest, h1, h2⟩
    | header n c => exact ⟨rest, h1, h2⟩
    | elided r => dsimp only; rw [args]; exact ⟨rest, h1, h2⟩
    | named p r => dsimp only; rw [args]; exact ⟨rest, h1, h2⟩
    | «section» n cols =>
      dsimp only
      cases hg : a.secs.get? (lower n) with
      | some q => obtain ⟨_, cs⟩ := q; exact ⟨rest, h1, h2⟩
      | none =>
        refine ⟨rest ++ [(lower n, n, cols)], by rw [h1]; rfl, ?_⟩
        unfold Dict.keys at h2 ⊢
        rw [List.map_append, List.mem_append]
        rintro (h | h)
        · exact h2 h
        · have e : py!"root" = lower n := List.mem_singleton.1 h
          rw [← e, h1, Dict.get?_cons, if_pos rfl] at hg
          cases hg

theorem decl_places (decls : List Str) {sec : Str} : (places (declReader decls).nodes fun n => decide (n.pt = py!"root") && decide (n.sec = sec)) =
    if sec = py!"root" then List.range decls.length else [] := by
  rw [declReader_nodes]
  split
  · next e =>
    subst e
    unfold places
    rw [List.filter_eq_self.2]
    · rw [List.zipIdx_map_snd, List.length_map, List.range_eq_range']
    · intro ni hni
      have := List.mem_of_getElem? (List.mem_zipIdx_iff_getElem?.1 hni)
      obtain ⟨v, -, e⟩ := List.mem_map.1 this
      rw [← e]; rfl
  · next e =>
    refine places_none fun n hn => ?_
    obtain ⟨v, -, rfl⟩ := List.mem_map.1 hn
    dsimp only
    rw [decide_eq_false (p := py!"root" = sec) (fun h => e h.symm), Bool.and_false]

theorem decl_item {decls : List Str} {nodes : List Node} {m i : Nat} (hi : i < decls.length) (hm : 0 < m) :
    itemOf ((declReader decls).nodes ++ nodes.map (moveNode (declReader decls).nodes.length)) m i = .mk (py!"declare") (some decls[i]) [] := by
  obtain ⟨m, rfl⟩ : ∃ k, m = k + 1 := ⟨m - 1, by omega⟩
  have hl : (declReader decls).nodes.length = decls.length := by rw [declReader_nodes, List.length_map]
  unfold itemOf
  rw [List.getElem?_append_left (by omega)]
  have : (declReader decls).nodes[i]? = some ⟨py!"root", py!"declare", .str decls[i], none, py!"root", py!"@value"⟩ := by
    rw [declReader_nodes, List.getElem?_map, List.getElem?_eq_getElem hi]; rfl
  rw [this]
  dsimp only
  rw [places_none]
  · rfl
  · intro n hn
    rcases List.mem_append.1 hn with hn | hn
    · rw [declReader_nodes] at hn
      obtain ⟨v, -, rfl⟩ := List.mem_map.1 hn
      rfl
    · obtain ⟨n, -, rfl⟩ := List.mem_map.1 hn
      refine decide_eq_false fun h => ?_
      unfold moveNode moveRef at h
      cases hp : n.parent with
      | none => rw [hp] at h; cases h
      | some j =>
        rw [hp] at h
        simp only [Option.map_some, Option.some.injEq] at h
        omega

/-- The outline of a file with `Declare` rows in front. -/
theorem declared_outline {decls : List Str} {rows : List (List Str)} (ht : treeFile rows = true) :
    readerOutline (rows.foldl Reader.row (declReader decls)) = inFront (declItems decls) (fileOutline rows) := by
  rw [declReader_shift, shift_rows]
  have hl : (declReader decls).nodes.length = decls.length := by rw [declReader_nodes, List.length_map]
  have hpre : ∀ n ∈ (declReader decls).nodes, n.parent = none := by
    intro n hn
    rw [declReader_nodes] at hn
    obtain ⟨v, -, rfl⟩ := List.mem_map.1 hn
    rfl
  obtain ⟨rest, h1, h2⟩ := secs_root rows (a := Reader.start) ⟨[], rfl, by intro h; cases h⟩
  have hn := tree_nodes ht
  have hR : rows.foldl Reader.row Reader.start = readAll rows := rfl
  rw [hR] at h1 ⊢
  have tail : ∀ sec, ((places (readAll rows).nodes fun n => decide ((moveNode (declReader decls).nodes.length n).pt = py!"root") &&
        decide ((moveNode (declReader decls).nodes.length n).sec = sec)).map (· + (declReader decls).nodes.length)).map
        (itemOf ((declReader decls).nodes ++ (readAll rows).nodes.map (moveNode (declReader decls).nodes.length))
          ((declReader decls).nodes ++ (readAll rows).nodes.map (moveNode (declReader decls).nodes.length)).length) =
      (places (readAll rows).nodes fun n => decide (n.pt = py!"root") && decide (n.sec = sec)).map
        (itemOf (readAll rows).nodes (readAll rows).nodes.length) := by
    intro sec
    rw [List.map_map]
    refine List.map_congr_left fun i hi => ?_
    obtain ⟨n, g1, -⟩ := mem_places hi
    refine item_shift hpre hn _ _ i ?_ (by omega) (List.getElem?_eq_some_iff.1 g1).1
    rw [List.length_append, List.length_map]
    omega
  unfold fileOutline readerOutline inFront moveReader
  dsimp only
  rw [h1, List.map_cons, List.map_cons]
  dsimp only
  refine congrArg₂ List.cons ?_ (List.map_congr_left fun s hs => ?_)
  · refine congrArg (Part.mk _ _) ?_
    rw [places_shift, List.map_append, tail, decl_places, if_pos rfl]
    refine congrArg (· ++ _) ?_
    apply List.ext_getElem
    · unfold declItems; simp
    · intro i g1 g2
      have hi : i < decls.length := by simpa using g1
      rw [List.getElem_map, List.getElem_range, decl_item hi (by rw [List.length_append]; omega)]
      exact (List.getElem_map (f := fun v => Item.mk (py!"declare") (some v) []) (h := g2)).symm
  · have : s.1 ≠ py!"root" := fun e => h2 (e ▸ List.mem_map.2 ⟨s, hs, rfl⟩)
    rw [places_shift, List.map_append, tail, decl_places, if_neg this]
    rfl

theorem shortHead_head : ∀ (rows : List (List Str)), shortHead rows = headOk rows
  | [] => rfl
  | row :: rows => by
    unfold shortHead headOk
    cases kind row <;> dsimp only
    · exact shortHead_head rows
    · rw [shortHead_head rows]

/-- A node behind the `Declare` terms. -/
theorem declared_nodes {decls : List Str} {rows : List (List Str)} (ht : treeFile rows = true) :
    ∀ i n, (rows.foldl Reader.row (declReader decls)).nodes[i]? = some n → NodeOk (rows.foldl Reader.row (declReader decls)).nodes i n := by
  obtain ⟨k, hk⟩ := neat_rows rows (known := []) (a := declReader decls)
    ⟨rfl, rfl, fun _ _ _ h => (by cases h), .inl rfl, fun i n h => by
      rw [declReader_nodes] at h
      obtain ⟨v, -, rfl⟩ := List.mem_map.1 (List.mem_of_getElem? h)
      exact ⟨⟨some v, rfl⟩, rfl, fun _ => rfl, fun j hj => by cases hj⟩⟩ ht
  exact hk.nodes

end Metatab
