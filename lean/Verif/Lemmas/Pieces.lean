import Verif.Spec.Pieces
import Verif.Props.Again
/-! Files made of pieces that can be read by themselves. -/
namespace Metatab
open Py _root_.Spec

/-! ## Reading a piece after other rows -/

/-- A node after `h` others. -/
def shift (h : Nat) (n : Node) : Node := { n with parent := n.parent.map (· + h) }

/-- The reader `a` is where `b` is, after the nodes `H` and with the sections `S`. Names outside `K` may differ. -/
structure Shifted (H : List Node) (S : Dict (Str × List Str)) (K : List Str) (b a : Reader) : Prop where
  nodes : a.nodes = H ++ b.nodes.map (shift H.length)
  secs : a.secs = S ++ b.secs.tail
  own : ∃ e, b.secs = (py!"root", e) :: b.secs.tail
  cur : a.cur = b.cur
  cols : a.cols = b.cols
  vname : a.vname = b.vname
  lastName : a.last.1 = b.last.1
  last : a.last.2 = b.last.2.map (· + H.length)
  known : ∀ k ∈ K, Dict.get? a.known k = (Dict.get? b.known k).map (Option.map (· + H.length))

theorem Shifted.addArgs {H : List Node} {S : Dict (Str × List Str)} {K : List Str} {r : Str} : ∀ {vs : List Str} {k : Nat} {b a : Reader},
    Shifted H S K b a → Shifted H S K (Reader.addArgs r k vs b) (Reader.addArgs r k vs a)
  | [], _, _, _, h => h
  | v :: vs, k, b, a, h => by
    rw [Reader.addArgs, Reader.addArgs]
    split
    · exact Shifted.addArgs h
    · refine Shifted.addArgs ⟨?_, h.secs, h.own, h.cur, h.cols, h.vname, h.lastName, h.last, h.known⟩
      simp only [List.map_append, List.map_cons, List.map_nil, shift, h.nodes, h.cur, h.cols, h.vname, h.last, List.append_assoc]

theorem get?_append_right {α : Type} {k : Str} : ∀ {A B : Dict α}, k ∉ A.keys → Dict.get? (A ++ B) k = Dict.get? B k
  | [], _, _ => rfl
  | (k', v) :: A, B, h => by
    rw [List.cons_append, Dict.get?_cons, if_neg, get?_append_right]
    · intro hm; exact h (List.mem_cons_of_mem _ hm)
    · rintro rfl; exact h List.mem_cons_self

theorem get?_append_left {α : Type} {k : Str} : ∀ {A B : Dict α}, k ∉ B.keys → Dict.get? (A ++ B) k = Dict.get? A k
  | [], B, h => by rw [List.nil_append, Dict.get?_eq_none.2 h]; rfl
  | (k', v) :: A, B, h => by
    rw [List.cons_append, Dict.get?_cons, Dict.get?_cons, get?_append_left h]

theorem section_not_root {row : List Str} {n : Str} {cols : List Str} (h : kind row = .section n cols) : lower n ≠ py!"root" := by
  cases row with
  | nil => cases h
  | cons c rest =>
    unfold kind at h
    repeat' split at h
    all_goals first
      | (injection h with h1 h2; subst h1; rename_i hc; exact hc.2.1)
      | cases h

theorem shifted_rows {H : List Node} {S : Dict (Str × List Str)} : ∀ {rows : List (List Str)} {K : List Str} {b a : Reader}, Shifted H S K b a →
    plainFrom K rows = true → (∀ k ∈ sectionNames rows, k ∉ S.keys) → ∃ K', Shifted H S K' (rows.foldl Reader.row b) (rows.foldl Reader.row a)
  | [], K, _, _, h, _, _ => ⟨K, h⟩
  | row :: rows, K, b, a, h, hp, hd => by
    unfold plainFrom at hp
    rw [List.foldl_cons, List.foldl_cons]
    have hd' : ∀ k ∈ sectionNames rows, k ∉ S.keys := by
      intro k hk
      refine hd k ?_
      unfold sectionNames at hk ⊢
      rw [List.filterMap_cons]
      split
      · exact hk
      · exact List.mem_cons_of_mem _ hk
    cases hk : kind row with
    | special => rw [hk] at hp; cases hp
    | noise =>
      rw [hk] at hp
      refine shifted_rows (K := K) ?_ hp hd'
      unfold Reader.row; rw [hk]; exact h
    | header n cols =>
      rw [hk] at hp
      refine shifted_rows (K := K) ?_ hp hd'
      unfold Reader.row; rw [hk]; exact ⟨h.nodes, h.secs, h.own, h.cur, rfl, rfl, h.lastName, h.last, h.known⟩
    | «section» n cols =>
      rw [hk] at hp
      refine shifted_rows (K := K) ?_ hp hd'
      have hS : lower n ∉ S.keys := by
        refine hd _ ?_
        unfold sectionNames
        rw [List.filterMap_cons, hk]
        exact List.mem_cons_self
      obtain ⟨e, he⟩ := h.own
      have hg : Dict.get? a.secs (lower n) = Dict.get? b.secs (lower n) := by
        rw [h.secs, get?_append_right hS, he, Dict.get?_cons, if_neg (Ne.symm (section_not_root hk))]
        rfl
      unfold Reader.row; rw [hk]; dsimp only
      rw [hg]
      split
      · exact ⟨h.nodes, h.secs, h.own, rfl, rfl, rfl, rfl, rfl, h.known⟩
      · refine ⟨h.nodes, ?_, ⟨e, ?_⟩, rfl, rfl, rfl, rfl, rfl, h.known⟩
        · dsimp only
          rw [h.secs, he]
          simp
        · dsimp only
          rw [he]
          rfl
    | elided r =>
      rw [hk] at hp
      refine shifted_rows (K := K) ?_ hp hd'
      unfold Reader.row; rw [hk]; dsimp only
      refine Shifted.addArgs ⟨?_, h.secs, h.own, h.cur, h.cols, h.vname, h.lastName, h.last, h.known⟩
      simp only [List.map_append, List.map_cons, List.map_nil, shift, h.nodes, h.cur, h.vname, h.lastName, h.last, List.append_assoc]
    | named p r =>
      rw [hk] at hp
      simp only [Bool.and_eq_true, List.contains_eq_mem, decide_eq_true_eq] at hp
      refine shifted_rows (K := r :: K) ?_ hp.2 hd'
      have hl : a.nodes.length = b.nodes.length + H.length := by rw [h.nodes]; simp [Nat.add_comm]
      unfold Reader.row; rw [hk]; dsimp only
      refine Shifted.addArgs ⟨?_, h.secs, h.own, h.cur, h.cols, h.vname, rfl, ?_, ?_⟩
      · have : (Option.map (Option.map (· + H.length)) (Dict.get? b.known p)).getD none = ((Dict.get? b.known p).getD none).map (· + H.length) := by
          cases Dict.get? b.known p <;> rfl
        simp only [List.map_append, List.map_cons, List.map_nil, shift, h.nodes, h.cur, h.vname, h.known p hp.1, List.append_assoc, this]
      · simp only [hl, Option.map_some]
      · intro k hm
        simp only [Dict.get?_cons, hl]
        split
        · rfl
        · next hne => exact h.known k ((List.mem_cons.1 hm).resolve_left (Ne.symm hne))

/-- A piece read after other rows. -/
theorem piece_after {a : Reader} (hr : Dict.get? a.known (py!"root") = some none) {rows : List (List Str)} (hp : plainFile rows = true)
    (hs : startsSection rows = true) (hd : ∀ k ∈ sectionNames rows, k ∉ a.secs.keys) :
    (rows.foldl Reader.row a).nodes = a.nodes ++ (readAll rows).nodes.map (shift a.nodes.length) ∧
    (rows.foldl Reader.row a).secs = a.secs ++ (readAll rows).secs.tail := by
  obtain ⟨row, more, rfl⟩ : ∃ row more, rows = row :: more := by
    cases rows with
    | nil => cases hs
    | cons row more => exact ⟨row, more, rfl⟩
  obtain ⟨n, cols, hsec⟩ : ∃ n cols, kind row = .section n cols := by
    unfold startsSection at hs
    dsimp only at hs
    cases hkd : kind row <;> rw [hkd] at hs <;> first | exact ⟨_, _, rfl⟩ | cases hs
  have hpl : plainFrom [py!"root"] more = true := by
    unfold plainFile plainFrom at hp; rw [hsec] at hp; exact hp
  have hS : lower n ∉ a.secs.keys := by
    refine hd _ ?_
    unfold sectionNames
    rw [List.filterMap_cons, hsec]
    exact List.mem_cons_self
  have hb : Dict.get? Reader.start.secs (lower n) = none := by
    show Dict.get? [(py!"root", py!"Root", [])] (lower n) = none
    rw [Dict.get?_cons, if_neg (Ne.symm (section_not_root hsec))]
    rfl
  have hf : Shifted a.nodes a.secs [py!"root"] (Reader.start.row row) (a.row row) := by
    unfold Reader.row
    rw [hsec]; dsimp only
    rw [Dict.get?_eq_none.2 hS, hb]
    refine ⟨?_, rfl, ⟨_, rfl⟩, rfl, rfl, rfl, rfl, rfl, ?_⟩
    · show a.nodes = a.nodes ++ List.map _ []
      simp
    · intro k hm
      rw [List.mem_singleton.1 hm, hr]
      rfl
  obtain ⟨K, hK⟩ := shifted_rows hf hpl fun k hk => hd k (by
    unfold sectionNames at hk ⊢
    rw [List.filterMap_cons, hsec]
    exact List.mem_cons_of_mem _ hk)
  exact ⟨hK.nodes, hK.secs⟩

/-! ## What the pieces contribute -/

/-- What a piece contributes: the names of its sections, the sections and the nodes. -/
structure Bk where
  names : List Str
  secs : Dict (Str × List Str)
  nodes : List Node

/-- It is complete. -/
structure Bk.Ok (b : Bk) : Prop where
  keys : ∀ k ∈ b.secs.keys, k ∈ b.names
  secs : ∀ n ∈ b.nodes, n.sec ∈ b.names
  refs : ∀ n ∈ b.nodes, RefOk b.nodes.length n.parent

/-- The nodes of all, after `o` others. -/
def cat : Nat → List Bk → List Node
  | _, [] => []
  | o, b :: bs => b.nodes.map (shift o) ++ cat (o + b.nodes.length) bs

def headBk (rows : List (List Str)) : Bk := ⟨py!"root" :: sectionNames rows, (readAll rows).secs, (readAll rows).nodes⟩
def pieceBk (rows : List (List Str)) : Bk := ⟨sectionNames rows, (readAll rows).secs.tail, (readAll rows).nodes⟩

theorem addArgs_within (Q : Str → Prop) {r : Str} : ∀ {vs : List Str} {k : Nat} {a : Reader}, Q a.cur → (∀ n ∈ a.nodes, Q n.sec) →
    (Reader.addArgs r k vs a).cur = a.cur ∧ (Reader.addArgs r k vs a).secs = a.secs ∧ ∀ n ∈ (Reader.addArgs r k vs a).nodes, Q n.sec
  | [], _, _, _, h => ⟨rfl, rfl, h⟩
  | v :: vs, k, a, hc, h => by
    rw [Reader.addArgs]
    split
    · exact addArgs_within Q hc h
    · refine addArgs_within Q (a := { a with nodes := _ }) hc ?_
      intro n hn
      rcases List.mem_append.1 hn with hn | hn
      · exact h n hn
      · rw [List.mem_singleton.1 hn]; exact hc

theorem rows_within (Q : Str → Prop) : ∀ {rows : List (List Str)} {a : Reader}, Q a.cur → (∀ n ∈ a.nodes, Q n.sec) →
    (∀ k ∈ sectionNames rows, Q k) → (∀ n ∈ (rows.foldl Reader.row a).nodes, Q n.sec) ∧
      ∃ X, (rows.foldl Reader.row a).secs = a.secs ++ X ∧ ∀ k ∈ Dict.keys X, k ∈ sectionNames rows
  | [], a, _, h, _ => ⟨h, [], by simp, by intro k hk; cases hk⟩
  | row :: rows, a, hc, h, hs => by
    rw [List.foldl_cons]
    have hsub : ∀ k ∈ sectionNames rows, k ∈ sectionNames (row :: rows) := by
      intro k hk
      unfold sectionNames at hk ⊢
      rw [List.filterMap_cons]
      split
      · exact hk
      · exact List.mem_cons_of_mem _ hk
    have same : ∀ {a' : Reader}, Q a'.cur → (∀ n ∈ a'.nodes, Q n.sec) → a'.secs = a.secs →
        (∀ n ∈ (rows.foldl Reader.row a').nodes, Q n.sec) ∧
      ∃ X, (rows.foldl Reader.row a').secs = a.secs ++ X ∧ ∀ k ∈ Dict.keys X, k ∈ sectionNames (row :: rows) := by
      intro a' h1 h2 h3
      obtain ⟨r1, X, r2, r3⟩ := rows_within Q (rows := rows) h1 h2 fun k hk => hs k (hsub k hk)
      exact ⟨r1, X, by rw [r2, h3], fun k hk => hsub k (r3 k hk)⟩
    have hterm : ∀ {a' : Reader} {r : Str} {vs : List Str}, Q a'.cur → (∀ n ∈ a'.nodes, Q n.sec) → a'.secs = a.secs →
        (∀ n ∈ (rows.foldl Reader.row (Reader.addArgs r 0 vs a')).nodes, Q n.sec) ∧
      ∃ X, (rows.foldl Reader.row (Reader.addArgs r 0 vs a')).secs = a.secs ++ X ∧ ∀ k ∈ Dict.keys X, k ∈ sectionNames (row :: rows) := by
      intro a' r vs h1 h2 h3
      obtain ⟨q1, q2, q3⟩ := addArgs_within Q (r := r) (vs := vs) (k := 0) h1 h2
      exact same (by rw [q1]; exact h1) q3 (q2.trans h3)
    have hnode : ∀ {n : Node}, n.sec = a.cur → ∀ m ∈ a.nodes ++ [n], Q m.sec := by
      intro n hn m hm
      rcases List.mem_append.1 hm with hm | hm
      · exact h m hm
      · rw [List.mem_singleton.1 hm, hn]; exact hc
    cases hk : kind row with
    | «section» n cols =>
      have hin : lower n ∈ sectionNames (row :: rows) := by
        unfold sectionNames
        rw [List.filterMap_cons, hk]
        exact List.mem_cons_self
      unfold Reader.row; rw [hk]; dsimp only
      split
      · exact same (hs _ hin) h rfl
      · obtain ⟨r1, X, r2, r3⟩ := rows_within Q (rows := rows)
          (a := { a with secs := a.secs ++ [(lower n, n, cols)], cur := lower n, cols := cols, vname := py!"@value", last := (py!"root", none) })
          (hs _ hin) h fun k hk => hs k (hsub k hk)
        refine ⟨r1, (lower n, n, cols) :: X, ?_, ?_⟩
        · exact r2.trans (by simp)
        · intro k hk
          rcases List.mem_cons.1 hk with rfl | hk
          · exact hin
          · exact hsub k (r3 k hk)
    | special => unfold Reader.row; rw [hk]; exact same hc h rfl
    | noise => unfold Reader.row; rw [hk]; exact same hc h rfl
    | header n cols => unfold Reader.row; rw [hk]; exact same (a' := { a with cols := cols, vname := lower n }) hc h rfl
    | elided r => unfold Reader.row; rw [hk]; exact hterm hc (hnode rfl) rfl
    | named p r => unfold Reader.row; rw [hk]; exact hterm hc (hnode rfl) rfl

theorem headBk_ok {rows : List (List Str)} (hr : ∀ n ∈ (readAll rows).nodes, RefOk (readAll rows).nodes.length n.parent) : (headBk rows).Ok := by
  obtain ⟨h1, X, h2, h3⟩ := rows_within (fun k => k ∈ py!"root" :: sectionNames rows) (rows := rows) (a := Reader.start) List.mem_cons_self
    (by intro n hn; cases hn) fun k hk => List.mem_cons_of_mem _ hk
  refine ⟨?_, h1, hr⟩
  intro k hk
  have hk : k ∈ Dict.keys (rows.foldl Reader.row Reader.start).secs := hk
  rw [h2] at hk
  rcases List.mem_cons.1 hk with rfl | hk
  · exact List.mem_cons_self
  · exact List.mem_cons_of_mem _ (h3 k hk)

theorem startsSection_cases {rows : List (List Str)} (hs : startsSection rows = true) : ∃ row more n cols, rows = row :: more ∧ kind row = .section n cols := by
  cases rows with
  | nil => cases hs
  | cons row more =>
    unfold startsSection at hs
    dsimp only at hs
    cases hkd : kind row <;> rw [hkd] at hs <;> first | exact ⟨_, _, _, _, rfl, hkd⟩ | cases hs

theorem pieceBk_ok {rows : List (List Str)} (hs : startsSection rows = true) (hr : ∀ n ∈ (readAll rows).nodes, RefOk (readAll rows).nodes.length n.parent) :
    (pieceBk rows).Ok := by
  obtain ⟨row, more, n, cols, rfl, hsec⟩ := startsSection_cases hs
  have hin : lower n ∈ sectionNames (row :: more) := by
    unfold sectionNames
    rw [List.filterMap_cons, hsec]
    exact List.mem_cons_self
  have hsub : ∀ k ∈ sectionNames more, k ∈ sectionNames (row :: more) := by
    intro k hk
    unfold sectionNames at hk ⊢
    rw [List.filterMap_cons, hsec]
    exact List.mem_cons_of_mem _ hk
  have hb : Dict.get? Reader.start.secs (lower n) = none := by
    show Dict.get? [(py!"root", py!"Root", [])] (lower n) = none
    rw [Dict.get?_cons, if_neg (Ne.symm (section_not_root hsec))]
    rfl
  have h0 : Reader.start.row row = { Reader.start with secs := Reader.start.secs ++ [(lower n, n, cols)], cur := lower n, cols := cols } := by
    unfold Reader.row
    rw [hsec]; dsimp only
    rw [hb]; rfl
  obtain ⟨h1, X, h2, h3⟩ := rows_within (fun k => k ∈ sectionNames (row :: more)) (rows := more) (a := Reader.start.row row) (by rw [h0]; exact hin)
    (by rw [h0]; intro n hn; cases hn) hsub
  refine ⟨?_, h1, hr⟩
  intro k hk
  have hk : k ∈ Dict.keys (more.foldl Reader.row (Reader.start.row row)).secs.tail := hk
  rw [h2, h0] at hk
  rcases List.mem_cons.1 (show k ∈ lower n :: Dict.keys X from hk) with rfl | hk
  · exact hin
  · exact hsub k (h3 k hk)

theorem pieces_cat : ∀ {pieces : List (List (List Str))} {a : Reader}, Dict.get? a.known (py!"root") = some none →
    (∀ rows ∈ pieces, plainFile rows = true ∧ startsSection rows = true ∧ (pieceBk rows).Ok) → (pieces.map sectionNames).Pairwise List.Disjoint →
    (∀ rows ∈ pieces, ∀ k ∈ sectionNames rows, k ∉ a.secs.keys) →
    (pieces.flatten.foldl Reader.row a).nodes = a.nodes ++ cat a.nodes.length (pieces.map pieceBk) ∧
    (pieces.flatten.foldl Reader.row a).secs = a.secs ++ (pieces.map pieceBk).flatMap (·.secs)
  | [], a, _, _, _, _ => by simp [cat]
  | rows :: pieces, a, hr, h, hd, hk => by
    obtain ⟨p1, p2, p3⟩ := h rows List.mem_cons_self
    obtain ⟨e1, e2⟩ := piece_after hr p1 p2 (hk rows List.mem_cons_self)
    rw [List.map_cons, List.pairwise_cons] at hd
    obtain ⟨i1, i2⟩ := pieces_cat (pieces := pieces) (a := rows.foldl Reader.row a) (root_known hr) (fun x hx => h x (List.mem_cons_of_mem _ hx)) hd.2 (by
      intro x hx k hkx hin
      rw [e2] at hin
      unfold Dict.keys at hin
      rw [List.map_append, List.mem_append] at hin
      rcases hin with hin | hin
      · exact hk x (List.mem_cons_of_mem _ hx) k hkx hin
      · exact hd.1 _ (List.mem_map_of_mem hx) (p3.keys k hin) hkx)
    rw [List.flatten_cons, List.foldl_append, i1, i2, e1, e2]
    constructor
    · rw [List.map_cons, cat, List.length_append, List.length_map, List.append_assoc]
      rfl
    · rw [List.map_cons, List.flatMap_cons, List.append_assoc]
      rfl

theorem shift_zero (l : List Node) : l.map (shift 0) = l := by
  have : shift 0 = id := by
    funext n
    unfold shift
    cases n with
    | mk a b c d e f => cases d <;> rfl
  rw [this, List.map_id]

theorem readAll_pieces {head : List (List Str)} {pieces : List (List (List Str))} (hh : (headBk head).Ok)
    (h : ∀ rows ∈ pieces, plainFile rows = true ∧ startsSection rows = true ∧ (pieceBk rows).Ok)
    (hd : ((headBk head).names :: pieces.map sectionNames).Pairwise List.Disjoint) :
    (readAll (head ++ pieces.flatten)).nodes = cat 0 (headBk head :: pieces.map pieceBk) ∧
    (readAll (head ++ pieces.flatten)).secs = (headBk head :: pieces.map pieceBk).flatMap (·.secs) := by
  rw [List.pairwise_cons] at hd
  obtain ⟨e1, e2⟩ := pieces_cat (a := readAll head) (root_known (rows := head) (a := Reader.start) rfl) h hd.2 (by
    intro rows hr k hk hin
    exact hd.1 _ (List.mem_map_of_mem hr) (hh.keys k hin) hk)
  unfold readAll at e1 e2 ⊢
  rw [List.foldl_append, e1, e2, cat, shift_zero, Nat.zero_add, List.flatMap_cons]
  exact ⟨rfl, rfl⟩

end Metatab
