import Verif.Lemmas.Include
import Verif.Spec.Edit
/-! One more term in a list of terms. -/
namespace Metatab
open Py Spec

/-- References with one more term at position `i`. -/
def shiftRef (i : Nat) : Option Nat → Option Nat := Option.map fun j => if j < i then j else j + 1

/-- A term with its reference shifted. -/
def shiftNode (i : Nat) (n : Node) : Node := { n with parent := shiftRef i n.parent }

/-- The list of terms with `n` at position `i`. -/
def withNode (i : Nat) (n : Node) (l : List Node) : List Node := (l.take i).map (shiftNode i) ++ n :: (l.drop i).map (shiftNode i)

theorem withNode_append {i : Nat} {n m : Node} {l : List Node} (h : i ≤ l.length) :
    withNode i n (l ++ [m]) = withNode i n l ++ [shiftNode i m] := by
  unfold withNode
  rw [List.take_append_of_le_length h, List.drop_append_of_le_length h]
  simp

theorem length_withNode {i : Nat} {n : Node} {l : List Node} : (withNode i n l).length = l.length + 1 := by
  unfold withNode
  simp only [List.length_append, List.length_map, List.length_cons, List.length_take, List.length_drop]
  omega

/-- The reader `b` is as the reader `a` with the term `n` at position `i` in addition. Unless `strict`, elided rows may go elsewhere. -/
structure Extra (i : Nat) (n : Node) (strict : Bool) (a b : Reader) : Prop where
  le : i ≤ a.nodes.length
  nodes : b.nodes = withNode i n a.nodes
  secs : b.secs = a.secs
  cur : b.cur = a.cur
  cols : b.cols = a.cols
  vname : b.vname = a.vname
  known : ∀ k, k ≠ py!"include" → Dict.get? b.known k = (Dict.get? a.known k).map (shiftRef i)
  fresh : Dict.get? a.known (py!"include") = none
  last : strict = true → b.last = (a.last.1, shiftRef i a.last.2)

theorem extra_args {i : Nat} {n : Node} {R : Str} : ∀ {vs : List Str} {k : Nat} {a b : Reader}, Extra i n true a b →
    Extra i n true (Reader.addArgs R k vs a) (Reader.addArgs R k vs b)
  | [], _, _, _, h => h
  | v :: vs, k, a, b, h => by
    rw [Reader.addArgs, Reader.addArgs]
    refine extra_args ?_
    split
    · exact h
    · have e := h.last rfl
      refine { le := ?_, nodes := ?_, secs := h.secs, cur := h.cur, cols := h.cols, vname := h.vname, known := h.known, fresh := h.fresh, last := h.last }
      · simp only [List.length_append]; exact Nat.le_trans h.le (Nat.le_add_right _ _)
      · simp only [h.nodes, withNode_append h.le, h.cols, h.cur, h.vname, e]
        rfl

/-- One row can be read. -/
def RowOk (a : Reader) (row : List Str) : Prop := kind row ≠ .special ∧ ∀ p r, kind row = .named p r → (Dict.get? a.known p).isSome

/-- The rows can be read one after the other. -/
def RowsOk : Reader → List (List Str) → Prop
  | _, [] => True
  | a, row :: rows => RowOk a row ∧ RowsOk (a.row row) rows

theorem rowsOk_append : ∀ {l m : List (List Str)} {a : Reader}, RowsOk a (l ++ m) ↔ RowsOk a l ∧ RowsOk (l.foldl Reader.row a) m
  | [], _, _ => by simp [RowsOk]
  | row :: l, m, a => by rw [List.cons_append, RowsOk, RowsOk, rowsOk_append, and_assoc]; rfl

theorem known_addArgs {R : Str} : ∀ {vs : List Str} {k : Nat} {a : Reader}, (Reader.addArgs R k vs a).known = a.known ∧
    (Reader.addArgs R k vs a).cur = a.cur ∧ (Reader.addArgs R k vs a).secs = a.secs ∧ (Reader.addArgs R k vs a).cols = a.cols ∧
    (Reader.addArgs R k vs a).vname = a.vname
  | [], _, _ => ⟨rfl, rfl, rfl, rfl, rfl⟩
  | v :: vs, k, a => by
    rw [Reader.addArgs]
    obtain ⟨h1, h2, h3, h4, h5⟩ := known_addArgs (R := R) (vs := vs) (k := k + 1) (a := if strip v = [] then a
       else { a with nodes := a.nodes ++ [⟨R, colName a.cols k, .str (strip v), a.last.2, a.cur, a.vname⟩] })
    rw [h1, h2, h3, h4, h5]
    split <;> exact ⟨rfl, rfl, rfl, rfl, rfl⟩

theorem known_row (a : Reader) (row : List Str) : (a.row row).known = match kind row with
    | .named _ r => (r, some a.nodes.length) :: a.known
    | _ => a.known := by
  unfold Reader.row
  cases kind row with
  | «section» n cols => dsimp only; split <;> rfl
  | elided r => exact known_addArgs.1
  | named p r => exact known_addArgs.1
  | _ => rfl

theorem rowsOk_plain : ∀ {rows : List (List Str)} {known : List Str} {a : Reader}, plainFrom known rows = true →
    (∀ k ∈ known, (Dict.get? a.known k).isSome) → RowsOk a rows
  | [], _, _, _, _ => trivial
  | row :: rows, known, a, h, hk => by
    unfold plainFrom at h
    rw [RowsOk, RowOk]
    have e := known_row a row
    cases hkd : kind row <;> rw [hkd] at h e <;> simp only [Bool.and_eq_true, List.contains_eq_mem, decide_eq_true_eq] at h
    case special => cases h
    case named p r =>
      refine ⟨⟨by simp, fun p' r' e' => by cases e'; exact hk _ h.1⟩, rowsOk_plain h.2 fun k hm => ?_⟩
      simp only [e]
      rw [Dict.get?_cons]
      split
      · rfl
      · next hne =>
        rcases List.mem_cons.1 hm with rfl | hm
        · exact absurd rfl hne
        · exact hk k hm
    all_goals exact ⟨⟨by simp, fun p' r' e' => by cases e'⟩, rowsOk_plain h fun k hm => by rw [e]; exact hk k hm⟩

theorem RowOk.transfer {i : Nat} {n : Node} {st : Bool} {a b : Reader} (h : Extra i n st a b) {row : List Str} (ok : RowOk a row) : RowOk b row := by
  refine ⟨ok.1, fun p r hk => ?_⟩
  have hp := ok.2 p r hk
  have hne : p ≠ py!"include" := by rintro rfl; rw [h.fresh] at hp; cases hp
  rw [h.known p hne]
  revert hp; cases Dict.get? a.known p <;> simp

/-- Rows that say where they belong. -/
def anchors (row : List Str) : Bool := match kind row with | .section _ _ | .named _ _ => true | _ => false

theorem extra_row {i : Nat} {n : Node} {st : Bool} {a b : Reader} (h : Extra i n st a b) {row : List Str} (ok : RowOk a row)
    (he : st = true ∨ ∀ r, kind row ≠ .elided r) : Extra i n (st || anchors row) (a.row row) (b.row row) := by
  have hlen : b.nodes.length = a.nodes.length + 1 := by rw [h.nodes, length_withNode]
  unfold Reader.row anchors
  cases hk : kind row with
  | special => exact absurd hk ok.1
  | noise => simp only [Bool.or_false]; exact h
  | header m cols =>
    simp only [Bool.or_false]
    exact { le := h.le, nodes := h.nodes, secs := h.secs, cur := h.cur, cols := rfl, vname := rfl, known := h.known, fresh := h.fresh, last := h.last }
  | «section» m cols =>
    simp only [Bool.or_true]
    rw [h.secs]
    cases a.secs.get? (lower m) with
    | some x => exact { le := h.le, nodes := h.nodes, secs := rfl, cur := rfl, cols := rfl, vname := rfl, known := h.known, fresh := h.fresh, last := fun _ => rfl }
    | none => exact { le := h.le, nodes := h.nodes, secs := rfl, cur := rfl, cols := rfl, vname := rfl, known := h.known, fresh := h.fresh, last := fun _ => rfl }
  | elided r =>
    rcases he with rfl | he
    · simp only [Bool.or_false]
      have e := h.last rfl
      refine extra_args { le := ?_, nodes := ?_, secs := h.secs, cur := h.cur, cols := h.cols, vname := h.vname, known := h.known, fresh := h.fresh, last := h.last }
      · simp only [List.length_append]; exact Nat.le_trans h.le (Nat.le_add_right _ _)
      · simp only [h.nodes, withNode_append h.le, h.cur, h.vname, e]; rfl
    · exact absurd hk (he r)
  | named p r =>
    simp only [Bool.or_true]
    have hp := ok.2 p r hk
    have hne : p ≠ py!"include" := by rintro rfl; rw [h.fresh] at hp; cases hp
    have hor := kind_ordinary (.inr ⟨p, hk⟩)
    have hri : r ≠ py!"include" := by rintro rfl; exact absurd hor (by decide)
    have hsh : shiftRef i (some a.nodes.length) = some (a.nodes.length + 1) := by
      unfold shiftRef; simp only [Option.map_some, if_neg (Nat.not_lt.2 h.le)]
    refine extra_args { le := ?_, nodes := ?_, secs := h.secs, cur := h.cur, cols := h.cols, vname := h.vname, known := ?_, fresh := ?_, last := ?_ }
    · simp only [List.length_append]; exact Nat.le_trans h.le (Nat.le_add_right _ _)
    · simp only [h.nodes, withNode_append h.le, h.cur, h.vname, h.known p hne]
      congr 1
      simp only [shiftNode, List.cons.injEq, Node.mk.injEq, and_true, true_and]
      revert hp; cases Dict.get? a.known p <;> simp
    · intro k hk'
      simp only [Dict.get?_cons, hlen]
      split
      · rw [Option.map_some, hsh]
      · exact h.known k hk'
    · simp only [Dict.get?_cons, if_neg hri]; exact h.fresh
    · intro _; simp only [hlen, hsh]

theorem extra_rows {i : Nat} {n : Node} : ∀ {rows : List (List Str)} {st : Bool} {a b : Reader}, Extra i n st a b → RowsOk a rows →
    (st = true ∨ anchored rows = true) → RowsOk b rows ∧ ∃ st', Extra i n st' (rows.foldl Reader.row a) (rows.foldl Reader.row b)
  | [], st, _, _, h, _, _ => ⟨trivial, st, h⟩
  | row :: rows, st, a, b, h, ok, ha => by
    have he : st = true ∨ ∀ r, kind row ≠ .elided r := by
      rcases ha with ha | ha
      · exact .inl ha
      · refine .inr fun r e => ?_
        unfold anchored at ha; rw [e] at ha; cases ha
    have h1 := extra_row h ok.1 he
    obtain ⟨r1, r2⟩ := extra_rows h1 ok.2 (by
      rcases ha with ha | ha
      · left; rw [ha]; rfl
      · unfold anchored at ha; unfold anchors
        cases hk : kind row <;> rw [hk] at ha
        case elided => cases ha
        case special => exact absurd hk ok.1.1
        all_goals simp only [Bool.or_true, Bool.or_false, true_or, ha, or_true])
    exact ⟨⟨ok.1.transfer h, r1⟩, r2⟩

theorem reads_rows {files : Str → Option (List (List Str))} {m : Nat} {dir ref : Str} {more : List (List Str)} {b : Reader} :
    ∀ {rows : List (List Str)} {here : Str} {a : Reader}, RowsOk a rows →
      Reads files m dir ref (rows.foldl sectionAfter here) more (rows.foldl Reader.row a) b → Reads files m dir ref here (rows ++ more) a b
  | [], _, _, _, h => h
  | row :: rows, here, a, ok, h => .row ok.1.1 ok.1.2 (reads_rows ok.2 h)

theorem zip_ins {α β : Type} {A1 A2 : List α} {I1 I2 : List β} {n : α} {x : β} (h : I1.length = A1.length) :
    (A1 ++ n :: A2).zip (I1 ++ x :: I2) = A1.zip I1 ++ (n, x) :: A2.zip I2 := by
  rw [List.zip_append h.symm]; rfl

theorem pick_ins {A1 A2 : List Node} {I1 I2 : List Nat} {n : Node} {x : Nat} (h : I1.length = A1.length) (hx : x ∉ I1 ∧ x ∉ I2) (f : Node → Bool) :
    (pick (A1 ++ n :: A2) (I1 ++ x :: I2) f).filter (· ≠ x) = pick (A1 ++ A2) (I1 ++ I2) f ∧
    (f n = false → x ∉ pick (A1 ++ n :: A2) (I1 ++ x :: I2) f) := by
  have hm : ∀ {A : List Node} {I : List Nat}, x ∉ I → x ∉ pick A I f := fun hI hp => hI (mem_pick hp)
  have key : pick (A1 ++ n :: A2) (I1 ++ x :: I2) f = pick A1 I1 f ++ ((if f n then [x] else []) ++ pick A2 I2 f) := by
    unfold pick
    rw [zip_ins h, List.filter_append, List.map_append, List.filter_cons]
    congr 1
    split <;> rfl
  have hself : ∀ {A : List Node} {I : List Nat}, x ∉ I → (pick A I f).filter (· ≠ x) = pick A I f := by
    intro A I hI
    rw [List.filter_eq_self]
    intro y hy
    simp only [decide_eq_true_eq, ne_eq]
    rintro rfl; exact hm hI hy
  constructor
  · rw [key, List.filter_append, List.filter_append, hself hx.1, hself hx.2]
    have : ((if f n then [x] else []) : List Nat).filter (· ≠ x) = [] := by split <;> simp
    rw [this, List.nil_append]
    unfold pick
    rw [List.zip_append h.symm, List.filter_append, List.map_append]
  · intro hf hp
    rw [key, hf] at hp
    simp only [Bool.false_eq_true, if_false, List.nil_append, List.mem_append] at hp
    rcases hp with hp | hp
    · exact hm hx.1 hp
    · exact hm hx.2 hp

theorem pick_shift {i : Nat} {l : List Node} {I : List Nat} (f g : Node → Bool) (h : ∀ n ∈ l, f (shiftNode i n) = g n) :
    pick (l.map (shiftNode i)) I f = pick l I g := by
  unfold pick
  rw [List.zip_map_left, List.filter_map, List.map_map]
  have : (l.zip I).filter ((fun nt => f nt.1) ∘ Prod.map (shiftNode i) id) = (l.zip I).filter fun nt => g nt.1 := by
    refine List.filter_congr fun nt hm => ?_
    exact h nt.1 (List.of_mem_zip (show (nt.1, nt.2) ∈ _ from hm)).1
  rw [this]
  rfl

theorem shiftRef_inj {i j : Nat} {o : Option Nat} : shiftRef i o = some (if j < i then j else j + 1) ↔ o = some j := by
  cases o with
  | none => simp [shiftRef]
  | some k =>
    simp only [shiftRef, Option.map_some, Option.some.injEq]
    constructor
    · intro h; split at h <;> split at h <;> omega
    · rintro rfl; rfl

theorem shiftRef_none {i : Nat} {o : Option Nat} : shiftRef i o = none ↔ o = none := by
  cases o <;> simp [shiftRef]

/-- Without the extra term, the state holds the document without it. -/
theorem holds_without {s : St} {a b : Reader} {i : Nat} {n : Node} {ids : List Nat} (h : Holds s b ids) (hs : (s.heap s.root).cls.isSection = true)
    (hnodes : b.nodes = withNode i n a.nodes)
    (hi : i ≤ a.nodes.length) (hsecs : b.secs = a.secs) (hn : n.parent = none) (hpt : n.pt = py!"root") (hsec : (s.sections.get? n.sec).isSome)
    (hok : ∀ m ∈ b.nodes, RefOk ids.length m.parent) :
    ∃ x ids', x ∈ ids ∧ (n, x) ∈ b.nodes.zip ids ∧ Holds (without s x) a ids' ∧ (s.heap x).children = [] ∧ ∀ m ∈ a.nodes, RefOk ids'.length m.parent := by
  have hl : ids.length = a.nodes.length + 1 := by rw [h.count, hnodes, length_withNode]
  obtain ⟨A1, hA1⟩ : ∃ A1, A1 = a.nodes.take i := ⟨_, rfl⟩
  obtain ⟨A2, hA2⟩ : ∃ A2, A2 = a.nodes.drop i := ⟨_, rfl⟩
  have ha : a.nodes = A1 ++ A2 := by rw [hA1, hA2, List.take_append_drop]
  have hlA : A1.length = i := by rw [hA1, List.length_take]; omega
  obtain ⟨I1, x, I2, rfl, hlI⟩ : ∃ I1 x I2, ids = I1 ++ x :: I2 ∧ I1.length = i := by
    refine ⟨ids.take i, ids[i]'(by omega), ids.drop (i + 1), ?_, by rw [List.length_take]; omega⟩
    rw [← List.drop_eq_getElem_cons, List.take_append_drop]
  have hb : b.nodes = A1.map (shiftNode i) ++ n :: A2.map (shiftNode i) := by rw [hnodes, hA1, hA2]; rfl
  have hlen : I1.length = (A1.map (shiftNode i)).length := by rw [List.length_map]; omega
  have hnd : (I1 ++ x :: I2).Nodup := h.distinct.imp fun hlt => Nat.ne_of_lt hlt
  have hx : x ∉ I1 ∧ x ∉ I2 := by
    rw [List.nodup_append] at hnd
    refine ⟨fun hm => hnd.2.2 x hm x List.mem_cons_self rfl, (List.nodup_cons.1 hnd.2.1).1⟩
  have hzip : b.nodes.zip (I1 ++ x :: I2) = (A1.map (shiftNode i)).zip I1 ++ (n, x) :: (A2.map (shiftNode i)).zip I2 := by
    rw [hb, zip_ins hlen]
  have hmem : (n, x) ∈ b.nodes.zip (I1 ++ x :: I2) := by rw [hzip]; simp
  obtain ⟨t1, t2, t3, t4, t5, t6, t7⟩ := h.term n x hmem
  have hxr : (s.heap x).parent = some s.root := by rw [t6, hn]; rfl
  have hxin : x ∈ I1 ++ x :: I2 := by simp
  have hxroot : x ≠ s.root := by
    intro e; have := (h.exist x hxin).2; rw [e, hs] at this; cases this
  obtain ⟨y, hy⟩ := Option.isSome_iff_exists.1 hsec
  have hpick : ∀ f g : Node → Bool, (∀ m, f (shiftNode i m) = g m) →
      (pick b.nodes (I1 ++ x :: I2) f).filter (· ≠ x) = pick a.nodes (I1 ++ I2) g ∧
      (f n = false → pick b.nodes (I1 ++ x :: I2) f = pick a.nodes (I1 ++ I2) g) := by
    intro f g hfg
    obtain ⟨p1, p2⟩ := pick_ins (A1 := A1.map (shiftNode i)) (A2 := A2.map (shiftNode i)) (n := n) hlen hx f
    rw [← hb] at p1 p2
    have p3 : pick (A1.map (shiftNode i) ++ A2.map (shiftNode i)) (I1 ++ I2) f = pick a.nodes (I1 ++ I2) g := by
      rw [← List.map_append, ha]; exact pick_shift f g fun m _ => hfg m
    refine ⟨by rw [p1, p3], fun hf => ?_⟩
    rw [← p3, ← p1, eq_comm, List.filter_eq_self]
    intro z hz
    simp only [decide_eq_true_eq, ne_eq]
    rintro rfl; exact p2 hf hz
  have href : ∀ o, RefOk (I1 ++ x :: I2).length (shiftRef i o) → ref (without s x) (I1 ++ I2) o = ref s (I1 ++ x :: I2) (shiftRef i o) := by
    intro o ho
    cases o with
    | none => rfl
    | some j =>
      have ho : (if j < i then j else j + 1) < (I1 ++ x :: I2).length := ho
      show (I1 ++ I2).getD j s.root = (I1 ++ x :: I2).getD (if j < i then j else j + 1) s.root
      split
      · next hj => rw [List.getD_eq_getElem?_getD, List.getD_eq_getElem?_getD, List.getElem?_append_left (by omega), List.getElem?_append_left (by omega)]
      · next hj =>
        rw [List.getD_eq_getElem?_getD, List.getD_eq_getElem?_getD, List.getElem?_append_right (by omega), List.getElem?_append_right (by omega), show j + 1 - I1.length = (j - I1.length) + 1 by omega]
        rfl
  have hshift : ∀ m ∈ a.nodes, shiftNode i m ∈ b.nodes := by
    intro m hm
    rw [ha] at hm
    rw [hb]
    rcases List.mem_append.1 hm with hm | hm
    · exact List.mem_append_left _ (List.mem_map_of_mem hm)
    · exact List.mem_append_right _ (List.mem_cons_of_mem _ (List.mem_map_of_mem hm))
  have hzmem : ∀ m t, (m, t) ∈ a.nodes.zip (I1 ++ I2) → (shiftNode i m, t) ∈ b.nodes.zip (I1 ++ x :: I2) := by
    intro m t hm
    rw [ha, List.zip_append (by omega)] at hm
    rw [hzip, List.zip_map_left, List.zip_map_left]
    rcases List.mem_append.1 hm with hm | hm
    · exact List.mem_append_left _ (List.mem_map.2 ⟨(m, t), hm, rfl⟩)
    · exact List.mem_append_right _ (List.mem_cons_of_mem _ (List.mem_map.2 ⟨(m, t), hm, rfl⟩))
  have hsub : (I1 ++ I2).Sublist (I1 ++ x :: I2) := List.Sublist.append_left (List.sublist_cons_self x I2) I1
  have hkid : ∀ j, (without s x).heap j = { s.heap j with
      terms := if lower (s.heap x).pt = ROOT ∧ (s.heap x).sec = some j then (s.heap j).terms.filter (· ≠ x) else (s.heap j).terms
      children := if j = s.root then (s.heap j).children.filter (· ≠ x) else (s.heap j).children } := by
    intro j; unfold without; simp only [hxr, Option.some.injEq]
    congr 1
    split
    · next e => rw [if_pos e.symm]
    · next e => rw [if_neg (Ne.symm e)]
  have hok' : ∀ m ∈ a.nodes, RefOk (I1 ++ I2).length m.parent := by
    intro m hm
    have := hok _ (hshift m hm)
    revert this
    show RefOk _ (shiftRef i m.parent) → _
    cases m.parent with
    | none => exact fun _ => trivial
    | some j =>
      simp only [shiftRef, Option.map_some, RefOk, List.length_append, List.length_cons]
      intro hj; split at hj <;> omega
  refine ⟨x, I1 ++ I2, hxin, hmem, ?_, ?_, hok'⟩
  · refine ⟨by simp only [List.length_append, List.length_cons] at hl ⊢; omega, h.distinct.sublist hsub, ?_, ?_, ?_, ?_, ?_, by rw [← hsecs]; exact h.sections, ?_, ?_⟩
    · intro t ht
      rw [hkid]
      exact h.exist t (hsub.subset ht)
    · intro m t hm
      obtain ⟨u1, u2, u3, u4, u5, u6, u7⟩ := h.term _ _ (hzmem m t hm)
      rw [hkid]
      refine ⟨u1, u2, u3, u4, u5, ?_, u7⟩
      show (s.heap t).parent = _
      rw [u6, href m.parent (hok _ (hshift m (List.of_mem_zip hm).1))]
      rfl
    · intro j hj
      have hj' : (if j < i then j else j + 1) < (I1 ++ x :: I2).length := by
        simp only [List.length_append, List.length_cons] at hj ⊢; split <;> omega
      have e := href (some j) hj'
      have e' : ref s (I1 ++ x :: I2) (shiftRef i (some j)) ≠ s.root := by
        intro hr
        have hm : ref s (I1 ++ x :: I2) (shiftRef i (some j)) ∈ I1 ++ x :: I2 := by
          show (I1 ++ x :: I2).getD _ _ ∈ _
          rw [List.getD_eq_getElem?_getD, List.getElem?_eq_getElem hj']; exact List.getElem_mem hj'
        have := (h.exist _ hm).2
        rw [hr, hs] at this; cases this
      rw [e, hkid]
      simp only [if_neg e']
      have hc := h.children (if j < i then j else j + 1) hj'
      rw [show shiftRef i (some j) = some (if j < i then j else j + 1) from rfl, hc]
      refine (hpick _ _ fun m => ?_).2 (by rw [hn]; rfl)
      show decide (shiftRef i m.parent = _) = _
      simp only [shiftRef_inj]
    · rw [show (without s x).root = s.root from rfl, hkid]
      simp only [if_true]
      rw [h.rootChildren]
      refine (hpick _ _ fun m => ?_).1
      show decide (shiftRef i m.parent = _) = _
      simp only [shiftRef_none]
    · show s.terms.filter _ = _
      rw [h.terms]
      exact (hpick _ _ fun m => rfl).1
    · intro k z hz
      rw [hkid, ← hsecs]
      exact h.columns k z hz
    · intro k z hz
      have hz : s.sections.get? k = some z := hz
      rw [hkid]
      have hlow : lower (s.heap x).pt = ROOT := by rw [t1, hpt]; decide
      have hst := h.sectionTerms k z hz
      by_cases hkn : k = n.sec
      · have hsx : (s.heap x).sec = some z := by rw [t7, ← hkn, hz]
        simp only [hlow, hsx, and_self, if_true]
        rw [hst]
        exact (hpick _ _ fun m => rfl).1
      · have hf : (decide (n.pt = py!"root") && decide (n.sec = k)) = false := by
          simp only [Bool.and_eq_false_iff, decide_eq_false_iff_not]; exact .inr (Ne.symm hkn)
        have p := hpick (fun m => decide (m.pt = py!"root") && decide (m.sec = k)) (fun m => decide (m.pt = py!"root") && decide (m.sec = k)) fun m => rfl
        show (if _ then _ else _) = _
        split
        · rw [hst]; exact p.1
        · rw [hst]; exact p.2 hf
  · have hj : i < (I1 ++ x :: I2).length := by omega
    have hc := h.children i hj
    have hxi : ref s (I1 ++ x :: I2) (some i) = x := by
      rw [ref_some hj, List.getElem_append_right (by omega)]
      simp [hlI]
    rw [hxi] at hc
    rw [hc]
    unfold pick
    rw [List.map_eq_nil_iff, List.filter_eq_nil_iff]
    intro nt hm he
    have hm1 : nt.1 ∈ b.nodes := (List.of_mem_zip (show (nt.1, nt.2) ∈ _ from hm)).1
    simp only [decide_eq_true_eq] at he
    rw [hb] at hm1
    rcases List.mem_append.1 hm1 with hm1 | hm1
    · obtain ⟨m, -, e⟩ := List.mem_map.1 hm1
      rw [← e] at he
      have : shiftRef i m.parent = some i := he
      cases hp : m.parent <;> rw [hp] at this <;> simp [shiftRef] at this
      split at this <;> omega
    · rcases List.mem_cons.1 hm1 with e | hm1
      · rw [e, hn] at he; cases he
      · obtain ⟨m, -, e⟩ := List.mem_map.1 hm1
        rw [← e] at he
        have : shiftRef i m.parent = some i := he
        cases hp : m.parent <;> rw [hp] at this <;> simp [shiftRef] at this
        split at this <;> omega

end Metatab
