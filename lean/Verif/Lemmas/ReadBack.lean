import Verif.Lemmas.Write
import Verif.Spec.Reader
/-! The reference reader on the rows written for an outline. -/
namespace Metatab
open Py _root_.Spec

mutual
/-- The terms of an item in the order in which they are read; `b` is the position of the first. -/
def flatI (sec p : Str) (pi : Option Nat) (b : Nat) : Item → List Node
  | .mk n v ks => ⟨p, n, asVal v, pi, sec, py!"@value"⟩ :: flatL sec n (some b) (b + 1) ks
def flatL (sec p : Str) (pi : Option Nat) (b : Nat) : List Item → List Node
  | [] => []
  | k :: ks => flatI sec p pi b k ++ flatL sec p pi (b + (flatI sec p pi b k).length) ks
end

theorem flatL_append (sec p : Str) (pi : Option Nat) (b : Nat) (x y : List Item) :
    flatL sec p pi b (x ++ y) = flatL sec p pi b x ++ flatL sec p pi (b + (flatL sec p pi b x).length) y := by
  induction x generalizing b with
  | nil => simp [flatL]
  | cons k x ih =>
    simp only [List.cons_append, flatL, ih, List.append_assoc, List.length_append, Nat.add_assoc]

theorem flatL_leaves {sec p : Str} {pi : Option Nat} {b : Nat} {x : List Item} (h : ∀ k ∈ x, k.leaf = true) :
    flatL sec p pi b x = x.map fun k => ⟨p, k.name, asVal k.value, pi, sec, py!"@value"⟩ := by
  induction x generalizing b with
  | nil => rfl
  | cons k x ih =>
    have hk : flatI sec p pi b k = [⟨p, k.name, asVal k.value, pi, sec, py!"@value"⟩] := by
      have := h k List.mem_cons_self
      cases k with
      | mk n v ks =>
        have : ks = [] := by simpa [Item.leaf, Item.kids] using this
        subst this
        rfl
    rw [flatL, hk, ih fun k hk => h k (List.mem_cons_of_mem _ hk)]
    rfl

/-- Reading some rows turns `a` into `a'`: it adds the nodes, and only the names in `names` may change their meaning. -/
structure Reads (a a' : Reader) (nodes : List Node) (names : List Str) : Prop where
  secs : a'.secs = a.secs
  cur : a'.cur = a.cur
  cols : a'.cols = a.cols
  vname : a'.vname = a.vname
  nodes : a'.nodes = a.nodes ++ nodes
  known : ∀ q, q ∉ names → Dict.get? a'.known q = Dict.get? a.known q

theorem Reads.refl (a : Reader) : Reads a a [] [] := ⟨rfl, rfl, rfl, rfl, by simp, fun _ _ => rfl⟩

theorem Reads.trans {a b c : Reader} {n1 n2 : List Node} {m1 m2 : List Str} (h : Reads a b n1 m1) (k : Reads b c n2 m2) :
    Reads a c (n1 ++ n2) (m1 ++ m2) where
  secs := k.secs.trans h.secs
  cur := k.cur.trans h.cur
  cols := k.cols.trans h.cols
  vname := k.vname.trans h.vname
  nodes := by rw [k.nodes, h.nodes, List.append_assoc]
  known := fun q hq => by
    rw [List.mem_append, not_or] at hq
    rw [k.known q hq.2, h.known q hq.1]

theorem addArgs_cells {cols : List Str} {n : Str} {ks : List Item} (hk : okKids cols n ks = true) :
    ∀ (cs pre : List Str) {a : Reader}, cols = pre ++ cs → a.cols = cols →
    Reader.addArgs n pre.length (cs.map (leafCell ks)) a =
      { a with nodes := a.nodes ++ (cs.filterMap (colKid ks)).map fun k => ⟨n, k.name, asVal k.value, a.last.2, a.cur, a.vname⟩ }
  | [], pre, a => by
    intro _ _
    simp [Reader.addArgs]
  | c :: cs, pre, a => by
    intro hc ha
    have hc' : cols = (pre ++ [c]) ++ cs := by rw [hc]; simp
    have hlen : (pre ++ [c]).length = pre.length + 1 := by simp
    rw [List.map_cons, Reader.addArgs, ← hlen]
    cases hck : colKid ks c with
    | none =>
      have : leafCell ks c = [] := by unfold leafCell; rw [hck]; rfl
      rw [this, if_pos strip_nil, List.filterMap_cons_none hck]
      exact addArgs_cells hk cs (pre ++ [c]) hc' ha
    | some k =>
      obtain ⟨k1, k2, k3⟩ := colKid_some hck
      have hin : inCols cols k = true := inCols_iff.2 ⟨k2, by rw [k3, hc]; exact List.mem_map.2 ⟨c, by simp, rfl⟩⟩
      rcases okKids_mem hk k1 with ⟨-, g1, g2, g3⟩ | ⟨g, -⟩
      · obtain ⟨v, hv⟩ := Option.isSome_iff_exists.1 g2
        rw [hv] at g3
        simp only [cleanValue, Bool.and_eq_true, decide_eq_true_eq] at g3
        have hcell : leafCell ks c = v := by unfold leafCell; rw [hck]; simp [hv, valCell]
        have hcn : colName a.cols pre.length = k.name := by
          unfold colName
          rw [ha, hc, List.getElem?_append_right (Nat.le_refl _), Nat.sub_self]
          simp only [List.getElem?_cons_zero]
          rw [if_neg, k3]
          rintro rfl
          exact g1 (by rw [k3]; rfl)
        rw [hcell, g3.2, if_neg g3.1, addArgs_cells hk cs (pre ++ [c]) hc' (by exact ha), List.filterMap_cons_some hck]
        simp only [List.map_cons, hcn, hv, asVal, List.append_assoc, List.singleton_append]
      · rw [hin] at g; cases g

theorem cellValue_val {v : Option Str} (h : cleanValue v = true) : cellValue (valCell v) = asVal v := by
  cases v with
  | none => rfl
  | some v =>
    simp only [cleanValue, Bool.and_eq_true, decide_eq_true_eq] at h
    unfold cellValue valCell asVal
    simp only
    rw [if_neg h.1, h.2]

/-- Parents whose children have rows of their own. -/
def RowParent (p : Str) : Prop := p = py!"root" ∨ (Clean p ∧ (py!"root").isSuffixOf p = false)

/-- Reading the row of a term with its cells. -/
theorem read_head {cols : List Str} {a : Reader} {p n sec : Str} {pi : Option Nat} {v : Option Str} {ks : List Item} (hp : RowParent p)
    (ok : OkItem cols p n v ks) (hcols : a.cols = cols) (hcur : a.cur = sec) (hvn : a.vname = py!"@value")
    (hk : Dict.get? a.known p = some pi) :
    ∃ a', a.row (rowName (dotJoin p n) :: valCell v :: cols.map (leafCell ks)) = a' ∧
      Reads a a' (⟨p, n, asVal v, pi, sec, py!"@value"⟩ :: (cols.filterMap (colKid ks)).map fun k =>
        ⟨n, k.name, asVal k.value, some a.nodes.length, sec, py!"@value"⟩) [n] ∧
      Dict.get? a'.known n = some (some a.nodes.length) := by
  refine ⟨_, rfl, ?_⟩
  unfold Reader.row
  rw [kind_rowName ok.clean ok.ne hp]
  simp only [List.drop_succ_cons, List.drop_zero, List.getD_cons_succ, List.getD_cons_zero]
  have := addArgs_cells ok.kids cols [] (a := { a with
    nodes := a.nodes ++ [⟨p, n, cellValue (valCell v), (Dict.get? a.known p).getD none, a.cur, a.vname⟩]
    known := (n, some a.nodes.length) :: a.known
    last := (n, some a.nodes.length) }) rfl hcols
  simp only [List.length_nil] at this
  rw [this, hk, cellValue_val ok.value, hcur, hvn]
  refine ⟨⟨rfl, hcur.symm, rfl, hvn.symm, by simp, ?_⟩, ?_⟩
  · intro q hq
    simp only [List.mem_singleton] at hq
    simp only
    rw [Dict.get?_cons, if_neg (Ne.symm hq)]
  · simp only
    rw [Dict.get?_cons, if_pos rfl]

theorem rowNamesL_mem {cols : List Str} {ks : List Item} {k : Item} (hk : k ∈ ks) (hc : inCols cols k = false) {q : Str}
    (hq : q ∈ k.rowNames cols) : q ∈ rowNamesL cols ks := by
  induction ks with
  | nil => cases hk
  | cons a ks ih =>
    unfold rowNamesL
    rcases List.mem_cons.1 hk with rfl | hk
    · rw [hc]
      exact List.mem_append.2 (.inl hq)
    · exact List.mem_append.2 (.inr (ih hk))

theorem name_rowNames (cols : List Str) (k : Item) : k.name ∈ k.rowNames cols := by
  cases k; rw [Item.rowNames]; exact List.mem_cons_self

/-- Reading the rows of terminal children. -/
theorem read_leaves {cols : List Str} {n sec : Str} {pi : Option Nat} (hp : RowParent n) : ∀ (ls : List Item) {a : Reader},
    (∀ k ∈ ls, k.leaf = true ∧ k.ok cols n = true) → a.cols = cols → a.cur = sec → a.vname = py!"@value" → Dict.get? a.known n = some pi →
    ∃ a', (ls.map fun k => [rowName (dotJoin n k.name), valCell k.value]).foldl Reader.row a = a' ∧
      Reads a a' (ls.map fun k => ⟨n, k.name, asVal k.value, pi, sec, py!"@value"⟩) (ls.map Item.name) ∧ Dict.get? a'.known n = some pi
  | [], a => by
    intro _ _ _ _ hk
    exact ⟨a, rfl, Reads.refl a, hk⟩
  | k :: ls, a => by
    intro hok hcols hcur hvn hk
    obtain ⟨hl, hko⟩ := hok k List.mem_cons_self
    have ok : OkItem cols n k.name k.value k.kids := by rw [item_eta k, okItem_iff] at hko; exact hko
    have hkind := kind_rowName ok.clean ok.ne hp [valCell k.value]
    have hrow : a.row [rowName (dotJoin n k.name), valCell k.value] =
        { a with nodes := a.nodes ++ [⟨n, k.name, asVal k.value, pi, sec, py!"@value"⟩]
                 known := (k.name, some a.nodes.length) :: a.known
                 last := (k.name, some a.nodes.length) } := by
      unfold Reader.row
      rw [hkind]
      simp only [List.drop_succ_cons, List.drop_nil, List.getD_cons_succ, List.getD_cons_zero, Reader.addArgs]
      rw [hk, cellValue_val ok.value, hcur, hvn]
      rfl
    have hr1 : Reads a (a.row [rowName (dotJoin n k.name), valCell k.value]) [⟨n, k.name, asVal k.value, pi, sec, py!"@value"⟩] [k.name] := by
      rw [hrow]
      refine ⟨rfl, rfl, rfl, rfl, rfl, ?_⟩
      intro q hq
      simp only [List.mem_singleton] at hq
      simp only
      rw [Dict.get?_cons, if_neg (Ne.symm hq)]
    obtain ⟨a', h1, h2, h3⟩ := read_leaves hp ls (a := a.row [rowName (dotJoin n k.name), valCell k.value])
      (fun k hk => hok k (List.mem_cons_of_mem _ hk)) (by rw [hr1.cols, hcols]) (by rw [hr1.cur, hcur]) (by rw [hr1.vname, hvn])
      (by rw [hr1.known n (by simpa using ok.ne), hk])
    exact ⟨a', by rw [List.map_cons, List.foldl_cons]; exact h1, hr1.trans h2, h3⟩

theorem leaf_norm {cols : List Str} {k : Item} (h : k.leaf = true) : k.norm cols = k := by
  cases k with
  | mk n v ks =>
    have : ks = [] := by simpa [Item.leaf, Item.kids] using h
    subst this
    rw [Item.norm]
    have : cols.filterMap (colKid []) = [] := by
      rw [List.filterMap_eq_nil_iff]; intro c _; rfl
    rw [this]
    rfl

mutual
theorem read_item {cols : List Str} {sec : Str} : ∀ (i : Item) {a : Reader} {p : Str} {pi : Option Nat}, RowParent p → i.ok cols p = true →
    a.cols = cols → a.cur = sec → a.vname = py!"@value" → Dict.get? a.known p = some pi →
    Reads a ((itemRows cols p i).foldl Reader.row a) (flatI sec p pi a.nodes.length (i.norm cols)) (i.rowNames cols)
  | .mk n v ks, a, p, pi => by
    intro hp h hcols hcur hvn hk
    have ok := okItem_iff.1 h
    obtain ⟨a1, e1, r1, k1⟩ := read_head hp ok hcols hcur hvn hk
    rw [itemRows, List.foldl_cons, e1, List.foldl_append]
    by_cases hks : (otherLeaves cols ks = [] ∧ ∀ k ∈ ks, k.leaf = true)
    · obtain ⟨ho, hall⟩ := hks
      have e2 : itemRowsL cols n ks = [] := by
        clear * - hall
        induction ks with
        | nil => rfl
        | cons k ks ih => rw [itemRowsL, hall k List.mem_cons_self, ih fun k hk => hall k (List.mem_cons_of_mem _ hk)]; rfl
      have e3 : normL cols ks = [] := by
        clear * - hall
        induction ks with
        | nil => rfl
        | cons k ks ih => rw [normL, hall k List.mem_cons_self, ih fun k hk => hall k (List.mem_cons_of_mem _ hk)]; rfl
      rw [ho, e2, Item.norm, e3, flatI]
      have e4 : (ks.filter fun k => k.leaf && !inCols cols k) = [] := ho
      rw [e4, List.append_nil, List.append_nil, flatL_leaves]
      · refine ⟨r1.secs, r1.cur, r1.cols, r1.vname, r1.nodes, ?_⟩
        intro q hq
        refine r1.known q ?_
        intro hm
        refine hq ?_
        rw [Item.rowNames]
        exact List.mem_cons.2 (.inl (List.mem_singleton.1 hm))
      · intro k hk
        obtain ⟨c, -, hc⟩ := List.mem_filterMap.1 hk
        exact (colKid_some hc).2.1
    · have hn : RowParent n := by
        refine .inr ⟨ok.clean, ?_⟩
        by_contra hs
        refine hks ⟨?_, ?_⟩
        · unfold otherLeaves
          rw [List.filter_eq_nil_iff]
          intro k hk hb
          rw [Bool.and_eq_true, Bool.not_eq_true'] at hb
          rcases okKids_mem ok.kids hk with ⟨g, -⟩ | ⟨-, -, g⟩
          · rw [hb.2] at g; cases g
          · exact hs g
        · intro k hk
          rcases okKids_mem ok.kids hk with ⟨g, -⟩ | ⟨-, -, g⟩
          · exact (inCols_iff.1 g).1
          · exact absurd g hs
      have hothers : ∀ k ∈ otherLeaves cols ks, k.leaf = true ∧ k.ok cols n = true := by
        intro k hk
        obtain ⟨hk, hb⟩ := List.mem_filter.1 hk
        rw [Bool.and_eq_true, Bool.not_eq_true'] at hb
        refine ⟨hb.1, ?_⟩
        rcases okKids_mem ok.kids hk with ⟨g, -⟩ | ⟨-, g, -⟩
        · rw [hb.2] at g; cases g
        · exact g
      obtain ⟨a2, e2, r2, k2⟩ := read_leaves (sec := sec) hn (otherLeaves cols ks) hothers (by rw [r1.cols, hcols]) (by rw [r1.cur, hcur])
        (by rw [r1.vname, hvn]) k1
      rw [e2]
      have r12 := r1.trans r2
      have r3 := read_items (sec := sec) ks (a := a2) hn (fun k hk => by
          rcases okKids_mem ok.kids hk with ⟨g, -⟩ | ⟨g0, g, -⟩
          · exact .inl (inCols_iff.1 g).1
          · exact .inr ⟨g0, g⟩)
        ok.rows (by rw [r12.cols, hcols]) (by rw [r12.cur, hcur]) (by rw [r12.vname, hvn]) k2
      have r := r12.trans r3
      refine ⟨r.secs, r.cur, r.cols, r.vname, ?_, ?_⟩
      · rw [r.nodes, Item.norm, flatI, flatL_append, flatL_append, flatL_leaves (x := cols.filterMap (colKid ks)),
          flatL_leaves (x := ks.filter fun k => k.leaf && !inCols cols k)]
        · have hlen := congrArg List.length r12.nodes
          rw [hlen]
          simp only [List.cons_append, List.length_append, List.length_cons, List.length_map, List.append_assoc, otherLeaves]
          rw [show ∀ x y z : Nat, x + (y + z + 1) = x + 1 + (y + z) from fun x y z => by omega]
        · intro k hk; exact (hothers k hk).1
        · intro k hk
          obtain ⟨c, -, hc⟩ := List.mem_filterMap.1 hk
          exact (colKid_some hc).2.1
      · intro q hq
        rw [Item.rowNames, List.mem_cons, not_or] at hq
        refine r.known q ?_
        simp only [List.mem_append, not_or, List.mem_singleton]
        refine ⟨⟨hq.1, ?_⟩, hq.2⟩
        intro hm
        obtain ⟨k, hk, rfl⟩ := List.mem_map.1 hm
        obtain ⟨hk, hb⟩ := List.mem_filter.1 hk
        rw [Bool.and_eq_true, Bool.not_eq_true'] at hb
        exact hq.2 (rowNamesL_mem hk hb.2 (name_rowNames cols k))
theorem read_items {cols : List Str} {sec : Str} : ∀ (ks : List Item) {a : Reader} {p : Str} {pi : Option Nat}, RowParent p →
    (∀ k ∈ ks, k.leaf = true ∨ (inCols cols k = false ∧ k.ok cols p = true)) → p ∉ rowNamesL cols ks →
    a.cols = cols → a.cur = sec → a.vname = py!"@value" → Dict.get? a.known p = some pi →
    Reads a ((itemRowsL cols p ks).foldl Reader.row a) (flatL sec p pi a.nodes.length (normL cols ks)) (rowNamesL cols ks)
  | [], a, p, pi => by
    intro _ _ _ _ _ _ _
    exact Reads.refl a
  | k :: ks, a, p, pi => by
    intro hp hok hnm hcols hcur hvn hk
    rw [rowNamesL, List.mem_append, not_or] at hnm
    rw [itemRowsL, List.foldl_append, normL, rowNamesL]
    have hok' : ∀ k ∈ ks, k.leaf = true ∨ (inCols cols k = false ∧ k.ok cols p = true) := fun k hk => hok k (List.mem_cons_of_mem _ hk)
    cases hl : k.leaf with
    | true =>
      have r := read_items (sec := sec) ks hp hok' hnm.2 hcols hcur hvn hk
      refine ⟨r.secs, r.cur, r.cols, r.vname, ?_, ?_⟩
      · simpa using r.nodes
      · intro q hq
        rw [List.mem_append, not_or] at hq
        exact r.known q hq.2
    | false =>
      rcases hok k List.mem_cons_self with g | ⟨g0, g⟩
      · rw [hl] at g; cases g
      simp only [Bool.false_eq_true, if_false, g0] at hnm ⊢
      have r1 := read_item (sec := sec) k hp g hcols hcur hvn hk
      have r2 := read_items (sec := sec) ks (a := (itemRows cols p k).foldl Reader.row a) hp hok' hnm.2 (by rw [r1.cols, hcols]) (by rw [r1.cur, hcur])
        (by rw [r1.vname, hvn]) (by rw [r1.known p hnm.1]; exact hk)
      have r := r1.trans r2
      refine ⟨r.secs, r.cur, r.cols, r.vname, ?_, r.known⟩
      rw [r.nodes, flatL, r1.nodes, List.length_append]
end

/-! ## The rows are ordinary -/

theorem plainFrom_grow : ∀ {rows : List (List Str)} {K K' : List Str}, (∀ k ∈ K, k ∈ K') → plainFrom K rows = true → plainFrom K' rows = true
  | [], _, _, _, _ => rfl
  | row :: rows, K, K', hs, h => by
    unfold plainFrom at h ⊢
    cases hk : kind row with
    | special => rw [hk] at h; cases h
    | named p r =>
      rw [hk] at h
      simp only [Bool.and_eq_true, List.contains_iff_mem] at h ⊢
      refine ⟨hs p h.1, plainFrom_grow ?_ h.2⟩
      intro k hk
      rcases List.mem_cons.1 hk with rfl | hk
      · exact List.mem_cons_self
      · exact List.mem_cons_of_mem _ (hs k hk)
    | noise => rw [hk] at h; exact plainFrom_grow hs h
    | «section» n c => rw [hk] at h; exact plainFrom_grow hs h
    | header n c => rw [hk] at h; exact plainFrom_grow hs h
    | elided r => rw [hk] at h; exact plainFrom_grow hs h

/-- Rows, without headers, that are ordinary as soon as `p` is known. -/
structure PlainSeg (p : Str) (rows : List (List Str)) : Prop where
  plain : ∀ K, p ∈ K → ∀ rest, plainFrom K rest = true → plainFrom K (rows ++ rest) = true
  noHeader : ∀ row ∈ rows, kind row ≠ .special ∧ ∀ n c, kind row ≠ .header n c
  noElided : ∀ row ∈ rows, ∀ x, kind row ≠ .elided x

theorem PlainSeg.nil (p : Str) : PlainSeg p [] := ⟨fun _ _ _ h => h, (fun _ h => by cases h), (fun _ h => by cases h)⟩

theorem PlainSeg.append {p : Str} {a b : List (List Str)} (ha : PlainSeg p a) (hb : PlainSeg p b) : PlainSeg p (a ++ b) := by
  constructor
  · intro K hK rest h
    rw [List.append_assoc]
    exact ha.plain K hK _ (hb.plain K hK rest h)
  · intro row hr
    rcases List.mem_append.1 hr with h | h
    · exact ha.noHeader row h
    · exact hb.noHeader row h
  · intro row hr
    rcases List.mem_append.1 hr with h | h
    · exact ha.noElided row h
    · exact hb.noElided row h

theorem PlainSeg.named {p n : Str} {row : List Str} {rows : List (List Str)} (hk : kind row = .named p n) (h : PlainSeg n rows) :
    PlainSeg p (row :: rows) := by
  constructor
  · intro K hK rest hr
    rw [List.cons_append]
    unfold plainFrom
    rw [hk]
    simp only [Bool.and_eq_true, List.contains_iff_mem]
    refine ⟨hK, h.plain _ List.mem_cons_self rest ?_⟩
    exact plainFrom_grow (fun k hk => List.mem_cons_of_mem _ hk) hr
  · intro r hr
    rcases List.mem_cons.1 hr with rfl | hr
    · rw [hk]; exact ⟨by simp, by simp⟩
    · exact h.noHeader r hr
  · intro r hr
    rcases List.mem_cons.1 hr with rfl | hr
    · rw [hk]; simp
    · exact h.noElided r hr

theorem PlainSeg.leaves {cols : List Str} {n : Str} (hp : RowParent n) : ∀ (ls : List Item), (∀ k ∈ ls, k.leaf = true ∧ k.ok cols n = true) →
    PlainSeg n (ls.map fun k => [rowName (dotJoin n k.name), valCell k.value])
  | [], _ => PlainSeg.nil n
  | k :: ls, h => by
    have hko := (h k List.mem_cons_self).2
    have ok : OkItem cols n k.name k.value k.kids := by rw [item_eta k, okItem_iff] at hko; exact hko
    have h1 : PlainSeg n [[rowName (dotJoin n k.name), valCell k.value]] :=
      PlainSeg.named (kind_rowName ok.clean ok.ne hp _) (PlainSeg.nil _)
    exact h1.append (PlainSeg.leaves hp ls fun k hk => h k (List.mem_cons_of_mem _ hk))

theorem itemRowsL_leaves {cols : List Str} {n : Str} {ks : List Item} (h : ∀ k ∈ ks, k.leaf = true) : itemRowsL cols n ks = [] := by
  induction ks with
  | nil => rfl
  | cons k ks ih => rw [itemRowsL, h k List.mem_cons_self, ih fun k hk => h k (List.mem_cons_of_mem _ hk)]; rfl

mutual
theorem plain_item {cols : List Str} : ∀ (i : Item) {p : Str}, RowParent p → i.ok cols p = true → PlainSeg p (itemRows cols p i)
  | .mk n v ks, p => by
    intro hp h
    have ok := okItem_iff.1 h
    rw [itemRows]
    refine PlainSeg.named (kind_rowName ok.clean ok.ne hp _) ?_
    by_cases hs : (py!"root").isSuffixOf n = false
    · have hn : RowParent n := .inr ⟨ok.clean, hs⟩
      refine PlainSeg.append (PlainSeg.leaves (cols := cols) hn _ ?_) (plain_items ks hn ?_)
      · intro k hk
        obtain ⟨hk, hb⟩ := List.mem_filter.1 hk
        rw [Bool.and_eq_true, Bool.not_eq_true'] at hb
        refine ⟨hb.1, ?_⟩
        rcases okKids_mem ok.kids hk with ⟨g, -⟩ | ⟨-, g, -⟩
        · rw [hb.2] at g; cases g
        · exact g
      · intro k hk
        rcases okKids_mem ok.kids hk with ⟨g, -⟩ | ⟨-, g, -⟩
        · exact .inl (inCols_iff.1 g).1
        · exact .inr g
    · have h1 : ∀ k ∈ ks, inCols cols k = true := by
        intro k hk
        rcases okKids_mem ok.kids hk with ⟨g, -⟩ | ⟨-, -, g⟩
        · exact g
        · exact absurd g hs
      have h2 : otherLeaves cols ks = [] := by
        unfold otherLeaves
        rw [List.filter_eq_nil_iff]
        intro k hk
        simp [h1 k hk]
      rw [h2, itemRowsL_leaves fun k hk => (inCols_iff.1 (h1 k hk)).1]
      exact PlainSeg.nil n
theorem plain_items {cols : List Str} : ∀ (ks : List Item) {p : Str}, RowParent p → (∀ k ∈ ks, k.leaf = true ∨ k.ok cols p = true) →
    PlainSeg p (itemRowsL cols p ks)
  | [], p => fun _ _ => PlainSeg.nil p
  | k :: ks, p => by
    intro hp h
    rw [itemRowsL]
    refine PlainSeg.append ?_ (plain_items ks hp fun k hk => h k (List.mem_cons_of_mem _ hk))
    cases hl : k.leaf with
    | true => exact PlainSeg.nil p
    | false =>
      rcases h k List.mem_cons_self with g | g
      · rw [hl] at g; cases g
      · exact plain_item k hp g
end

/-! ## Sections -/

/-- The terms of an outline in the order in which they are read. -/
def flatD : Nat → List Part → List Node
  | _, [] => []
  | b, d :: ds => flatL (lower d.name) (py!"root") none b d.items ++
      flatD (b + (flatL (lower d.name) (py!"root") none b d.items).length) ds

theorem read_rootItems {cols : List Str} {sec : Str} : ∀ (is : List Item) {a : Reader}, is.all (Item.ok cols (py!"root")) = true →
    a.cols = cols → a.cur = sec → a.vname = py!"@value" → Dict.get? a.known (py!"root") = some none →
    ∃ names, Reads a ((is.flatMap (itemRows cols (py!"root"))).foldl Reader.row a)
      (flatL sec (py!"root") none a.nodes.length (is.map (Item.norm cols))) names ∧ py!"root" ∉ names
  | [], a => fun _ _ _ _ _ => ⟨[], Reads.refl a, by simp⟩
  | i :: is, a => by
    intro hok hcols hcur hvn hk
    rw [List.all_cons, Bool.and_eq_true] at hok
    have r1 := read_item (sec := sec) i (.inl rfl) hok.1 hcols hcur hvn hk
    have hr : py!"root" ∉ i.rowNames cols := rootRow i hok.1
    obtain ⟨names, r2, hn⟩ := read_rootItems (sec := sec) is (a := (itemRows cols (py!"root") i).foldl Reader.row a) hok.2 (by rw [r1.cols, hcols])
      (by rw [r1.cur, hcur]) (by rw [r1.vname, hvn]) (by rw [r1.known _ hr]; exact hk)
    refine ⟨i.rowNames cols ++ names, ?_, ?_⟩
    · rw [List.flatMap_cons, List.foldl_append, List.map_cons, flatL]
      have := r1.trans r2
      rw [r1.nodes, List.length_append] at this
      exact this
    · rw [List.mem_append, not_or]
      exact ⟨hr, hn⟩
where
  rootRow {cols : List Str} (i : Item) (h : i.ok cols (py!"root") = true) : py!"root" ∉ i.rowNames cols := rootRowI i h
  rootRowI {cols : List Str} : ∀ (i : Item) {p : Str}, i.ok cols p = true → py!"root" ∉ i.rowNames cols
    | .mk n v ks, p => by
      intro h
      have ok := okItem_iff.1 h
      rw [Item.rowNames, List.mem_cons, not_or]
      exact ⟨Ne.symm (ordinary_facts ok.clean.ord).2.2.1, rootRowL ks ok.kids⟩
  rootRowL {cols : List Str} : ∀ (ks : List Item) {n : Str}, okKids cols n ks = true → py!"root" ∉ rowNamesL cols ks
    | [], n => by intro _ h; cases h
    | k :: ks, n => by
      intro h
      have hm := okKids_mem h (k := k) List.mem_cons_self
      have h' : okKids cols n ks = true := by unfold okKids at h; rw [Bool.and_eq_true] at h; exact h.2
      rw [rowNamesL, List.mem_append, not_or]
      refine ⟨?_, rootRowL ks h'⟩
      rcases hm with ⟨g, -⟩ | ⟨g, g1, -⟩
      · rw [g]; simp
      · rw [g]; exact rootRowI k g1

end Metatab
