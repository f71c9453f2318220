import Verif.Props.Atomic
import Verif.Props.DocDict
import Verif.Lemmas.SameFind
import Verif.Model.Rows
/-! # What a document answers depends only on the objects it refers to -/
namespace Metatab
open Py _root_.Spec

theorem hangs_lt {F : Prop} {s : St} (w : WF F s) {t c : Nat} (h : Hangs s.heap t c) : c < s.next := by
  induction h with
  | kid hc => exact w.kidLt _ _ hc
  | deeper _ _ ih => exact ih

theorem forall₂_impMem {α β : Type} {R S : α → β → Prop} {l : List α} {r : List β} (h : List.Forall₂ R l r)
    (i : ∀ a ∈ l, ∀ b, R a b → S a b) : List.Forall₂ S l r := by
  induction h with
  | nil => exact .nil
  | cons hab _ ih => exact .cons (i _ List.mem_cons_self _ hab) (ih fun a ha => i a (List.mem_cons_of_mem _ ha))

/-- If the walk ends at all, then within the number of objects. -/
theorem treeF_enough {s : St} (w : WF True s) : ∀ {f g t : Nat} {tr : Tree}, treeF s.heap f t = .ok tr → s.next - t < g → treeF s.heap g t = .ok tr
  | 0, _, _, _, e, _ => by cases e
  | _ + 1, 0, _, _, _, h => absurd h (Nat.not_lt_zero _)
  | f + 1, g + 1, t, tr, e, h => by
    have hns := treeF_noSelf e
    obtain ⟨ks, hk, rfl⟩ := treeF_iff.1 e
    refine treeF_iff.2 ⟨ks, forall₂_impMem hk fun c hc k hck => ?_, rfl⟩
    have hlt := w.kidLt t c hc
    rcases w.edge trivial t c hc with h1 | h1
    · exact treeF_enough w hck (by omega)
    · exact absurd (h1.1 ▸ hc) (by rw [← h1.1] at hc; exact fun _ => hns hc)

theorem treeF_err {h : Nat → Obj} : ∀ {f t : Nat} {e : Err}, treeF h f t = .error e → e = .recursionError
  | 0, _, _, x => by cases x; rfl
  | f + 1, t, e, x => by
    have key : ∀ (l : List Nat), l.mapM (treeF h f) = .error e → e = .recursionError := by
      intro l
      induction l with
      | nil => intro y; cases y
      | cons a l ih =>
        intro y
        rw [List.mapM_cons] at y
        cases ha : treeF h f a with
        | error e' => rw [ha] at y; cases y; exact treeF_err ha
        | ok tr =>
          rw [ha] at y
          cases hl : l.mapM (treeF h f) with
          | error e' => rw [hl] at y; cases y; exact ih hl
          | ok ts => rw [hl] at y; cases y
    unfold treeF at x
    cases hl : (h t).children.mapM (treeF h f) with
    | error e' => rw [hl] at x; cases x; exact key _ hl
    | ok ts => rw [hl] at x; cases x

theorem treeF_bound {s : St} (w : WF True s) {f g t : Nat} (hf : s.next - t < f) (hg : s.next - t < g) : treeF s.heap f t = treeF s.heap g t := by
  cases e : treeF s.heap f t with
  | ok tr => exact (treeF_enough w e hg).symm
  | error x =>
    cases e' : treeF s.heap g t with
    | ok tr => rw [treeF_enough w e' hf] at e; cases e
    | error y => rw [treeF_err e, treeF_err e']

theorem tree_same {s s' : St} (w : WF True s) (h : Untouched s s') {t : Nat} (ht : t < s.next) : tree s' t = tree s t := by
  have := h.next
  unfold tree
  rw [treeF_congr (h := s.heap) fun c hc => h.objs c ?_]
  · exact treeF_bound w (by omega) (by omega)
  · rcases hc with rfl | hc
    · exact ht
    · exact hangs_lt w hc

theorem sectionTerms_same {s s' : St} (w : WF True s) (h : Untouched s s') {x : Nat} (hx : x < s.next) : sectionTerms s' x = sectionTerms s x := by
  unfold sectionTerms
  rw [h.objs x hx]
  congr 1
  exact mapM_congrE fun t ht => by rw [tree_same w h (w.secTermsLt x t ht)]

theorem _root_.Spec.Untouched.fields {s s' : St} (h : Untouched s s') : s'.terms = s.terms ∧ s'.sections = s.sections ∧ s'.derived = s.derived ∧
    s'.env = s.env ∧ s'.declTerms = s.declTerms ∧ s'.declSecs = s.declSecs := by
  rw [h.rest]; exact ⟨rfl, rfl, rfl, rfl, rfl, rfl⟩

theorem allTerms_answers {s s' : St} (w : WF True s) (h : Untouched s s') : allTerms s' = allTerms s := by
  unfold allTerms
  rw [h.fields.2.1]
  congr 1
  refine mapM_congrE fun kv hkv => ?_
  have := (w.secsLt kv hkv).1
  rw [sectionTerms_same w h this, h.objs _ this]

theorem findTest_answers {F : Prop} {s s' : St} (w : WF F s) (h : Untouched s s') (term : Str) (v : Val) (sec : Option (List Str)) {t : Nat}
    (ht : t < s.next) : findTest s' term v sec t = findTest s term v sec t := by
  have hi : inSection s' t sec = inSection s t sec := by
    cases sec with
    | none => rfl
    | some secs =>
      unfold inSection
      rw [h.objs t ht]
      cases hx : (s.heap t).sec with
      | none => rfl
      | some x =>
        dsimp only
        unfold sectionNameLower
        rw [h.objs x (w.secLt t x hx).1]
  unfold findTest
  rw [h.objs t ht, hi]

theorem allTerms_lt {s : St} (w : WF True s) {l : List Nat} (h : allTerms s = .ok l) {t : Nat} (ht : t ∈ l) : t < s.next := by
  rcases mem_allTerms h ht with ⟨kv, hkv, rfl⟩ | ⟨kv, -, h⟩ | ⟨i, h⟩
  · exact (w.secsLt kv hkv).1
  · exact w.secTermsLt _ _ h
  · exact w.kidLt _ _ h

theorem findOne_answers {s s' : St} (w : WF True s) (h : Untouched s s') (term : Str) (v : Val) (sec : Option (List Str)) :
    findOne s' term v sec = findOne s term v sec := by
  unfold findOne
  rw [h.fields.1, allTerms_answers w h]
  dsimp only
  generalize (if '.' ∉ lower term then py!"root." ++ lower term else lower term) = n
  split
  · exact filterE_congr fun t ht => findTest_answers w h _ v sec (w.termsLt t ht).1
  · cases ha : allTerms s with
    | error e => rfl
    | ok l => exact filterE_congr fun t ht => findTest_answers w h _ v sec (allTerms_lt w ha ht)

theorem find_answers {s s' : St} (w : WF True s) (h : Untouched s s') (term : Str) (v : Val) (sec : Option (List Str)) :
    find s' term v sec = find s term v sec := by
  unfold find findList
  rw [h.fields.2.2.1, h.fields.2.2.2.1]
  simp only [findOne_answers w h]

theorem qualified_answers {F : Prop} {s s' : St} (w : WF F s) (h : Untouched s s') (t : Nat) : qualified s' (s.heap t) = qualified s (s.heap t) := by
  unfold qualified
  cases hp : (s.heap t).parent with
  | none => rfl
  | some q => dsimp only; rw [h.objs q (w.parLt t q hp)]

/-- Every node of the tree holds the object of its term. -/
inductive Holds (h : Nat → Obj) : Tree → Prop
  | mk {t : Nat} {ks : List Tree} : (∀ k ∈ ks, Holds h k) → Holds h (.node t (h t) ks)

theorem treeF_holds {h : Nat → Obj} : ∀ {f t : Nat} {tr : Tree}, treeF h f t = .ok tr → Holds h tr
  | 0, _, _, e => by cases e
  | f + 1, t, tr, e => by
    obtain ⟨ks, hk, rfl⟩ := treeF_iff.1 e
    exact .mk fun k hkm => by
      obtain ⟨c, -, hc⟩ := forall₂_mem_right hk hkm
      exact treeF_holds hc

theorem treeRowsL_congr {s s' : St} : ∀ {ks : List Tree}, (∀ k ∈ ks, k.rows s' = k.rows s) → treeRowsL s' ks = treeRowsL s ks
  | [], _ => rfl
  | k :: ks, h => by
    rw [treeRowsL, treeRowsL, h k List.mem_cons_self, treeRowsL_congr fun k hk => h k (List.mem_cons_of_mem _ hk)]

theorem rows_answers {F : Prop} {s s' : St} (w : WF F s) (h : Untouched s s') {tr : Tree} (ht : Holds s.heap tr) : tr.rows s' = tr.rows s := by
  induction ht with
  | mk _ ih =>
    rw [Tree.rows, Tree.rows, qualified_answers w h, treeRowsL_congr ih]
    unfold writtenTvn
    rw [h.fields.2.2.2.2.1]

theorem sectionRows_answers {s s' : St} (w : WF True s) (h : Untouched s s') {x : Nat} (hx : x < s.next) : sectionRows s' x = sectionRows s x := by
  have he : entryRows s' x = entryRows s x := by
    funext e
    unfold entryRows rowArgs writtenTvn
    rw [h.objs x hx, h.fields.2.2.2.2.1]
  unfold sectionRows
  rw [h.objs x hx, he]
  congr 1
  refine mapM_congrE fun t ht => ?_
  rw [tree_same w h (w.secTermsLt x t ht)]
  cases e : tree s t with
  | error _ => rfl
  | ok tr => exact rows_answers w h (treeF_holds e)

theorem docRows_answers {s s' : St} (w : WF True s) (h : Untouched s s') : docRows s' = docRows s := by
  unfold docRows
  rw [h.fields.2.1]
  congr 1
  refine mapM_congrE fun kv hkv => ?_
  have := (w.secsLt kv hkv).1
  rw [sectionRows_answers w h this, h.objs _ this]

theorem docLines_answers {s s' : St} (w : WF True s) (h : Untouched s s') : docLines s' = docLines s := by
  unfold docLines
  rw [h.fields.2.1]
  congr 1
  refine mapM_congrE fun kv hkv => ?_
  have := (w.secsLt kv hkv).1
  unfold sectionLines
  rw [sectionRows_answers w h this, h.objs _ this]

/-- The conversion of a list of terms to a dict, in terms of their trees. -/
def dictOf (s : St) (rvn : Bool) (ts : List Nat) : Except Err DVal := do
  let ks ← ts.mapM (tree s)
  Tree.toDict rvn (.node 0 { docRoot s ts with children := ts } ks)

theorem toDict_id (rvn : Bool) (i j : Nat) (o : Obj) (ks : List Tree) : Tree.toDict rvn (.node i o ks) = Tree.toDict rvn (.node j o ks) := by
  cases ks <;> rw [Tree.toDict, Tree.toDict]

theorem termAsDict_root {s : St} (rvn : Bool) {ts : List Nat} (hts : ∀ t ∈ ts, t < s.next ∧ ∀ c, Hangs s.heap t c → c < s.next) :
    (termAsDict rvn s.next (swapped (withRoot s ts) s.next)).val = dictOf s rvn ts := by
  have hh : ∀ j, (swapped (withRoot s ts) s.next).heap j = if j = s.next then { docRoot s ts with children := ts } else s.heap j := by
    intro j
    unfold swapped withRoot
    simp only [heap_setObj, if_true]
    split <;> rfl
  have hk : ts.mapM (treeF (swapped (withRoot s ts) s.next).heap (s.next + 1)) = ts.mapM (tree s) := by
    refine mapM_congrE fun t ht => treeF_congr fun c hc => ?_
    rw [hh, if_neg]
    rcases hc with rfl | hc
    · exact Nat.ne_of_lt (hts _ ht).1
    · exact Nat.ne_of_lt ((hts _ ht).2 c hc)
  have htr : tree (swapped (withRoot s ts) s.next) s.next = (do
      let ks ← ts.mapM (tree s)
      return .node s.next { docRoot s ts with children := ts } ks) := by
    show treeF _ (s.next + 1 + 1) s.next = _
    unfold treeF
    have e := hh s.next
    rw [if_pos rfl] at e
    rw [e, hk]
  unfold termAsDict dictOf
  rw [lift_run, htr]
  cases ts.mapM (tree s) with
  | error e => rfl
  | ok ks =>
    simp only [bind, Except.bind, pure, Except.pure]
    rw [toDict_id rvn s.next 0]
    cases Tree.toDict rvn (.node 0 { docRoot s ts with children := ts } ks) <;> rfl

/-- Without the value that stands for the document itself. -/
def dropValue (rvn : Bool) : DVal → DVal
  | .dict l => .dict (if rvn then Dict.del l (py!"@value") else l)
  | d => d

theorem docAsDict_val {s : St} (hlt : ∀ kv ∈ s.sections, kv.2 < s.next) (rvn : Bool)
    (hts : ∀ t ∈ allSectionTerms s, t < s.next ∧ ∀ c, Hangs s.heap t c → c < s.next) :
    (docAsDict rvn s).val = (dictOf s rvn (allSectionTerms s)).map (dropValue rvn) := by
  rw [docAsDict_lt hlt, ← termAsDict_root rvn hts]
  have hterms : ((withRoot s (allSectionTerms s)).heap s.next).terms = allSectionTerms s := by
    unfold withRoot; rw [heap_setObj, if_pos rfl]; rfl
  unfold rootAsDict
  rw [bind_run, sectionAsDict_run]
  cases termAsDict rvn s.next (swapped (withRoot s (allSectionTerms s)) s.next) with
  | err e _ => rfl
  | ok d _ => cases d <;> rfl

theorem docAsDict_answers {s s' : St} (w : WF True s) (h : Untouched s s') (rvn : Bool) : (docAsDict rvn s').val = (docAsDict rvn s).val := by
  have hn := h.next
  have hall : allSectionTerms s' = allSectionTerms s := by
    unfold allSectionTerms
    rw [h.fields.2.1]
    exact List.flatMap_congr fun kv hkv => by rw [h.objs _ (w.secsLt kv hkv).1]
  have hts : ∀ t ∈ allSectionTerms s, t < s.next := by
    intro t ht
    obtain ⟨kv, -, h⟩ := List.mem_flatMap.1 ht
    exact w.secTermsLt _ _ h
  have hang : ∀ {t c : Nat}, Hangs s'.heap t c → t < s.next → Hangs s.heap t c := by
    intro t c hh
    induction hh with
    | kid hc => intro ht; rw [h.objs _ ht] at hc; exact .kid hc
    | deeper hc _ ih => intro ht; rw [h.objs _ ht] at hc; exact .deeper hc (ih (w.kidLt _ _ hc))
  rw [docAsDict_val (fun kv hkv => by rw [h.fields.2.1] at hkv; exact Nat.lt_of_lt_of_le (w.secsLt kv hkv).1 hn),
    docAsDict_val (fun kv hkv => (w.secsLt kv hkv).1), hall]
  · congr 1
    unfold dictOf
    rw [mapM_congrE fun t ht => tree_same w h (hts t ht)]
    unfold docRoot
    rw [h.fields.2.2.2.2.2]
  · exact fun t ht => ⟨hts t ht, fun c hc => hangs_lt w hc⟩
  · intro t ht
    rw [hall] at ht
    exact ⟨Nat.lt_of_lt_of_le (hts t ht) hn, fun c hc => Nat.lt_of_lt_of_le (hangs_lt w (hang hc (hts t ht))) hn⟩

end Metatab
