import Verif.Lemmas.Reach
import Verif.Lemmas.Attach
import Verif.Lemmas.Examples
import Verif.Spec.Doc
/-! # Properties of all histories (C14, C27, C28) -/
namespace Metatab
open Py

theorem nodup_index {α : Type} {l : List α} (h : l.Nodup) {i j : Nat} {a : α} (hi : l[i]? = some a) (hj : l[j]? = some a) : i = j := by
  obtain ⟨h1, e1⟩ := List.getElem?_eq_some_iff.1 hi
  obtain ⟨h2, e2⟩ := List.getElem?_eq_some_iff.1 hj
  exact (List.Nodup.getElem_inj_iff h).1 (e1.trans e2.symm)

/-- **C14.** Whatever calls are made, whether they return or raise, no term is listed twice in the document or in a section, section
names differ ignoring case, and no section is in the document's term list. -/
theorem C14_unique {s : St} (h : Reach (fun _ => True) s) : Spec.NoDuplicates s := by
  have w : WF False s := h.wf fun f => f.elim
  refine ⟨fun i j t => nodup_index w.termsNodup, fun x i j t => nodup_index (w.secTermsNodup x), ?_, fun t ht => (w.termsLt t ht).2⟩
  intro i j a b ha hb e
  rw [(w.secsLt a (List.mem_of_getElem? ha)).2.2, (w.secsLt b (List.mem_of_getElem? hb)).2.2] at e
  have hk := w.secsNodup
  refine nodup_index (a := a.1) hk ?_ ?_
  · unfold Dict.keys; rw [List.getElem?_map, ha]; rfl
  · unfold Dict.keys; rw [List.getElem?_map, hb]; exact congrArg some e.symm

/-- The history: parse two terms, add one of them again by hand, and move it to a section. -/
def dupHistory : St :=
  after (Op.sectionAddTerm 3 1).run (after (Op.docAddTerm 1).run (after (Op.newSection (py!"Other") []).run
    (after (Op.parse noFiles 3 (py!"d.csv") [[py!"Title", py!"x"], [py!"Name", py!"y"]]).run (newDoc exEnv initClasses))))
example : dupHistory.terms = [1, 2] ∧ (dupHistory.heap 3).terms = [1] ∧ (dupHistory.heap 0).terms = [1, 2] ∧
    dupHistory.sections = [(py!"root", 0), (py!"other", 3)] := by decide +kernel
example : Reach (fun _ => True) dupHistory :=
  .step _ (.step _ (.step _ (.step _ (.new _ _) trivial trivial) trivial trivial) trivial (show (1 : Nat) < _ by decide +kernel)) trivial
    ⟨⟨show (3 : Nat) < _ by decide +kernel, by decide +kernel⟩, show (1 : Nat) < _ by decide +kernel⟩

/-- **C28.** An infinite walk down children, in any state reached without attaching children by hand, ends up staying at one term that
is its own child, and that term has the same name as its parent. -/
theorem C28_chains {s : St} (h : Reach Op.noAddChild s) (f : Nat → Nat) (hf : ∀ n, f (n + 1) ∈ (s.heap (f n)).children) :
    ∃ n, ∀ m, n ≤ m → f m = f n ∧ Spec.SelfNamed s (f n) := by
  have w : WF True s := h.wf fun _ _ a => a
  have hmono : ∀ n, f n ≤ f (n + 1) := by
    intro n
    rcases w.edge trivial _ _ (hf n) with h | h
    · exact Nat.le_of_lt h
    · exact Nat.le_of_eq h.1
  have hmono' : ∀ n m, n ≤ m → f n ≤ f m := by
    intro n m hnm
    induction hnm with
    | refl => exact Nat.le_refl _
    | step _ ih => exact Nat.le_trans ih (hmono _)
  have hb : ∀ n, f n < s.next := by
    intro n
    exact Nat.lt_of_le_of_lt (hmono n) (w.kidLt _ _ (hf n))
  -- by induction on the distance to the bound
  have key : ∀ d n, s.next - f n ≤ d → ∃ k, ∀ m, k ≤ m → f m = f k := by
    intro d
    induction d with
    | zero => intro n hd; have := hb n; omega
    | succ d ih =>
      intro n hd
      by_cases hc : ∀ m, n ≤ m → f m = f n
      · exact ⟨n, hc⟩
      · simp only [not_forall] at hc
        obtain ⟨m, hm, hne⟩ := hc
        have := hmono' n m hm
        have := hb m
        exact ih m (by omega)
  obtain ⟨k, hk⟩ := key s.next 0 (Nat.sub_le _ _)
  refine ⟨k, fun m hm => ⟨hk m hm, ?_⟩⟩
  have h1 := hf k
  rw [hk (k + 1) (Nat.le_succ k)] at h1
  rcases w.edge trivial _ _ h1 with h | h
  · exact absurd h (Nat.lt_irrefl _)
  · exact h.2

theorem treeF_ok {s : St} (w : WF True s) : ∀ f t, s.next - t < f → (∀ d, Spec.Below s t d → ¬ Spec.SelfNamed s d) →
    ∃ tr, treeF s.heap f t = .ok tr
  | 0, _, h, _ => absurd h (Nat.not_lt_zero _)
  | f + 1, t, hf, hn => by
    have kids : ∀ c ∈ (s.heap t).children, ∃ tr, treeF s.heap f c = .ok tr := by
      intro c hc
      have hb : Spec.Below s t c := .single hc
      rcases w.edge trivial t c hc with h | h
      · have := w.kidLt t c hc
        exact treeF_ok w f c (by omega) fun d hd => hn d (hb.trans hd)
      · exact absurd h.2 (hn c hb)
    have all : ∀ l : List Nat, (∀ c ∈ l, ∃ tr, treeF s.heap f c = .ok tr) → ∃ ts, l.mapM (treeF s.heap f) = .ok ts := by
      intro l
      induction l with
      | nil => intro _; exact ⟨[], rfl⟩
      | cons c l ih =>
        intro hl
        obtain ⟨tr, e1⟩ := hl c List.mem_cons_self
        obtain ⟨ts, e2⟩ := ih fun c hc => hl c (List.mem_cons_of_mem _ hc)
        exact ⟨tr :: ts, by rw [List.mapM_cons, e1, e2]; rfl⟩
    obtain ⟨ts, e⟩ := all _ kids
    refine ⟨.node t (s.heap t) ts, ?_⟩
    unfold treeF
    rw [e]; rfl

/-- **C28.** Walking down from a term, as `descendents`, `rows` and `as_dict` do, ends when no term below it has the name of its
parent, in every state reached without attaching children by hand. The exception is real: `C28_self_witness`. -/
theorem C28_walk {s : St} (h : Reach Op.noAddChild s) {t : Nat} (hn : ∀ d, Spec.Below s t d → ¬ Spec.SelfNamed s d) :
    ∃ tr, tree s t = .ok tr :=
  treeF_ok (h.wf fun _ _ a => a) _ t (by omega) hn

/-- A document with three levels, edited after parsing. -/
def deepDoc : St :=
  after (Op.newChild 2 (py!"Leaf") (.str (py!"z")) []).run
    (after (Op.parse noFiles 3 (py!"d.csv") [[py!"A", py!"x"], [py!"A.B", py!"y"], [py!"B.C", py!"z"]]).run (newDoc exEnv initClasses))
example : Reach Op.noAddChild deepDoc :=
  .step _ (.step _ (.new _ _) trivial trivial) trivial (show (2 : Nat) < _ by decide +kernel)
example : (tree deepDoc 1).map Tree.descendents = .ok [2, 3, 4] := by decide +kernel
example : ∀ d < 5, deepDoc.next = 5 ∧ ((deepDoc.heap d).pt ≠ (deepDoc.heap d).rt ∨ d = 0) := by decide +kernel

/-- The document with the single row `Foo.Foo`. -/
def selfDoc : St := after (Op.parse noFiles 3 (py!"d.csv") [[py!"Foo.Foo", py!"x"]]).run (newDoc exEnv initClasses)

/-- The property fails for a row named `Foo.Foo`: its term is its own child, so that the walk exceeds every recursion limit. -/
theorem C28_self_witness : Reach Op.noAddChild selfDoc ∧ ∀ f, treeF selfDoc.heap f 1 = .error .recursionError := by
  refine ⟨.step _ (.new _ _) trivial trivial, ?_⟩
  have hk : (selfDoc.heap 1).children = [1] := by decide +kernel
  intro f
  induction f with
  | zero => rfl
  | succ f ih => unfold treeF; rw [hk, List.mapM_cons, ih]; rfl

/-- **C27.** When parsing ends without an error, every term it created from a row or an argument cell has a parent, is listed among that
parent's children exactly once and is a child of no other object. The document may have been edited before. Left out are section
objects, header rows, and the terms the code makes when a section has a column called `Section`. -/
theorem C27_attached {s s' : St} (h : Reach Op.noAddChild s) {files : Files} {fuel : Nat} {path : Str} {rows : List (List Str)}
    (hp : parseRows files fuel path rows s = .ok () s') {t : Nat} (hnew : s.next ≤ t) (ht : t < s'.next)
    (hs : (s'.heap t).cls.isSection = false) (hn : (s'.heap t).joinLc ∉ [py!"root.header", py!"root.section"]) :
    ∃ q, (s'.heap t).parent = some q ∧ (s'.heap q).children.count t = 1 ∧ ∀ r, t ∈ (s'.heap r).children → r = q := by
  have w : WF True s := h.wf fun _ _ a => a
  have ha : AttBut s.next none s := fun i h1 h2 => absurd h2 (Nat.not_lt.2 h1)
  obtain ⟨st, ha'⟩ := wp_ok (att_parseRows (F := True) ha w) hp
  have w' := st.wf w
  have hnl : ¬ Loose (s'.heap t) := by
    rintro (h | h | h)
    · rw [hs] at h; cases h
    · exact hn (by rw [h]; exact List.mem_cons_self)
    · exact hn (by rw [h]; exact List.mem_cons_of_mem _ List.mem_cons_self)
  obtain ⟨q, hq, hk⟩ := (ha' t hnew ht (fun e => by cases e)).resolve_left hnl
  have hpar := w'.kidPar trivial q t hk
  refine ⟨q, hpar, List.count_eq_one_of_mem (w'.kidNodup trivial q) hk, fun r hr => ?_⟩
  have := w'.kidPar trivial r t hr
  rw [hpar] at this
  injection this with e
  exact e.symm

/-- A term row with an argument cell, an elided row and a row with a named parent, after a section row. -/
def treeRows : List (List Str) :=
  [[py!"Section", py!"Things", py!"Color"], [py!"Thing", py!"one", py!"red"], [py!".Size", py!"3"], [py!"Thing.Shape", py!"round"]]
example : ∃ s', parseRows noFiles 3 (py!"d.csv") treeRows exDoc = .ok () s' ∧ s'.next = 6 ∧ (s'.heap 0).children = [2] ∧
    (s'.heap 2).children = [3, 4, 5] ∧ [2, 3, 4, 5].all (fun t => !(s'.heap t).cls.isSection) ∧
    show_ s' [2, 3, 4, 5] = [(py!"root.thing", .str (py!"one")), (py!"thing.color", .str (py!"red")), (py!"thing.size", .str (py!"3")),
      (py!"thing.shape", .str (py!"round"))] :=
  ⟨_, ok_after (by decide +kernel), by decide +kernel⟩

end Metatab
