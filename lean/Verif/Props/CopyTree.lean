import Verif.Model.CopyTree
import Verif.Props.Dirs
/-! # C82: copying a directory -/
namespace Metatab
open Py _root_.Spec

theorem relTo_append (s rel : FPath) : relTo s (rel ++ s) = if rel = [] then none else some rel := by
  unfold relTo
  by_cases h : rel = []
  · simp [h]
  · rw [if_neg h, if_pos ⟨List.suffix_append _ _, by simpa using h⟩]
    simp

theorem relTo_some {s p rel : FPath} (h : relTo s p = some rel) : p = rel ++ s ∧ rel ≠ [] := by
  unfold relTo at h
  split at h
  · rename_i hc
    obtain ⟨⟨r, rfl⟩, h2⟩ := hc
    simp at h
    subst h
    exact ⟨rfl, by rintro rfl; simp at h2⟩
  · cases h

theorem nothing_below {t : FTree} (h : TreeOk t) {p : FPath} (hp : t.look p ≠ some .dir) {rel : FPath} (hr : rel ≠ []) : t.look (rel ++ p) = none := by
  refine Classical.byContradiction fun hn => ?_
  rcases dir_above h hn (List.suffix_append rel p) with e | e
  · simp at e; exact hr e
  · exact hp e

theorem look_iff {t : FTree} (h1 : (t.map (·.1)).Nodup) (h2 : [] ∉ t.map (·.1)) {p : FPath} (hp : p ≠ []) (v : Node) :
    t.look p = some v ↔ (p, v) ∈ t := by
  cases p with
  | nil => exact absurd rfl hp
  | cons n p =>
    refine ⟨mem_of_look, fun hm => ?_⟩
    clear hp h2
    rw [look_cons]
    induction t with
    | nil => cases hm
    | cons e t ih =>
      rw [List.map_cons, List.nodup_cons] at h1
      rw [List.find?_cons]
      rcases List.mem_cons.1 hm with rfl | hm
      · simp
      · have : e.1 ≠ n :: p := by
          intro he
          exact h1.1 (he ▸ List.mem_map.2 ⟨_, hm, rfl⟩)
        rw [decide_eq_false this]
        exact ih h1.2 hm

theorem look_ext {t : FTree} {p : FPath} {o : Option Node} (h : ∀ v, t.look p = some v ↔ o = some v) : t.look p = o := by
  cases ho : o with
  | none =>
    cases hl : t.look p with
    | none => rfl
    | some v => have := (h v).1 hl; rw [ho] at this; cases this
  | some v => exact (h v).2 ho

/-- What `shutil.copytree` leaves behind, for a new directory in an existing one. -/
theorem shutilCopytree_spec (ig : Ignore) {t : FTree} (h : TreeOk t) {s dst : FPath} {n : Str} (hs : t.look s = some .dir) (hd : t.look dst = some .dir)
    (hn : t.look (n :: dst) = none) : ∃ t', shutilCopytree ig t s (n :: dst) = .ok t' ∧ TreeOk t' ∧
      (∀ rel, t'.look (rel ++ n :: dst) = if kept ig s rel then t.look (rel ++ s) else none) ∧
      ∀ q, ¬ n :: dst <:+ q → t'.look q = t.look q := by
  have hmk : makedirs t (n :: dst) = .ok (t ++ [(n :: dst, .dir)]) := by
    unfold makedirs
    rw [if_pos (by unfold FTree.has; rw [hd]; rfl), mkdir_ok hn hd]
  have h1 : TreeOk (t ++ [(n :: dst, .dir)]) := treeOk_add h hn hd
  let f : FPath × Node → Option (FPath × Node) := fun e => match relTo s e.1 with
      | some rel => if kept ig s rel then some (rel ++ n :: dst, e.2) else none
      | none => none
  have hf : ∀ e q v, f e = some (q, v) ↔ ∃ rel, rel ≠ [] ∧ kept ig s rel = true ∧ e = (rel ++ s, v) ∧ q = rel ++ n :: dst := by
    rintro ⟨p, w⟩ q v
    show (match relTo s p with
      | some rel => if kept ig s rel then some (rel ++ n :: dst, w) else none
      | none => none) = some (q, v) ↔ _
    constructor
    · intro he
      cases hr : relTo s p with
      | none => rw [hr] at he; cases he
      | some rel =>
        rw [hr] at he
        dsimp only at he
        obtain ⟨e1, e2⟩ := relTo_some hr
        split at he
        · rename_i hk
          simp only [Option.some.injEq, Prod.mk.injEq] at he
          obtain ⟨rfl, rfl⟩ := he
          exact ⟨rel, e2, hk, by rw [e1], rfl⟩
        · cases he
    · rintro ⟨rel, h1, h2, h3, rfl⟩
      cases h3
      rw [relTo_append, if_neg h1]
      simp [h2]
  have hmem : ∀ q v, (q, v) ∈ t.filterMap f ↔ ∃ rel, rel ≠ [] ∧ kept ig s rel = true ∧ (rel ++ s, v) ∈ t ∧ q = rel ++ n :: dst := by
    intro q v
    rw [List.mem_filterMap]
    constructor
    · rintro ⟨e, he, h2⟩
      obtain ⟨rel, k1, k2, rfl, k3⟩ := (hf _ _ _).1 h2
      exact ⟨rel, k1, k2, he, k3⟩
    · rintro ⟨rel, k1, k2, he, k3⟩
      exact ⟨_, he, (hf _ _ _).2 ⟨rel, k1, k2, rfl, k3⟩⟩
  have hnone : ∀ rel, t.look (rel ++ n :: dst) = none := by
    intro rel
    by_cases e : rel = []
    · subst e; exact hn
    · exact nothing_below h (by rw [hn]; simp) e
  let r : FTree := (t ++ [(n :: dst, .dir)]) ++ t.filterMap f
  have hroot : [] ∉ r.map (·.1) := by
    show [] ∉ List.map Prod.fst ((t ++ [(n :: dst, Node.dir)]) ++ t.filterMap f)
    rw [List.map_append, List.mem_append]
    rintro (hm | hm)
    · exact h1.noRoot hm
    · obtain ⟨⟨q, v⟩, hq, e⟩ := List.mem_map.1 hm
      obtain ⟨rel, -, -, -, e2⟩ := (hmem q v).1 hq
      dsimp only at e
      rw [e] at e2
      simp at e2
  have hnd : (r.map (·.1)).Nodup := by
    show (List.map Prod.fst ((t ++ [(n :: dst, Node.dir)]) ++ t.filterMap f)).Nodup
    rw [List.map_append]
    refine List.nodup_append.2 ⟨h1.once, ?_, ?_⟩
    · have hk := h.once
      clear_value r
      clear hmem hroot h1 hmk hs hd hn hnone h
      induction t with
      | nil => simp
      | cons e t ih =>
        rw [List.map_cons, List.nodup_cons] at hk
        rw [List.filterMap_cons]
        cases he : f e with
        | none => exact ih hk.2
        | some w =>
          obtain ⟨q, v⟩ := w
          rw [List.map_cons, List.nodup_cons]
          refine ⟨?_, ih hk.2⟩
          intro hm
          obtain ⟨⟨q', v'⟩, hm', rfl⟩ := List.mem_map.1 hm
          obtain ⟨e', he', h2⟩ := List.mem_filterMap.1 hm'
          obtain ⟨rel, -, -, rfl, k3⟩ := (hf _ _ _).1 he
          obtain ⟨rel', -, -, rfl, k3'⟩ := (hf _ _ _).1 h2
          dsimp only at k3
          rw [k3] at k3'
          have := List.append_cancel_right k3'
          subst this
          exact hk.1 (List.mem_map.2 ⟨_, he', rfl⟩)
    · intro a ha b hb
      rintro rfl
      obtain ⟨⟨q, v⟩, hq, rfl⟩ := List.mem_map.1 hb
      obtain ⟨rel, k1, -, -, rfl⟩ := (hmem q v).1 hq
      rw [List.map_append, List.mem_append] at ha
      rcases ha with ha | ha
      · obtain ⟨⟨q', v'⟩, hq', e⟩ := List.mem_map.1 ha
        dsimp only at e
        rw [e] at hq'
        have := look_of_mem h hq'
        rw [hnone rel] at this
        cases this
      · simp at ha
        exact k1 ha
  have hr : ∀ q v, q ≠ [] → (FTree.look r q = some v ↔ (q, v) ∈ t ∨ (q, v) = (n :: dst, Node.dir) ∨
      ∃ rel, rel ≠ [] ∧ kept ig s rel = true ∧ (rel ++ s, v) ∈ t ∧ q = rel ++ n :: dst) := by
    intro q v hq
    rw [look_iff hnd hroot hq]
    show (q, v) ∈ (t ++ [(n :: dst, .dir)]) ++ t.filterMap f ↔ _
    rw [List.mem_append, List.mem_append, List.mem_singleton, hmem, or_assoc]
  have ha : ∀ rel, FTree.look r (rel ++ n :: dst) = if kept ig s rel then t.look (rel ++ s) else none := by
    intro rel
    by_cases e : rel = []
    · subst e
      rw [kept, if_pos rfl, List.nil_append, List.nil_append, hs]
      exact (hr _ _ (by simp)).2 (.inr (.inl rfl))
    · refine look_ext fun v => ?_
      have hne : rel ++ s ≠ [] := by simp [e]
      rw [hr _ _ (by simp)]
      constructor
      · rintro (hm | hm | ⟨rel', k1, k2, k3, k4⟩)
        · have := look_of_mem h hm
          rw [hnone rel] at this
          cases this
        · simp at hm
          exact absurd hm.1 e
        · have := List.append_cancel_right k4
          subst this
          rw [if_pos k2]
          exact look_of_mem h k3
      · intro hv
        split at hv
        · rename_i hk
          exact .inr (.inr ⟨rel, e, hk, (look_iff h.once h.noRoot hne v).1 hv, rfl⟩)
        · cases hv
  have hb : ∀ q, ¬ n :: dst <:+ q → FTree.look r q = t.look q := by
    intro q hq
    by_cases e : q = []
    · subst e; rfl
    · refine look_ext fun v => ?_
      rw [hr _ _ e, look_iff h.once h.noRoot e]
      constructor
      · rintro (hm | hm | ⟨rel', k1, k2, k3, k4⟩)
        · exact hm
        · cases hm
          exact absurd (List.suffix_refl _) hq
        · exact absurd (k4 ▸ List.suffix_append _ _) hq
      · exact .inl
  refine ⟨r, ?_, ⟨?_, hnd, hroot⟩, ha, hb⟩
  · unfold shutilCopytree
    rw [if_neg (by unfold FTree.has; rw [hn]; simp), hmk]
    rfl
  · intro m q hm
    by_cases e : n :: dst <:+ m :: q
    · rcases List.suffix_cons_iff.1 e with e | ⟨rel, e⟩
      · cases e
        rw [hb _ (fun hh => by have := hh.length_le; rw [List.length_cons] at this; omega)]
        exact hd
      · subst e
        have hm' : FTree.look r ((m :: rel) ++ n :: dst) ≠ none := hm
        rw [ha] at hm'
        split at hm'
        · rename_i hk
          rw [kept, Bool.and_eq_true] at hk
          rw [ha, if_pos hk.1]
          exact h.below m _ hm'
        · exact absurd rfl hm'
    · rw [hb _ e] at hm
      rw [hb _ (fun hh => e (hh.trans (List.suffix_cons _ _)))]
      exact h.below m q hm

/-- What `shutil.copy2` leaves behind, for a new file in an existing directory. -/
theorem copy2_spec {t : FTree} (h : TreeOk t) {s dst : FPath} {n : Str} {b : Bytes} (hs : t.look s = some (.file b)) (hd : t.look dst = some .dir)
    (hn : t.look (n :: dst) = none) : ∃ t', copy2 t s (n :: dst) = .ok t' ∧ TreeOk t' ∧
      ∀ q, t'.look q = if q = n :: dst then some (.file b) else t.look q := by
  refine ⟨t ++ [(n :: dst, .file b)], ?_, treeOk_add h hn hd, look_add hn⟩
  have hi : t.isDir (n :: dst) = false := by unfold FTree.isDir; rw [hn]; rfl
  unfold copy2
  rw [hs]
  dsimp only
  simp only [hi, Bool.false_eq_true, if_false]
  rw [if_neg (by rintro rfl; rw [hn] at hs; cases hs)]
  unfold writeBytes
  dsimp only
  rw [hi, show t.isDir dst = true by unfold FTree.isDir; rw [hd]; rfl, if_pos (by rfl)]
  congr 2
  rw [List.filter_eq_self]
  rintro ⟨p, v⟩ hm
  simp only [decide_eq_true_eq]
  rintro rfl
  rw [look_of_mem h hm] at hn
  cases hn

theorem copyItems_spec (ig : Ignore) {src dst : FPath} (hsd : ¬ src <:+ dst) : ∀ {names : List Str} {t : FTree}, TreeOk t → t.look src = some .dir →
    t.look dst = some .dir → names.Nodup → (∀ n ∈ names, t.look (n :: src) ≠ none ∧ t.look (n :: dst) = none) →
    ∃ t', copyItems ig src dst names t = (.ok (), t') ∧ TreeOk t' ∧
      (∀ n ∈ names, ∀ rel, t'.look (rel ++ n :: dst) = if kept ig (n :: src) rel then t.look (rel ++ n :: src) else none) ∧
      ∀ q, (∀ n ∈ names, ¬ n :: dst <:+ q) → t'.look q = t.look q := by
  intro names
  induction names with
  | nil => intro t h _ _ _ _; exact ⟨t, rfl, h, by simp, fun q _ => rfl⟩
  | cons n ns ih =>
    intro t h hs hd hnd hn
    rw [List.nodup_cons] at hnd
    obtain ⟨hn1, hn2⟩ := hn n List.mem_cons_self
    have apart : ∀ {p : FPath}, src <:+ p → ¬ n :: dst <:+ p := by
      intro p hp hq
      rcases List.suffix_or_suffix_of_suffix hp hq with e | e
      · rcases List.suffix_cons_iff.1 e with e | e
        · rw [e, hn2] at hs; cases hs
        · exact hsd e
      · rcases dir_above h (by rw [hs]; simp) e with e | e
        · rw [← e, hn2] at hs; cases hs
        · rw [hn2] at e; cases e
    have step : ∃ t1, (if t.isDir (n :: src) then shutilCopytree ig t (n :: src) (n :: dst) else copy2 t (n :: src) (n :: dst)) = .ok t1 ∧ TreeOk t1 ∧
        (∀ rel, t1.look (rel ++ n :: dst) = if kept ig (n :: src) rel then t.look (rel ++ n :: src) else none) ∧
        ∀ q, ¬ n :: dst <:+ q → t1.look q = t.look q := by
      cases hl : t.look (n :: src) with
      | none => exact absurd hl hn1
      | some v =>
        cases v with
        | dir =>
          rw [if_pos (by unfold FTree.isDir; rw [hl]; rfl)]
          exact shutilCopytree_spec ig h hl hd hn2
        | file b =>
          rw [if_neg (by unfold FTree.isDir; rw [hl]; simp)]
          obtain ⟨t1, e1, e2, e3⟩ := copy2_spec h hl hd hn2
          refine ⟨t1, e1, e2, fun rel => ?_, fun q hq => ?_⟩
          · rw [e3]
            by_cases e : rel = []
            · subst e
              rw [List.nil_append, List.nil_append, if_pos rfl, kept, if_pos rfl, hl]
            · rw [if_neg (by simpa using e), nothing_below h (by rw [hn2]; simp) e, nothing_below h (by rw [hl]; simp) e]
              split <;> rfl
          · rw [e3, if_neg]
            rintro rfl
            exact hq (List.suffix_refl _)
    obtain ⟨t1, e1, e2, e3, e4⟩ := step
    unfold copyItems
    rw [e1]
    have sib : ∀ m ∈ ns, ∀ rel, ¬ n :: dst <:+ rel ++ m :: dst := by
      intro m hm rel hq
      have e := (List.suffix_of_suffix_length_le hq (List.suffix_append rel (m :: dst)) (by simp)).eq_of_length (by simp)
      cases e
      exact hnd.1 hm
    obtain ⟨t', f1, f2, f3, f4⟩ := ih e2 (by rw [e4 _ (apart (List.suffix_refl _))]; exact hs)
      (by rw [e4 _ (fun hh => by have := hh.length_le; rw [List.length_cons] at this; omega)]; exact hd) hnd.2 (by
        intro m hm
        rw [e4 _ (apart (List.suffix_cons _ _)), e4 (m :: dst) (sib m hm [])]
        exact hn m (List.mem_cons_of_mem _ hm))
    refine ⟨t', f1, f2, ?_, ?_⟩
    · intro m hm rel
      rcases List.mem_cons.1 hm with rfl | hm
      · rw [f4, e3]
        intro k hk hq
        have e := (List.suffix_of_suffix_length_le hq (List.suffix_append rel (m :: dst)) (by simp)).eq_of_length (by simp)
        cases e
        exact hnd.1 hk
      · rw [f3 m hm, e4 _ (apart ((List.suffix_cons _ _).trans (List.suffix_append _ _)))]
    · intro q hq
      rw [f4 q (fun m hm => hq m (List.mem_cons_of_mem _ hm)), e4 q (hq n List.mem_cons_self)]

/-- C82, partial: copying into an existing directory that is not inside the source and has none of the names of the source. Everything in
the source is there afterwards under the target, except what `ignore` leaves out below the first level; all else is as before. Missing: a
target that does not exist, names that are already there, and `ignore` for the names of the first level; see the witnesses. -/
theorem C82_copied_partial (ig : Ignore) {t : FTree} (h : TreeOk t) {src dst : FPath} (hsd : ¬ src <:+ dst) (hs : t.look src = some .dir)
    (hd : t.look dst = some .dir) (hn : ∀ n, t.look (n :: src) ≠ none → t.look (n :: dst) = none) :
    ∃ t', copytree ig t src dst = (.ok (), t') ∧ TreeOk t' ∧
      (∀ n rel, t.look (n :: src) ≠ none →
        t'.look (rel ++ n :: dst) = if kept ig (n :: src) rel then t.look (rel ++ n :: src) else none) ∧
      ∀ q, (∀ n, t.look (n :: src) ≠ none → ¬ n :: dst <:+ q) → t'.look q = t.look q := by
  unfold copytree
  have hl : ∃ names, t.listdir src = .ok names := by
    unfold FTree.listdir FTree.isDir
    rw [hs, if_pos (by simp)]
    exact ⟨_, rfl⟩
  obtain ⟨names, hl⟩ := hl
  obtain ⟨k1, k2⟩ := listdir_mem h hl
  rw [hl]
  obtain ⟨t', f1, f2, f3, f4⟩ := copyItems_spec ig hsd h hs hd k1 fun n hm => ⟨(k2 n).1 hm, hn n ((k2 n).1 hm)⟩
  exact ⟨t', f1, f2, fun n rel hm => f3 n ((k2 n).2 hm) rel, fun q hq => f4 q fun n hm => hq n ((k2 n).1 hm)⟩

/-- C82. Without `ignore` the target holds what the source holds. -/
theorem C82_same {t : FTree} (h : TreeOk t) {src dst : FPath} (hsd : ¬ src <:+ dst) (hs : t.look src = some .dir)
    (hd : t.look dst = some .dir) (hn : ∀ n, t.look (n :: dst) = none) :
    ∃ t', copytree (fun _ _ => false) t src dst = (.ok (), t') ∧ TreeOk t' ∧ (∀ rel, t'.look (rel ++ dst) = t.look (rel ++ src)) ∧
      ∀ q, ¬ dst <:+ q → t'.look q = t.look q := by
  obtain ⟨t', f1, f2, f3, f4⟩ := C82_copied_partial (fun _ _ => false) h hsd hs hd fun n _ => hn n
  have hk : ∀ s rel, kept (fun _ _ => false) s rel = true := by
    intro s rel
    induction rel with
    | nil => rfl
    | cons n rel ih => rw [kept, ih]; rfl
  refine ⟨t', f1, f2, fun rel => ?_, fun q hq => f4 q fun n _ hh => hq ((List.suffix_cons _ _).trans hh)⟩
  rcases List.eq_nil_or_concat rel with rfl | ⟨rel, n, rfl⟩
  · rw [List.nil_append, List.nil_append, f4 _ (fun n _ hh => by have := hh.length_le; rw [List.length_cons] at this; omega), hd, hs]
  · rw [List.concat_eq_append, List.append_assoc, List.append_assoc, List.singleton_append, List.singleton_append]
    by_cases e : t.look (n :: src) = none
    · have e1 : t.look (rel ++ n :: src) = none := by
        by_cases er : rel = []
        · subst er; exact e
        · exact nothing_below h (by rw [e]; simp) er
      have e2 : t.look (rel ++ n :: dst) = none := by
        by_cases er : rel = []
        · subst er; exact hn n
        · exact nothing_below h (by rw [hn]; simp) er
      rw [e1, f4, e2]
      intro m hm hh
      have e3 := (List.suffix_of_suffix_length_le hh (List.suffix_append rel (n :: dst)) (by simp)).eq_of_length (by simp)
      cases e3
      exact hm e
    · rw [f3 n rel e, hk, if_pos rfl]

/-- C82. A source that is no directory raises and changes nothing. -/
theorem C82_no_source (ig : Ignore) {t : FTree} {src : FPath} (hs : t.look src ≠ some .dir) (dst : FPath) : copytree ig t src dst = (.error .osError, t) := by
  unfold copytree FTree.listdir FTree.isDir
  rw [decide_eq_false hs, if_neg (by simp)]

/-- What is there stays there, and directories stay directories. -/
def KindStays (t t' : FTree) : Prop := ∀ q, (t.look q ≠ none → t'.look q ≠ none) ∧ (t.look q = some .dir → t'.look q = some .dir)

theorem kindStays_append (t u : FTree) : KindStays t (t ++ u) := by
  have key : ∀ q v, t.look q = some v → FTree.look (t ++ u) q = some v := by
    intro q v h
    cases q with
    | nil => exact h
    | cons n q =>
      rw [look_cons] at h ⊢
      obtain ⟨e, h1, h2⟩ := Option.map_eq_some_iff.1 h
      rw [List.find?_append, h1]
      exact congrArg some h2
  intro q
  refine ⟨fun h => ?_, key q _⟩
  obtain ⟨v, hv⟩ := Option.ne_none_iff_exists'.1 h
  rw [key q v hv]
  simp

theorem KindStays.trans {a b c : FTree} (h : KindStays a b) (k : KindStays b c) : KindStays a c :=
  fun q => ⟨fun x => (k q).1 ((h q).1 x), fun x => (k q).2 ((h q).2 x)⟩

theorem kindStays_makedirs {t : FTree} : ∀ {p : FPath} {t' : FTree}, makedirs t p = .ok t' → KindStays t t'
  | [], _, h => by cases h
  | n :: p, t', h => by
    have mk : ∀ {a b : FTree}, mkdir a (n :: p) = .ok b → KindStays a b := by
      intro a b h
      unfold mkdir at h
      dsimp only at h
      by_cases h1 : a.has (n :: p) = true
      · rw [if_pos h1] at h; cases h
      · rw [if_neg h1] at h
        by_cases h2 : a.isDir p = true
        · rw [if_pos h2] at h; cases h; exact kindStays_append _ _
        · rw [if_neg h2] at h; cases h
    unfold makedirs at h
    split at h
    · exact mk h
    · split at h
      · cases h
      · next hm => exact (kindStays_makedirs hm).trans (mk h)

theorem kindStays_item {ig : Ignore} {t t' : FTree} {s d : FPath}
    (h : (if t.isDir s then shutilCopytree ig t s d else copy2 t s d) = .ok t') : KindStays t t' := by
  split at h
  · unfold shutilCopytree at h
    split at h
    · cases h
    · split at h
      · cases h
      · next hm => cases h; exact (kindStays_makedirs hm).trans (kindStays_append _ _)
  · unfold copy2 at h
    split at h
    · next b hb =>
      simp only at h
      generalize (if t.isDir d then List.take 1 s ++ d else d) = e at h
      by_cases he : e = s
      · rw [if_pos he] at h; cases h
      · rw [if_neg he] at h
        cases e with
        | nil => cases h
        | cons n q =>
          unfold writeBytes at h
          dsimp only at h
          by_cases hc : (t.isDir q && !t.isDir (n :: q)) = true
          · rw [if_pos hc] at h
            cases h
            simp only [Bool.and_eq_true, FTree.isDir, Bool.not_eq_true', decide_eq_false_iff_not] at hc
            have hx := hc.2
            have key : ∀ r, FTree.look (t.filter (fun e => e.1 ≠ n :: q) ++ [(n :: q, .file b)]) r = if r = n :: q then some (.file b) else t.look r := by
              intro r
              have hnone : FTree.look (t.filter fun e => e.1 ≠ n :: q) (n :: q) = none := by
                rw [look_cons, Option.map_eq_none_iff, List.find?_eq_none]
                intro x hx
                simpa using (List.mem_filter.1 hx).2
              rw [look_add hnone]
              split
              · rfl
              · next hr =>
                cases r with
                | nil => rfl
                | cons m r =>
                  rw [look_cons, look_cons, List.find?_filter]
                  congr 1
                  congr 1
                  funext x
                  by_cases hx : x.1 = m :: r
                  · simp [hx, hr]
                  · simp [hx]
            intro r
            rw [key r]
            constructor
            · intro h1; split
              · simp
              · exact h1
            · intro h1; split
              · next e => rw [e] at h1; exact absurd h1 hx
              · exact h1
          · rw [if_neg hc] at h; cases h
    · cases h

theorem copyItems_fails {ig : Ignore} {src dst : FPath} {n : Str} : ∀ {names : List Str} {t : FTree}, n ∈ names → t.look (n :: src) = some .dir →
    t.look (n :: dst) ≠ none → ∃ e t', copyItems ig src dst names t = (.error e, t')
  | m :: names, t, hm, h1, h2 => by
    unfold copyItems
    split
    · next e _ => exact ⟨e, t, rfl⟩
    · next t' ht =>
      rcases List.mem_cons.1 hm with rfl | hm
      · exfalso
        rw [if_pos (by unfold FTree.isDir; simpa using h1)] at ht
        unfold shutilCopytree at ht
        rw [if_pos (by unfold FTree.has; rw [Option.isSome_iff_ne_none]; exact h2)] at ht
        cases ht
      · have st := kindStays_item ht
        exact copyItems_fails hm ((st _).2 h1) ((st _).1 h2)

/-- **C82.** If a directory directly in the source has a name that is taken in the target, the call raises. -/
theorem C82_refused (ig : Ignore) {t : FTree} (h : TreeOk t) {src dst : FPath} {n : Str} (hs : t.look (n :: src) = some .dir)
    (hd : t.look (n :: dst) ≠ none) : ∃ e t', copytree ig t src dst = (.error e, t') := by
  unfold copytree
  cases hl : t.listdir src with
  | error e => exact ⟨e, t, rfl⟩
  | ok names => exact copyItems_fails (((listdir_mem h hl).2 n).2 (by rw [hs]; simp)) hs hd

/-! ## Where the claim fails -/

def copyTree1 : FTree := [([py!"a"], .dir), ([py!"f", py!"a"], .file [1]), ([py!"d", py!"a"], .dir), ([py!"g", py!"d", py!"a"], .file [2]), ([py!"b"], .dir)]
/-- The same entries with the directory listed before the file. -/
def copyTree2 : FTree := [([py!"a"], .dir), ([py!"d", py!"a"], .dir), ([py!"g", py!"d", py!"a"], .file [2]), ([py!"f", py!"a"], .file [1]), ([py!"b"], .dir)]
def noIgnore : Ignore := fun _ _ => false

theorem copyTree1_ok : TreeOk copyTree1 := treeOk_of (by decide) (by decide) (by decide)
theorem copyTree2_ok : TreeOk copyTree2 := treeOk_of (by decide) (by decide) (by decide)

/-- Whether a missing target is made depends on the order in which the operating system lists the source. -/
theorem C82_target_witness : (copytree noIgnore copyTree1 [py!"a"] [py!"c"]).1 = .error .osError ∧
    (copytree noIgnore copyTree2 [py!"a"] [py!"c"]).1 = .ok () ∧
    FTree.look (copytree noIgnore copyTree2 [py!"a"] [py!"c"]).2 [py!"f", py!"c"] = some (.file [1]) := by decide

/-- A second copy fails at the first directory that is already there, and copies nothing after it. -/
theorem C82_again_witness : (copytree noIgnore (copytree noIgnore copyTree1 [py!"a"] [py!"b"]).2 [py!"a"] [py!"b"]).1 = .error .osError := by decide

/-- `ignore` is not asked about the names of the first level. -/
theorem C82_ignore_witness : ∃ ig : Ignore, ig [py!"a"] (py!"f") = true ∧ ig [py!"d", py!"a"] (py!"g") = true ∧
    FTree.look (copytree ig copyTree1 [py!"a"] [py!"b"]).2 [py!"f", py!"b"] = some (.file [1]) ∧
    FTree.look (copytree ig copyTree1 [py!"a"] [py!"b"]).2 [py!"g", py!"d", py!"b"] = none :=
  ⟨fun _ _ => true, by decide⟩

example : ∃ e t', copytree noIgnore (copytree noIgnore copyTree1 [py!"a"] [py!"b"]).2 [py!"a"] [py!"b"] = (.error e, t') :=
  C82_refused noIgnore (treeOk_of (by decide) (by decide) (by decide)) (n := py!"d") (by decide) (by decide)

/-- The hypotheses are met. -/
example : ∃ t', copytree noIgnore copyTree1 [py!"a"] [py!"b"] = (.ok (), t') ∧ t'.look [py!"g", py!"d", py!"b"] = some (.file [2]) ∧
    t'.look [py!"f", py!"b"] = some (.file [1]) := by
  obtain ⟨t', h1, -, h2, -⟩ := C82_same copyTree1_ok (src := [py!"a"]) (dst := [py!"b"]) (by decide) (by decide) (by decide) (by
    intro n
    unfold copyTree1 FTree.look
    simp)
  exact ⟨t', h1, (h2 [py!"g", py!"d"]).trans (by decide), (h2 [py!"f"]).trans (by decide)⟩

end Metatab
