import Verif.Spec.Dirs
/-! # C76-C79: the helpers for directories -/
namespace Metatab
open Py _root_.Spec

theorem look_cons (t : FTree) (n : Str) (p : FPath) : t.look (n :: p) = (t.find? fun e => e.1 = n :: p).map (·.2) := rfl

theorem look_add {t : FTree} {n : Str} {p : FPath} {v : Node} (h : t.look (n :: p) = none) (q : FPath) :
    FTree.look (t ++ [(n :: p, v)]) q = if q = n :: p then some v else t.look q := by
  cases q with
  | nil => rw [if_neg (by simp)]; rfl
  | cons m q =>
    rw [look_cons, List.find?_append]
    rw [look_cons] at h
    by_cases e : m :: q = n :: p
    · rw [if_pos e, e, Option.map_eq_none_iff.1 h]
      simp
    · rw [if_neg e, look_cons]
      have : ([(n :: p, v)] : FTree).find? (fun e => e.1 = m :: q) = none := by
        rw [List.find?_cons]
        rw [decide_eq_false (fun h => e h.symm)]
        rfl
      rw [this, Option.or_none]

theorem mem_of_look {t : FTree} {n : Str} {p : FPath} {v : Node} (h : t.look (n :: p) = some v) : (n :: p, v) ∈ t := by
  rw [look_cons] at h
  obtain ⟨e, h1, h2⟩ := Option.map_eq_some_iff.1 h
  have h3 := List.find?_some h1
  have h4 := List.mem_of_find?_eq_some h1
  simp only [decide_eq_true_eq] at h3
  obtain ⟨a, b⟩ := e
  dsimp only at h2 h3
  rwa [← h2, ← h3]

theorem look_of_mem {t : FTree} (h : TreeOk t) {p : FPath} {v : Node} (hm : (p, v) ∈ t) : t.look p = some v := by
  cases p with
  | nil => exact absurd (List.mem_map.2 ⟨_, hm, rfl⟩) h.noRoot
  | cons n p =>
    rw [look_cons]
    have key : ∀ (l : FTree), (l.map (·.1)).Nodup → (n :: p, v) ∈ l → (l.find? fun e => e.1 = n :: p) = some (n :: p, v) := by
      intro l
      induction l with
      | nil => intro _ h; cases h
      | cons e l ih =>
        intro hn hm
        rw [List.map_cons, List.nodup_cons] at hn
        rw [List.find?_cons]
        rcases List.mem_cons.1 hm with rfl | hm
        · simp
        · have hne : e.1 ≠ n :: p := fun e1 => hn.1 (e1 ▸ List.mem_map.2 ⟨_, hm, rfl⟩)
          rw [decide_eq_false hne]
          exact ih hn.2 hm
    rw [key t h.once hm]
    rfl

/-- Everything above a directory is a directory. -/
theorem dir_above {t : FTree} (h : TreeOk t) : ∀ {p q : FPath}, t.look p ≠ none → q <:+ p → q = p ∨ t.look q = some .dir := by
  intro p
  induction p with
  | nil => intro q _ hq; exact .inl (List.suffix_nil.1 hq)
  | cons n p ih =>
    intro q hp hq
    rcases List.suffix_cons_iff.1 hq with e | hq
    · exact .inl e
    · have hd := h.below n p hp
      rcases ih (by rw [hd]; simp) hq with rfl | e
      · exact .inr hd
      · exact .inr e

theorem treeOk_add {t : FTree} (h : TreeOk t) {n : Str} {p : FPath} {v : Node} (h1 : t.look (n :: p) = none) (h2 : t.look p = some .dir) :
    TreeOk (t ++ [(n :: p, v)]) := by
  refine ⟨?_, ?_, ?_⟩
  · intro m q hm
    rw [look_add h1] at hm
    rw [look_add h1]
    by_cases e : m :: q = n :: p
    · have : q = p := (List.cons.inj e).2
      rw [this, if_neg (by simp)]
      exact h2
    · rw [if_neg e] at hm
      have := h.below m q hm
      rw [if_neg (by rintro rfl; rw [h1] at this; cases this)]
      exact this
  · rw [List.map_append]
    refine List.nodup_append.2 ⟨h.once, by simp, ?_⟩
    intro a ha b hb
    rintro rfl
    obtain rfl := List.mem_singleton.1 hb
    obtain ⟨⟨c, v⟩, hm, e⟩ := List.mem_map.1 ha
    dsimp only at e
    rw [e] at hm
    rw [look_of_mem h hm] at h1
    cases h1
  · rw [List.map_append, List.mem_append]
    rintro (hm | hm)
    · exact h.noRoot hm
    · simp at hm

theorem mkdir_ok {t : FTree} {n : Str} {p : FPath} (h1 : t.look (n :: p) = none) (h2 : t.look p = some .dir) :
    mkdir t (n :: p) = .ok (t ++ [(n :: p, .dir)]) := by
  unfold mkdir FTree.has FTree.isDir
  dsimp only
  rw [h1, h2]
  simp

/-- `os.makedirs` makes what is missing, or nothing. -/
theorem makedirs_spec {t : FTree} (h : TreeOk t) : ∀ {p : FPath}, t.look p = none →
    (Blocked t p → makedirs t p = .error .osError) ∧
    (¬ Blocked t p → ∃ t', makedirs t p = .ok t' ∧ TreeOk t' ∧ ∀ q, t'.look q = if q <:+ p then some .dir else t.look q) := by
  intro p
  induction p with
  | nil => intro hp; cases hp
  | cons n p ih =>
    intro hp
    have hb : Blocked t (n :: p) ↔ Blocked t p := by
      constructor
      · rintro ⟨q, b, h1, h2⟩
        rcases List.suffix_cons_iff.1 h1 with rfl | h1
        · rw [hp] at h2; cases h2
        · exact ⟨q, b, h1, h2⟩
      · rintro ⟨q, b, h1, h2⟩
        exact ⟨q, b, h1.trans (List.suffix_cons _ _), h2⟩
    rw [hb]
    unfold makedirs
    have fin : ∀ {t1 : FTree}, TreeOk t1 → t1.look (n :: p) = none → t1.look p = some .dir → (∀ q, t1.look q = if q <:+ p then some .dir else t.look q) →
        ∃ t', mkdir t1 (n :: p) = .ok t' ∧ TreeOk t' ∧ ∀ q, t'.look q = if q <:+ n :: p then some .dir else t.look q := by
      intro t1 k1 k2 k3 k4
      refine ⟨_, mkdir_ok k2 k3, treeOk_add k1 k2 k3, fun q => ?_⟩
      rw [look_add k2]
      by_cases e : q = n :: p
      · rw [if_pos e, if_pos (e ▸ List.suffix_refl _)]
      · rw [if_neg e, k4]
        by_cases e2 : q <:+ p
        · rw [if_pos e2, if_pos (e2.trans (List.suffix_cons _ _))]
        · rw [if_neg e2, if_neg]
          intro hs
          rcases List.suffix_cons_iff.1 hs with hs | hs
          · exact e hs
          · exact e2 hs
    cases hl : t.look p with
    | none =>
      rw [if_neg (by unfold FTree.has; rw [hl]; simp)]
      obtain ⟨i1, i2⟩ := ih hl
      refine ⟨fun hbl => by rw [i1 hbl], fun hbl => ?_⟩
      obtain ⟨t1, e1, e2, e3⟩ := i2 hbl
      rw [e1]
      refine fin e2 ?_ (by rw [e3, if_pos (List.suffix_refl _)]) e3
      rw [e3, if_neg, hp]
      intro hs
      have := hs.length_le
      rw [List.length_cons] at this
      omega
    | some v =>
      rw [if_pos (by unfold FTree.has; rw [hl]; rfl)]
      cases v with
      | dir =>
        have hd : ∀ q, q <:+ p → t.look q = some .dir := fun q hq =>
          (dir_above h (by rw [hl]; simp) hq).elim (fun e => e ▸ hl) id
        refine ⟨?_, fun _ => fin h hp hl fun q => ?_⟩
        · rintro ⟨q, b, h1, h2⟩
          rw [hd q h1] at h2
          cases h2
        · by_cases e : q <:+ p
          · rw [if_pos e, hd q e]
          · rw [if_neg e]
      | file b =>
        refine ⟨fun _ => ?_, fun hn => absurd ⟨p, b, List.suffix_refl _, hl⟩ hn⟩
        unfold mkdir FTree.has FTree.isDir
        dsimp only
        rw [hp, hl]
        simp

/-! ## make_dir_structure -/

theorem maybeMakedir_spec {t : FTree} (h : TreeOk t) (p : FPath) :
    (Blocked t p → maybeMakedir t p = .error .osError) ∧
    (¬ Blocked t p → ∃ t', maybeMakedir t p = .ok t' ∧ TreeOk t' ∧ ∀ q, t'.look q = if q <:+ p then some .dir else t.look q) := by
  unfold maybeMakedir FTree.has FTree.isDir
  cases hl : t.look p with
  | none => exact makedirs_spec h hl
  | some v =>
    cases v with
    | dir =>
      have hd : ∀ q, q <:+ p → t.look q = some .dir := fun q hq =>
        (dir_above h (by rw [hl]; simp) hq).elim (fun e => e ▸ hl) id
      refine ⟨?_, fun _ => ⟨t, rfl, h, fun q => ?_⟩⟩
      · rintro ⟨q, b, h1, h2⟩
        rw [hd q h1] at h2
        cases h2
      · by_cases e : q <:+ p
        · rw [if_pos e, hd q e]
        · rw [if_neg e]
    | file b => exact ⟨fun _ => rfl, fun hn => absurd ⟨p, b, List.suffix_refl _, hl⟩ hn⟩

theorem needed_cons {p : FPath} {ps : List FPath} {q : FPath} : Needed (p :: ps) q ↔ q <:+ p ∨ Needed ps q := by
  unfold Needed; simp

theorem makeAll_ok {ps : List FPath} : ∀ {t : FTree}, TreeOk t → (∀ p ∈ ps, ¬ Blocked t p) →
    ∃ t', makeAll t ps = (.ok (), t') ∧ TreeOk t' ∧ ∀ q, t'.look q = if Needed ps q then some .dir else t.look q := by
  induction ps with
  | nil => intro t h _; exact ⟨t, rfl, h, fun q => by rw [if_neg (by unfold Needed; simp)]⟩
  | cons p ps ih =>
    intro t h hb
    obtain ⟨t1, e1, e2, e3⟩ := (maybeMakedir_spec h p).2 (hb p List.mem_cons_self)
    obtain ⟨t2, g1, g2, g3⟩ := ih e2 (by
      rintro p' hp' ⟨q, b, h1, h2⟩
      rw [e3] at h2
      split at h2
      · cases h2
      · exact hb p' (List.mem_cons_of_mem _ hp') ⟨q, b, h1, h2⟩)
    refine ⟨t2, by rw [makeAll, e1]; exact g1, g2, fun q => ?_⟩
    rw [g3, e3]
    by_cases c1 : Needed ps q
    · rw [if_pos c1, if_pos (needed_cons.2 (.inr c1))]
    · rw [if_neg c1]
      by_cases c2 : q <:+ p
      · rw [if_pos c2, if_pos (needed_cons.2 (.inl c2))]
      · rw [if_neg c2, if_neg]
        rw [needed_cons]
        exact fun h => h.elim c2 c1

theorem makeAll_err {ps : List FPath} : ∀ {t : FTree}, TreeOk t → (∃ p ∈ ps, Blocked t p) →
    ∃ t', makeAll t ps = (.error .osError, t') ∧ TreeOk t' ∧
      ∀ q, t'.look q = t.look q ∨ (Needed ps q ∧ t.look q = none ∧ t'.look q = some .dir) := by
  induction ps with
  | nil => rintro t _ ⟨p, hp, -⟩; cases hp
  | cons p ps ih =>
    intro t h hb
    by_cases hp : Blocked t p
    · exact ⟨t, by rw [makeAll, (maybeMakedir_spec h p).1 hp], h, fun q => .inl rfl⟩
    · obtain ⟨t1, e1, e2, e3⟩ := (maybeMakedir_spec h p).2 hp
      have hfile : ∀ q b, t.look q = some (.file b) → t1.look q = some (.file b) := by
        intro q b hq
        rw [e3, if_neg, hq]
        intro hs
        exact hp ⟨q, b, hs, hq⟩
      obtain ⟨t2, g1, g2, g3⟩ := ih e2 (by
        obtain ⟨p', hp', q, b, h1, h2⟩ := hb
        rcases List.mem_cons.1 hp' with rfl | hp'
        · exact absurd ⟨q, b, h1, h2⟩ hp
        · exact ⟨p', hp', q, b, h1, hfile q b h2⟩)
      refine ⟨t2, by rw [makeAll, e1]; exact g1, g2, fun q => ?_⟩
      have step : t1.look q = t.look q ∨ (Needed (p :: ps) q ∧ t.look q = none ∧ t1.look q = some .dir) := by
        rw [e3]
        by_cases c : q <:+ p
        · rw [if_pos c]
          cases hq : t.look q with
          | none => exact .inr ⟨needed_cons.2 (.inl c), rfl, rfl⟩
          | some v =>
            cases v with
            | dir => exact .inl rfl
            | file b => exact absurd ⟨q, b, c, hq⟩ hp
        · rw [if_neg c]; exact .inl rfl
      rcases g3 q with g | ⟨n1, n2, n3⟩
      · rw [g]; exact step
      · rcases step with s1 | ⟨s1, s2, s3⟩
        · exact .inr ⟨needed_cons.2 (.inr n1), s1 ▸ n2, n3⟩
        · rw [s3] at n2; cases n2

/-- The directories of a package below its base directory. -/
def _root_.Spec.packageDirs : List FPath := ([py!"download", py!"package", py!"old"] : List Str).map fun n => [n, py!"_metapack"]

/-- **C76** When no file is in the way, `make_dir_structure` succeeds; the three directories and those above them are there, and nothing else
has changed. -/
theorem C76_made {t : FTree} (h : TreeOk t) {base : FPath} (hb : ∀ p ∈ packageDirs, ¬ Blocked t (p ++ base)) :
    ∃ t', makeDirStructure t base = (.ok (), t') ∧ TreeOk t' ∧
      ∀ q, t'.look q = if Needed (packageDirs.map (· ++ base)) q then some .dir else t.look q :=
  makeAll_ok h (by
    intro p hp
    obtain ⟨p', hp', rfl⟩ := List.mem_map.1 hp
    exact hb p' hp')

/-- **C76** When a file is in the way, it raises OSError; files and directories that were there are unchanged, and nothing has been added but
directories that are needed. -/
theorem C76_blocked {t : FTree} (h : TreeOk t) {base p : FPath} (hp : p ∈ packageDirs) (hb : Blocked t (p ++ base)) :
    ∃ t', makeDirStructure t base = (.error .osError, t') ∧ TreeOk t' ∧
      ∀ q, t'.look q = t.look q ∨ (Needed (packageDirs.map (· ++ base)) q ∧ t.look q = none ∧ t'.look q = some .dir) :=
  makeAll_err h ⟨_, List.mem_map.2 ⟨p, hp, rfl⟩, hb⟩

theorem makeAll_there {ps : List FPath} {t : FTree} (h : ∀ p ∈ ps, t.look p = some .dir) : makeAll t ps = (.ok (), t) := by
  induction ps with
  | nil => rfl
  | cons p ps ih =>
    have hp := h p List.mem_cons_self
    have : maybeMakedir t p = .ok t := by unfold maybeMakedir FTree.has FTree.isDir; rw [hp]; rfl
    rw [makeAll, this]
    exact ih fun p hp => h p (List.mem_cons_of_mem _ hp)

/-- **C76** A second call does nothing. -/
theorem C76_again {t t' : FTree} (h : TreeOk t) {base : FPath} (hm : makeDirStructure t base = (.ok (), t')) :
    makeDirStructure t' base = (.ok (), t') := by
  refine makeAll_there fun p hp => ?_
  by_cases hb : ∃ p ∈ packageDirs, Blocked t (p ++ base)
  · obtain ⟨p, h1, h2⟩ := hb
    obtain ⟨t1, e, -⟩ := C76_blocked h h1 h2
    rw [e] at hm; cases hm
  · obtain ⟨t1, e1, -, e3⟩ := C76_made h (base := base) fun p hp hbl => hb ⟨p, hp, hbl⟩
    rw [e1] at hm; cases hm
    rw [e3, if_pos ⟨p, hp, List.suffix_refl _⟩]

/-! ## ensure_dir -/

/-- **C77** For a path that does not exist yet, `ensure_dir` makes it and what is missing above it, and changes nothing else; with a file above the path it raises OSError and
changes nothing. A directory is left as it is; so is everything for the empty path. -/
theorem C77_ensure_partial {t : FTree} (h : TreeOk t) (p : FPath) (hf : ∀ b, t.look p ≠ some (.file b)) :
    (Blocked t p → ensureDir t (some p) = .error .osError) ∧
    (¬ Blocked t p → ∃ t', ensureDir t (some p) = .ok t' ∧ TreeOk t' ∧ (∀ q, t'.look q = if q <:+ p then some .dir else t.look q) ∧
      ensureDir t' (some p) = .ok t') ∧ ensureDir t none = .ok t := by
  have again : ∀ {t' : FTree}, t'.look p = some .dir → ensureDir t' (some p) = .ok t' := by
    intro t' hl
    unfold ensureDir FTree.has
    dsimp only
    rw [hl]
    rfl
  cases hl : t.look p with
  | none =>
    have e : ensureDir t (some p) = makedirs t p := by unfold ensureDir FTree.has; dsimp only; rw [hl]; rfl
    rw [e]
    obtain ⟨h1, h2⟩ := makedirs_spec h hl
    refine ⟨h1, fun hb => ?_, rfl⟩
    obtain ⟨t', e1, e2, e3⟩ := h2 hb
    exact ⟨t', e1, e2, e3, again (by rw [e3, if_pos (List.suffix_refl _)])⟩
  | some v =>
    cases v with
    | file b => exact absurd hl (hf b)
    | dir =>
      have hd : ∀ q, q <:+ p → t.look q = some .dir := fun q hq =>
        (dir_above h (by rw [hl]; simp) hq).elim (fun e => e ▸ hl) id
      refine ⟨?_, fun _ => ⟨t, again hl, h, fun q => ?_, again hl⟩, rfl⟩
      · rintro ⟨q, b, h1, h2⟩
        rw [hd q h1] at h2
        cases h2
      · by_cases e : q <:+ p
        · rw [if_pos e, hd q e]
        · rw [if_neg e]

/-! ## walk_up -/

theorem listdir_mem {t : FTree} (h : TreeOk t) {p : FPath} {names : List Str} (hn : t.listdir p = .ok names) :
    names.Nodup ∧ ∀ n, n ∈ names ↔ t.look (n :: p) ≠ none := by
  unfold FTree.listdir at hn
  split at hn
  · cases hn
    constructor
    · have key : ∀ l : FTree, (l.map (·.1)).Nodup → (l.filterMap fun e => match e.1 with
          | n :: q => if q = p then some n else none
          | [] => none).Nodup := by
        intro l
        induction l with
        | nil => intro _; exact List.nodup_nil
        | cons e l ih =>
          intro hl
          rw [List.map_cons, List.nodup_cons] at hl
          rw [List.filterMap_cons]
          obtain ⟨q, v⟩ := e
          cases q with
          | nil => exact ih hl.2
          | cons n q =>
            dsimp only
            by_cases e : q = p
            · rw [if_pos e]
              dsimp only
              refine List.nodup_cons.2 ⟨?_, ih hl.2⟩
              intro hm
              obtain ⟨⟨q', v'⟩, h1, h2⟩ := List.mem_filterMap.1 hm
              cases q' with
              | nil => cases h2
              | cons n' q' =>
                dsimp only at h2
                split at h2
                · next e' =>
                  cases h2
                  exact hl.1 (List.mem_map.2 ⟨_, h1, by rw [e, e']⟩)
                · cases h2
            · rw [if_neg e]; exact ih hl.2
      exact key t h.once
    · intro n
      rw [List.mem_filterMap]
      constructor
      · rintro ⟨⟨q, v⟩, h1, h2⟩
        cases q with
        | nil => cases h2
        | cons n' q =>
          dsimp only at h2
          split at h2
          · next e =>
            cases h2
            rw [← e, look_of_mem h h1]
            simp
          · cases h2
      · intro hl
        cases hv : t.look (n :: p) with
        | none => exact absurd hv hl
        | some v => exact ⟨_, mem_of_look hv, by simp⟩
  · cases hn

/-- What is listed for a directory: the names of its directories and its files, each once. -/
structure _root_.Spec.Lists (t : FTree) (i : WalkItem) : Prop where
  dirs : ∀ n, n ∈ i.2.1 ↔ t.look (n :: i.1) = some .dir
  files : ∀ n, n ∈ i.2.2 ↔ ∃ b, t.look (n :: i.1) = some (.file b)
  once : i.2.1.Nodup ∧ i.2.2.Nodup

theorem walkItem_ok {t : FTree} (h : TreeOk t) {p : FPath} (hp : t.look p = some .dir) : ∃ i, walkItem t p = .ok i ∧ i.1 = p ∧ Lists t i := by
  have hl : ∃ names, t.listdir p = .ok names := by
    unfold FTree.listdir FTree.isDir
    rw [hp, if_pos (by simp)]
    exact ⟨_, rfl⟩
  obtain ⟨names, hl⟩ := hl
  obtain ⟨h1, h2⟩ := listdir_mem h hl
  refine ⟨(p, names.filter fun n => t.isDir (n :: p), names.filter fun n => !t.isDir (n :: p)), ?_, rfl, ?_, ?_, h1.filter _, h1.filter _⟩
  · unfold walkItem
    rw [hl]
    rfl
  · intro n
    dsimp only
    rw [List.mem_filter, h2]
    unfold FTree.isDir
    rw [decide_eq_true_eq]
    exact ⟨fun h => h.2, fun h => ⟨by rw [h]; simp, h⟩⟩
  · intro n
    dsimp only
    rw [List.mem_filter, h2]
    unfold FTree.isDir
    cases t.look (n :: p) with
    | none => simp
    | some v => cases v <;> simp

/-- **C78** From a directory, `walk_up` visits it and every directory above it, once each, up to the root, and lists what is in them: the item number `k` is for the path without its last `k` names. -/
theorem C78_visits {t : FTree} (h : TreeOk t) : ∀ {p : FPath}, t.look p = some .dir →
    ∃ l, walkUp t p = (l, none) ∧ l.map (·.1) = (List.range (p.length + 1)).map p.drop ∧ ∀ i ∈ l, Lists t i := by
  intro p
  induction p with
  | nil =>
    intro hp
    obtain ⟨i, e1, e2, e3⟩ := walkItem_ok h hp
    refine ⟨[i], by rw [walkUp, e1], by rw [List.map_cons, e2]; rfl, ?_⟩
    intro j hj
    rw [List.mem_singleton.1 hj]
    exact e3
  | cons n p ih =>
    intro hp
    obtain ⟨i, e1, e2, e3⟩ := walkItem_ok h hp
    obtain ⟨l, g1, g2, g3⟩ := ih (h.below n p (by rw [hp]; simp))
    refine ⟨i :: l, by rw [walkUp, e1, g1], by rw [List.map_cons, e2, g2, List.length_cons, List.range_succ_eq_map (n := p.length + 1), List.map_cons, List.map_map]; rfl, ?_⟩
    intro j hj
    rcases List.mem_cons.1 hj with rfl | hj
    · exact e3
    · exact g3 j hj

/-- **C78** From anything but a directory it raises OSError before it yields anything. -/
theorem C78_refuses {t : FTree} {p : FPath} (hp : t.look p ≠ some .dir) : walkUp t p = ([], some .osError) := by
  have hl : walkItem t p = .error .osError := by
    unfold walkItem FTree.listdir FTree.isDir
    rw [decide_eq_false hp, if_neg (by simp)]
    rfl
  cases p with
  | nil => rw [walkUp, hl]
  | cons n p => rw [walkUp, hl]

/-! ## md5_file -/

/-- Feeding pieces is feeding the whole, as `hashlib` documents for `update`. -/
structure _root_.Spec.Streams {δ : Type} (H : Hasher δ) : Prop where
  nothing : ∀ m, H.update m [] = m
  pieces : ∀ m a b, H.update (H.update m a) b = H.update m (a ++ b)

theorem hashLoop_all {δ : Type} {H : Hasher δ} (hs : Streams H) {n : Nat} (hn : 0 < n) : ∀ (fuel : Nat) (m : H.state) (rest : Bytes), rest.length < fuel →
    hashLoop H n fuel m rest = H.update m rest := by
  intro fuel
  induction fuel with
  | zero => intro m rest h; omega
  | succ fuel ih =>
    intro m rest h
    rw [hashLoop]
    by_cases e : rest.take n = []
    · rw [if_pos e]
      have : rest = [] := by
        rcases List.take_eq_nil_iff.1 e with e | e
        · omega
        · exact e
      rw [this, hs.nothing]
    · rw [if_neg e, ih, hs.pieces, List.take_append_drop]
      rw [List.length_drop]
      have : rest ≠ [] := fun h => e (by rw [h, List.take_nil])
      have := List.length_pos_iff.2 this
      omega

/-- **C79** For a file, `md5_file` gives the hash of all its bytes, however many there are; for a directory and for a path that leads nowhere
it gives None, unless the path goes through a file. -/
theorem C79_digest_partial {δ : Type} {H : Hasher δ} (hs : Streams H) (t : FTree) (p : FPath) :
    (∀ b, t.look p = some (.file b) → md5File H t p = .ok (some (H.digest (H.update H.start b)))) ∧
    (t.look p = some .dir → md5File H t p = .ok none) ∧
    (t.look p = none → (∀ q b, q <:+ p → t.look q ≠ some (.file b)) → md5File H t p = .ok none) := by
  refine ⟨?_, ?_, ?_⟩
  · intro b hb
    unfold md5File FTree.openFile
    rw [hb]
    dsimp only
    rw [hashLoop_all hs (by omega) _ _ _ (Nat.lt_succ_self _)]
  · intro hp
    unfold md5File FTree.openFile
    rw [hp]
  · intro hp hq
    have : ∀ r : FPath, r <:+ p → t.throughFile r = false := by
      intro r
      induction r with
      | nil => intro _; rfl
      | cons m r ih =>
        intro hr
        have hr' := (List.suffix_cons m r).trans hr
        rw [FTree.throughFile, ih hr']
        cases hl : t.look r with
        | none => rfl
        | some v =>
          cases v with
          | dir => rfl
          | file b => exact absurd hl (hq r b hr')
    unfold md5File FTree.openFile
    rw [hp, this p (List.suffix_refl _)]
    rfl

/-! ## Examples and witnesses -/

/-- `/a`, a directory with the file `/a/f` and the directory `/a/b`. -/
def exTree : FTree := [([py!"a"], .dir), ([py!"f", py!"a"], .file [1, 2]), ([py!"b", py!"a"], .dir)]

theorem treeOk_of {t : FTree} (h1 : ∀ e ∈ t, t.look e.1.tail = some .dir) (h2 : (t.map (·.1)).Nodup) (h3 : [] ∉ t.map (·.1)) : TreeOk t := by
  refine ⟨?_, h2, h3⟩
  intro n p hp
  cases hv : t.look (n :: p) with
  | none => exact absurd hv hp
  | some v => exact h1 _ (mem_of_look hv)

theorem exTree_ok : TreeOk exTree := treeOk_of (by decide) (by decide) (by decide)

theorem free_of {t : FTree} {p : FPath} (h : ∀ q ∈ (List.range (p.length + 1)).map p.drop, (match t.look q with | some (.file _) => false | _ => true) = true) : ¬ Blocked t p := by
  rintro ⟨q, b, h1, h2⟩
  have := h q (List.mem_map.2 ⟨p.length - q.length, List.mem_range.2 (by omega), (List.suffix_iff_eq_drop.1 h1).symm⟩)
  rw [h2] at this
  cases this

example : ∃ t', makeDirStructure exTree [py!"b", py!"a"] = (.ok (), t') ∧ t'.look [py!"old", py!"_metapack", py!"b", py!"a"] = some .dir ∧
    t'.look [py!"f", py!"a"] = some (.file [1, 2]) ∧ makeDirStructure t' [py!"b", py!"a"] = (.ok (), t') := by
  obtain ⟨t', h1, -, h3⟩ := C76_made exTree_ok (base := [py!"b", py!"a"]) (by
    intro p hp
    refine free_of ?_
    revert p
    decide)
  exact ⟨t', h1, by rw [h3]; decide, by rw [h3]; decide, C76_again exTree_ok h1⟩

example : ∃ t', makeDirStructure exTree [py!"f", py!"a"] = (.error .osError, t') := by
  obtain ⟨t', h1, -⟩ := C76_blocked exTree_ok (base := [py!"f", py!"a"]) (p := [py!"old", py!"_metapack"]) (by decide)
    ⟨[py!"f", py!"a"], [1, 2], ⟨_, rfl⟩, by decide⟩
  exact ⟨t', h1⟩

example : ∃ t', ensureDir exTree (some [py!"d", py!"c", py!"b", py!"a"]) = .ok t' ∧ t'.look [py!"c", py!"b", py!"a"] = some .dir := by
  obtain ⟨t', h1, -, h3, -⟩ := (C77_ensure_partial exTree_ok [py!"d", py!"c", py!"b", py!"a"] (fun b h => by cases h)).2.1 (free_of (by decide))
  exact ⟨t', h1, by rw [h3]; decide⟩

/-- **C77** is false when the path is a file: `ensure_dir` returns and there is no directory. -/
theorem C77_file_witness : ensureDir exTree (some [py!"f", py!"a"]) = .ok exTree ∧ exTree.look [py!"f", py!"a"] = some (.file [1, 2]) := by
  decide

example : walkUp exTree [py!"b", py!"a"] = ([([py!"b", py!"a"], [], []), ([py!"a"], [py!"b"], [py!"f"]), ([], [py!"a"], [])], none) := by decide
example : ∃ l, walkUp exTree [py!"b", py!"a"] = (l, none) ∧ l.map (·.1) = [[py!"b", py!"a"], [py!"a"], []] := by
  obtain ⟨l, h1, h2, -⟩ := C78_visits exTree_ok (p := [py!"b", py!"a"]) (by decide)
  exact ⟨l, h1, h2⟩

/-- A hash function that keeps everything. -/
def keepAll : Hasher Bytes := ⟨Bytes, [], fun m b => m ++ b, id⟩

theorem keepAll_streams : Streams keepAll := ⟨fun m => List.append_nil m, fun m a b => List.append_assoc m a b⟩

example : md5File keepAll exTree [py!"f", py!"a"] = .ok (some [1, 2]) := (C79_digest_partial keepAll_streams exTree _).1 _ (by decide)

/-- **C79** is false for a path that goes through a file: NotADirectoryError is not caught. -/
theorem C79_through_witness : exTree.look [py!"x", py!"f", py!"a"] = none ∧ md5File keepAll exTree [py!"x", py!"f", py!"a"] = .error .osError :=
  ⟨by decide, rfl⟩

end Metatab
