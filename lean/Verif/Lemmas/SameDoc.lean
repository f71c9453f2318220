import Verif.Lemmas.Reader
import Verif.Spec.SameDoc
/-! Two states holding the same document of the reference reader are the same document. -/
namespace Metatab
open Py Spec

theorem mem_pick {nodes : List Node} {ids : List Nat} {f : Node → Bool} {t : Nat} (h : t ∈ pick nodes ids f) : t ∈ ids := by
  unfold pick at h
  obtain ⟨nt, hm, rfl⟩ := List.mem_map.1 h
  exact zip_mem_right (List.mem_of_mem_filter (show (nt.1, nt.2) ∈ _ from hm))

theorem pick_map {nodes : List Node} {ids : List Nat} (f : Node → Bool) (g : Nat → Nat) :
    pick nodes (ids.map g) f = (pick nodes ids f).map g := by
  unfold pick
  rw [List.zip_map_right, List.filter_map, List.map_map, List.map_map]
  rfl

theorem inDoc_mem {s : St} {a : Reader} {ids : List Nat} (h : Holds s a ids) {t : Nat} (ht : InDoc s t) : t ∈ ids := by
  induction ht with
  | top hm => rw [h.terms] at hm; exact mem_pick hm
  | listed hk hm => rw [h.sectionTerms _ _ hk] at hm; exact mem_pick hm
  | root hm => rw [h.rootChildren] at hm; exact mem_pick hm
  | child _ hm ih =>
    obtain ⟨i, hi, rfl⟩ := List.getElem_of_mem ih
    have := h.children i hi
    rw [ref_some hi] at this
    rw [this] at hm
    exact mem_pick hm

/-- The renaming of objects. -/
def rename (s s' : St) (ids ids' : List Nat) (t : Nat) : Nat := if t = s.root then s'.root else ids'.getD (ids.idxOf t) s'.root

theorem rename_get {s s' : St} {a : Reader} {ids ids' : List Nat} (h : Holds s a ids) (hr : (s.heap s.root).cls.isSection = true)
    (hl : ids'.length = ids.length) {i : Nat} (hi : i < ids.length) : rename s s' ids ids' ids[i] = ids'[i]'(by omega) := by
  unfold rename
  have hne : ids[i] ≠ s.root := by
    intro e
    have := (h.exist _ (List.getElem_mem hi)).2
    rw [e, hr] at this; cases this
  have hnd : ids.Nodup := h.distinct.imp fun hlt => Nat.ne_of_lt hlt
  rw [if_neg hne, hnd.idxOf_getElem]
  simp [hl, hi]

theorem rename_map {s s' : St} {a : Reader} {ids ids' : List Nat} (h : Holds s a ids) (hr : (s.heap s.root).cls.isSection = true)
    (hl : ids'.length = ids.length) : ids.map (rename s s' ids ids') = ids' := by
  refine List.ext_getElem (by simp [hl]) ?_
  intro i h1 h2
  rw [List.getElem_map, rename_get h hr hl]

theorem rename_ref {s s' : St} {a : Reader} {ids ids' : List Nat} (h : Holds s a ids) (hr : (s.heap s.root).cls.isSection = true)
    (hl : ids'.length = ids.length) {i : Option Nat} (hi : RefOk ids.length i) :
    rename s s' ids ids' (ref s ids i) = ref s' ids' i := by
  cases i with
  | none => unfold rename; exact if_pos rfl
  | some i =>
    have hi : i < ids.length := hi
    rw [ref_some hi, ref_some (by omega), rename_get h hr hl]

/-- Documents described by the same reader are the same. -/
theorem sameDoc_of_holds {s s' : St} {a a' : Reader} {ids ids' : List Nat} (h : Holds s a ids) (h' : Holds s' a' ids')
    (hr : (s.heap s.root).cls.isSection = true) (hr' : (s'.heap s'.root).cls.isSection = true)
    (hn : a'.nodes = a.nodes) (hs : a'.secs = a.secs) (hok : ∀ n ∈ a.nodes, RefOk ids.length n.parent) : SameDoc s s' := by
  have hl : ids'.length = ids.length := by rw [h.count, h'.count, hn]
  obtain ⟨f, hf⟩ : ∃ f, f = rename s s' ids ids' := ⟨_, rfl⟩
  have hmap : ids' = ids.map f := by rw [hf]; exact (rename_map h hr hl).symm
  have href : ∀ i, RefOk ids.length i → f (ref s ids i) = ref s' ids' i := by
    intro i hi; rw [hf]; exact rename_ref h hr hl hi
  have hpick : ∀ g, pick a'.nodes ids' g = (pick a.nodes ids g).map f := by
    intro g; rw [hn, hmap, pick_map]
  have hnode : ∀ t, InDoc s t → ∃ n i, ∃ hi : i < ids.length, ∃ hi' : i < ids'.length, t = ids[i] ∧ f t = ids'[i] ∧
      (n, t) ∈ a.nodes.zip ids ∧ (n, f t) ∈ a'.nodes.zip ids' := by
    intro t ht
    obtain ⟨i, hi, rfl⟩ := List.getElem_of_mem (inDoc_mem h ht)
    have hin : i < a.nodes.length := by rw [← h.count]; exact hi
    have hi' : i < ids'.length := by omega
    have e : f ids[i] = ids'[i] := by rw [hf]; exact rename_get h hr hl hi
    refine ⟨a.nodes[i], i, hi, hi', rfl, e, ?_, ?_⟩
    · rw [List.mem_iff_getElem]
      exact ⟨i, by rw [List.length_zip]; omega, by simp⟩
    · rw [e, hn, List.mem_iff_getElem]
      exact ⟨i, by rw [List.length_zip]; omega, by simp⟩
  refine ⟨f, ?_, ?_, ?_, ?_, ?_, ?_, ?_, ?_, ?_, ?_, ?_, ?_⟩
  · exact href none trivial
  · intro t u ht hu e
    obtain ⟨-, i, hi, hi', rfl, e1, -, -⟩ := hnode t ht
    obtain ⟨-, j, hj, hj', rfl, e2, -, -⟩ := hnode u hu
    rw [e1, e2] at e
    have hnd : ids'.Nodup := h'.distinct.imp fun hlt => Nat.ne_of_lt hlt
    have : i = j := (List.Nodup.getElem_inj_iff hnd).1 e
    subst this; rfl
  · intro t ht e
    obtain ⟨-, i, hi, hi', rfl, e1, -, -⟩ := hnode t ht
    have := (h'.exist _ (List.getElem_mem hi')).2
    rw [← e1, e, hr'] at this; cases this
  · intro t ht
    obtain ⟨n, i, hi, hi', -, -, m1, m2⟩ := hnode t ht
    obtain ⟨a1, a2, a3, a4, a5, -, -⟩ := h.term _ _ m1
    obtain ⟨b1, b2, b3, b4, b5, -, -⟩ := h'.term _ _ m2
    exact ⟨b1.trans a1.symm, b2.trans a2.symm, b3.trans a3.symm, b4.trans a4.symm, b5.trans a5.symm⟩
  · intro t ht
    obtain ⟨n, i, hi, hi', -, -, m1, m2⟩ := hnode t ht
    obtain ⟨-, -, -, -, -, a6, -⟩ := h.term _ _ m1
    obtain ⟨-, -, -, -, -, b6, -⟩ := h'.term _ _ m2
    rw [a6, b6, Option.map_some, href _ (hok n (List.of_mem_zip m1).1)]
  · intro t ht
    obtain ⟨n, i, hi, hi', e1, e2, -, -⟩ := hnode t ht
    rw [e2, e1, ← ref_some (s := s') hi', ← ref_some (s := s) hi, h'.children i hi', h.children i hi]
    exact hpick _
  · rw [h'.rootChildren, h.rootChildren]; exact hpick _
  · rw [h'.terms, h.terms]; exact hpick _
  · rw [h'.sections, h.sections, hs]
  · intro k x x' hx hx'
    obtain ⟨n, v, c⟩ := h.columns _ _ hx
    obtain ⟨n', v', c'⟩ := h'.columns _ _ hx'
    rw [hs, c] at c'
    simp only [Option.some.injEq, Prod.mk.injEq] at c'
    rw [v, v', c'.1, c'.2]
    exact ⟨rfl, rfl⟩
  · intro k x x' hx hx'
    rw [h.sectionTerms _ _ hx, h'.sectionTerms _ _ hx']; exact hpick _
  · intro t ht
    obtain ⟨n, i, hi, hi', -, -, m1, m2⟩ := hnode t ht
    obtain ⟨-, -, -, -, -, -, a7⟩ := h.term _ _ m1
    obtain ⟨-, -, -, -, -, -, b7⟩ := h'.term _ _ m2
    exact ⟨n.sec, a7, b7⟩

/-- A file of ordinary rows is read as the reference reader says. -/
theorem plain_holds {env : Env} {classes : Dict Cls} (hcl : PlainClasses classes) {rows : List (List Str)} (h : plainFile rows = true)
    (files : Files) (fuel : Nat) (path : Str) :
    ∃ s ids, parseRows files (fuel + 1) path rows (newDoc env classes) = .ok () s ∧ Holds s (readAll rows) ids ∧
      (s.heap s.root).cls.isSection = true ∧ ∀ n ∈ (readAll rows).nodes, RefOk ids.length n.parent := by
  obtain ⟨s', h'⟩ := plainFile_rows (env := env) hcl h
  have i0 := pinv_new (F := True) (env := env) hcl
  obtain ⟨ids, hs⟩ := sim_rows i0 (sim_start env classes) h' h
  exact ⟨_, ids, parse_plain hcl h' files fuel path, holds_finish hs.toHolds, (h'.inv i0).wf.rootSec, hs.nodesOk⟩

/-- Files the reference reader reads alike give the same document. -/
theorem plain_same {env : Env} {classes : Dict Cls} (hcl : PlainClasses classes) {rows rows' : List (List Str)}
    (h : plainFile rows = true) (h' : plainFile rows' = true) (hn : (readAll rows').nodes = (readAll rows).nodes)
    (hs : (readAll rows').secs = (readAll rows).secs) (files : Files) (fuel : Nat) (path : Str) :
    ∃ s s', parseRows files (fuel + 1) path rows (newDoc env classes) = .ok () s ∧
      parseRows files (fuel + 1) path rows' (newDoc env classes) = .ok () s' ∧ SameDoc s s' := by
  obtain ⟨s, ids, e, hh, hr, hok⟩ := plain_holds (env := env) hcl h files fuel path
  obtain ⟨s', ids', e', hh', hr', -⟩ := plain_holds (env := env) hcl h' files fuel path
  exact ⟨s, s', e, e', sameDoc_of_holds hh hh' hr hr' hn hs hok⟩

end Metatab
