import Verif.Model.DocItem
import Verif.Props.Agree
import Verif.Lemmas.Reach
/-! # C81: looking up and listing the sections of a document -/
namespace Metatab
open Py _root_.Spec

/-- C81. Membership, item access and `get_section` with a default agree for every name in any letter case. -/
theorem C81_agree (s : St) {n m : Str} (h : lower n = lower m) :
    (docContains s n = true ↔ ∃ x, getSection s m = .ok x) ∧ (∀ x, getSection s n = .ok x ↔ getSectionOr s m = some x) ∧
      (∀ e, getSection s n = .error e ↔ e = .keyError ∧ docContains s m = false) := by
  unfold docContains getSection getSectionOr
  rw [h]
  unfold Dict.has
  cases s.sections.get? (lower m) <;> simp [eq_comm]

/-- C81. Indexing with a list of names gives their sections in that order. -/
theorem C81_list (s : St) (names : List Str) (xs : List Nat) :
    docItems s names = .ok xs ↔ List.Forall₂ (fun n x => getSection s n = .ok x) names xs := by
  induction names generalizing xs with
  | nil => simp [docItems, eq_comm]
  | cons n ns ih =>
    rw [docItems, List.forall₂_cons_left_iff]
    cases hg : getSection s n with
    | error e => simp [bind, Except.bind]
    | ok x =>
      cases hi : docItems s ns with
      | error e =>
        have : ∀ zs, ¬ List.Forall₂ (fun n x => getSection s n = .ok x) ns zs := fun zs hz => by
          have := (ih zs).2 hz; rw [hi] at this; cases this
        simp [bind, Except.bind, this]
      | ok ys =>
        have : ∀ zs, List.Forall₂ (fun n x => getSection s n = .ok x) ns zs ↔ ys = zs := fun zs => by
          rw [← ih zs, hi]; simp
        simp only [bind, Except.bind, pure, Except.pure, this, Except.ok.injEq]
        constructor
        · rintro rfl; exact ⟨_, _, rfl, rfl, rfl⟩
        · rintro ⟨_, _, rfl, rfl, rfl⟩; rfl

/-- C81. One absent name makes the whole lookup raise `KeyError`; nothing else raises. -/
theorem C81_absent (s : St) (names : List Str) (e : Err) :
    docItems s names = .error e ↔ e = .keyError ∧ ∃ n ∈ names, docContains s n = false := by
  induction names with
  | nil => simp [docItems]
  | cons n ns ih =>
    rw [docItems]
    have ha := (C81_agree s (n := n) (m := n) rfl)
    cases hg : getSection s n with
    | error e' =>
      obtain ⟨rfl, hc⟩ := (ha.2.2 e').1 hg
      simp only [bind, Except.bind, Except.error.injEq]
      exact ⟨fun e => ⟨e.symm, n, List.mem_cons_self, hc⟩, fun e => e.1.symm⟩
    | ok x =>
      have hc : docContains s n = true := ha.1.2 ⟨x, hg⟩
      cases hi : docItems s ns with
      | error e' =>
        rw [hi] at ih
        simp only [bind, Except.bind, List.mem_cons, exists_eq_or_imp, hc, Bool.true_eq_false, false_or]
        exact ih
      | ok ys =>
        rw [hi] at ih
        simp only [reduceCtorEq, false_iff] at ih
        simp only [bind, Except.bind, pure, Except.pure, reduceCtorEq, false_iff, List.mem_cons, exists_eq_or_imp, hc, Bool.true_eq_false, false_or]
        exact ih

/-- C81. In every reachable document, iterating gives the sections that indexing with the keys of the table gives, in order; every
section that can be looked up is met, and every section met can be looked up. -/
theorem C81_iter {s : St} (h : Reach (fun _ => True) s) :
    docItems s s.sections.keys = .ok (docIter s) ∧ (∀ x, x ∈ docIter s ↔ ∃ n, getSection s n = .ok x) := by
  have w : WF False s := h.wf fun f => f.elim
  have key : ∀ kv ∈ s.sections, getSection s kv.1 = .ok kv.2 := by
    intro kv hkv
    unfold getSection
    rw [(w.secsLt kv hkv).2.2, Dict.get?_of_mem w.secsNodup hkv]
  refine ⟨?_, fun x => ⟨?_, ?_⟩⟩
  · rw [C81_list]
    unfold docIter Dict.keys
    rw [List.forall₂_map_left_iff, List.forall₂_map_right_iff, List.forall₂_same]
    exact key
  · intro hx
    obtain ⟨kv, hkv, rfl⟩ := List.mem_map.1 hx
    exact ⟨kv.1, key kv hkv⟩
  · rintro ⟨n, hn⟩
    unfold getSection at hn
    cases hg : s.sections.get? (lower n) with
    | none => rw [hg] at hn; cases hn
    | some y =>
      rw [hg] at hn; cases hn
      exact List.mem_map.2 ⟨_, Dict.mem_of_get? hg, rfl⟩

/-- C81, partial: after an orderly history, iteration meets no section twice, and every section is found under its own name. Missing are
the calls that break it, such as giving a section another value, see `C81_name_witness`. -/
theorem C81_name_partial {s : St} (h : OrderlyHistory s) :
    (docIter s).Nodup ∧ ∀ x ∈ docIter s, ∃ n, (s.heap x).value = .str n ∧ getSection s n = .ok x := by
  have w := orderly_inv h
  have own : ∀ kv ∈ s.sections, ∃ n, (s.heap kv.2).value = .str n ∧ lower n = kv.1 := fun kv hkv =>
    (w.secOk _ _ (Dict.get?_of_mem w.keysNodup hkv)).2.2
  constructor
  · have hk := w.keysNodup
    unfold docIter
    unfold Dict.keys at hk
    rw [List.nodup_map_iff_inj_on (List.Nodup.of_map _ hk)]
    intro a ha b hb e
    obtain ⟨n, hn, e1⟩ := own a ha
    obtain ⟨m, hm, e2⟩ := own b hb
    rw [e, hm] at hn
    cases hn
    exact Prod.ext (e1.symm.trans e2) e
  · intro x hx
    obtain ⟨kv, hkv, rfl⟩ := List.mem_map.1 hx
    obtain ⟨n, hn, e⟩ := own kv hkv
    refine ⟨n, hn, ?_⟩
    unfold getSection
    rw [e, Dict.get?_of_mem w.keysNodup hkv]

/-- C81 fails after `section.value = other`: the section stays under the old name. -/
theorem C81_name_witness : ∃ s, Reach (fun _ => True) s ∧ (s.heap 2).value = .str (py!"People") ∧ 2 ∈ docIter s ∧
    getSection s (py!"People") = .error .keyError ∧ getSection s (py!"Contacts") = .ok 2 :=
  ⟨after (Op.setValue 2 (.str (py!"People"))).run agDoc,
    .step (.setValue 2 (.str (py!"People"))) (exParse_reach _ trivial) trivial (show 2 < agDoc.next by decide +kernel), by decide +kernel⟩

/-- The hypotheses are met. -/
example : docIter ag6 = [7, 0, 2] ∧ docItems ag6 [py!"Contacts", py!"NOTES"] = .ok [2, 7] ∧
    docItems ag6 [py!"Contacts", py!"Schema"] = .error .keyError := by decide +kernel

end Metatab
