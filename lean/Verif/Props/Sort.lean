import Verif.Lemmas.Monad
import Verif.Lemmas.Dict
import Verif.Lemmas.Order
import Verif.Spec.Sort
import Verif.Props.Names
/-! # C21: sorting the terms of a section. C22: sorting the sections. -/
namespace Metatab
open Py Spec

/-- **C21** Sorting without an order list: it never raises, changes only the term list of the section, and the new list is the old one
rearranged, sorted by qualified name, equal names keeping their order. -/
theorem C21_alphabetical (s : St) (x : Nat) :
    ∃ l, sortByTerm x none s = .ok () (s.setObj x { s.heap x with terms := l }) ∧
      l.Perm (s.heap x).terms ∧
      l.Pairwise (fun a b => strLe (s.heap a).joinLc (s.heap b).joinLc = true) ∧
      ∀ n, l.filter (fun t => (s.heap t).joinLc = n) = (s.heap x).terms.filter fun t => (s.heap t).joinLc = n := by
  refine ⟨sortByName s.heap (s.heap x).terms, by simp [sortByTerm], sortBy_perm _ _, ?_, ?_⟩
  · exact sortBy_sorted (fun t => (s.heap t).joinLc) _
  · intro n; exact sortBy_stable (fun t => (s.heap t).joinLc) _ n

/-- One pass over the remaining terms splits them into the matching ones and the others. -/
theorem takeMatching_eq (h : Nat → Obj) {q : Str × Str} (hq : PlainPart q.1 ∧ PlainPart q.2) (l : List Nat) :
    takeMatching h (dotJoin q.1 q.2) l =
      .ok (l.filter (fun t => NameMatches q (h t).pt (h t).rt), l.filter fun t => ¬ NameMatches q (h t).pt (h t).rt) := by
  induction l with
  | nil => rfl
  | cons t l ih =>
    have e : termIs (h t).pt (h t).rt (dotJoin q.1 q.2) = .ok (decide (NameMatches q (h t).pt (h t).rt)) :=
      C02_qualified (h t).pt (h t).rt hq.1 hq.2
    simp only [takeMatching, e, ih, bind, Except.bind, pure, Except.pure, List.filter_cons]
    by_cases hm : NameMatches q (h t).pt (h t).rt <;> simp [hm]

/-- The terms of rank 0 are those that match the first pattern. -/
theorem orderedTerms_spec (h : Nat → Obj) {qs : List (Str × Str)} (hq : ∀ q ∈ qs, PlainPart q.1 ∧ PlainPart q.2) (l : List Nat) :
    ∃ out, orderedTerms h (qs.map fun q => dotJoin q.1 q.2) l = .ok out ∧ out.Perm l ∧
      out.Pairwise (fun a b => rank qs (h a).pt (h a).rt ≤ rank qs (h b).pt (h b).rt) ∧
      (∀ k < qs.length, out.filter (fun t => rank qs (h t).pt (h t).rt = k) = l.filter fun t => rank qs (h t).pt (h t).rt = k) ∧
      out.filter (fun t => rank qs (h t).pt (h t).rt = qs.length)
        = sortByName h (l.filter fun t => rank qs (h t).pt (h t).rt = qs.length) := by
  induction qs generalizing l with
  | nil =>
    refine ⟨sortByName h l, rfl, sortBy_perm _ _, ?_, ?_, ?_⟩
    · rw [List.pairwise_iff_forall_sublist]; intro a b _; simp [rank]
    · intro k hk; simp at hk
    · simp [rank]
  | cons q qs ih =>
    obtain ⟨out, e, hp, hpw, hlt, heq⟩ :=
      ih (fun q' h' => hq q' (List.mem_cons_of_mem _ h')) (l.filter fun t => ¬ NameMatches q (h t).pt (h t).rt)
    have hq0 := hq q List.mem_cons_self
    have hout : ∀ t ∈ out, ¬ NameMatches q (h t).pt (h t).rt := by
      intro t ht
      have := hp.mem_iff.1 ht
      simpa using (List.mem_filter.1 this).2
    refine ⟨l.filter (fun t => NameMatches q (h t).pt (h t).rt) ++ out, ?_, ?_, ?_, ?_, ?_⟩
    · simp only [List.map_cons, orderedTerms, takeMatching_eq h hq0, bind, Except.bind, e, pure, Except.pure]
    · refine ((List.Perm.append_left _ hp).trans ?_)
      simp only [decide_not]
      exact List.filter_append_perm _ l
    · rw [List.pairwise_append]
      refine ⟨?_, ?_, ?_⟩
      · rw [List.pairwise_iff_forall_sublist]; intro a b hab
        have ha : a ∈ l.filter fun t => NameMatches q (h t).pt (h t).rt := hab.subset (by simp)
        have : NameMatches q (h a).pt (h a).rt := by simpa using (List.mem_filter.1 ha).2
        simp [rank, this]
      · refine hpw.imp_of_mem ?_
        intro a b ha hb hab
        simp only [rank, hout a ha, hout b hb, if_false]; omega
      · intro a ha b hb
        have : NameMatches q (h a).pt (h a).rt := by simpa using (List.mem_filter.1 ha).2
        simp [rank, this]
    · intro k hk
      rw [List.filter_append, List.filter_filter]
      cases k with
      | zero =>
        have e2 : out.filter (fun t => rank (q :: qs) (h t).pt (h t).rt = 0) = [] := by
          rw [List.filter_eq_nil_iff]; intro t ht; simp [rank, hout t ht]
        rw [e2, List.append_nil]
        apply List.filter_congr; intro t _
        by_cases hm : NameMatches q (h t).pt (h t).rt <;> simp [rank, hm]
      | succ k =>
        have e1 : l.filter (fun t => decide (rank (q :: qs) (h t).pt (h t).rt = k + 1)
            && decide (NameMatches q (h t).pt (h t).rt)) = [] := by
          rw [List.filter_eq_nil_iff]; intro t _
          by_cases hm : NameMatches q (h t).pt (h t).rt <;> simp [rank, hm]
        have e2 : out.filter (fun t => rank (q :: qs) (h t).pt (h t).rt = k + 1)
            = out.filter fun t => rank qs (h t).pt (h t).rt = k := by
          apply List.filter_congr; intro t ht; simp [rank, hout t ht]
        rw [e1, e2, List.nil_append, hlt k (by simpa using hk), List.filter_filter]
        apply List.filter_congr; intro t _
        by_cases hm : NameMatches q (h t).pt (h t).rt <;> simp [rank, hm]
    · rw [List.filter_append, List.filter_filter]
      have e1 : l.filter (fun t => decide (rank (q :: qs) (h t).pt (h t).rt = (q :: qs).length)
          && decide (NameMatches q (h t).pt (h t).rt)) = [] := by
        rw [List.filter_eq_nil_iff]; intro t _
        by_cases hm : NameMatches q (h t).pt (h t).rt <;> simp [rank, hm]
      have e2 : out.filter (fun t => rank (q :: qs) (h t).pt (h t).rt = (q :: qs).length)
          = out.filter fun t => rank qs (h t).pt (h t).rt = qs.length := by
        apply List.filter_congr; intro t ht; simp [rank, hout t ht]
      rw [e1, e2, List.nil_append, heq, List.filter_filter]
      congr 1
      apply List.filter_congr; intro t _
      by_cases hm : NameMatches q (h t).pt (h t).rt <;> simp [rank, hm]

/-- **C21** Sorting with an order list of qualified names (wildcards allowed): it never raises, changes only the term list of the
section and loses nothing; terms whose name matches an earlier entry come before all others, those of one entry keep their order, and
those that match no entry come last, sorted by name. -/
theorem C21_order_list (s : St) (x : Nat) {qs : List (Str × Str)} (hq : ∀ q ∈ qs, PlainPart q.1 ∧ PlainPart q.2) :
    ∃ l, sortByTerm x (some (qs.map fun q => dotJoin q.1 q.2)) s = .ok () (s.setObj x { s.heap x with terms := l }) ∧
      l.Perm (s.heap x).terms ∧
      l.Pairwise (fun a b => rank qs (s.heap a).pt (s.heap a).rt ≤ rank qs (s.heap b).pt (s.heap b).rt) ∧
      (∀ k < qs.length, l.filter (fun t => rank qs (s.heap t).pt (s.heap t).rt = k)
        = (s.heap x).terms.filter fun t => rank qs (s.heap t).pt (s.heap t).rt = k) ∧
      (l.filter fun t => rank qs (s.heap t).pt (s.heap t).rt = qs.length).Pairwise
        (fun a b => strLe (s.heap a).joinLc (s.heap b).joinLc = true) ∧
      ∀ n, (l.filter fun t => rank qs (s.heap t).pt (s.heap t).rt = qs.length).filter (fun t => (s.heap t).joinLc = n)
        = ((s.heap x).terms.filter fun t => rank qs (s.heap t).pt (s.heap t).rt = qs.length).filter
            fun t => (s.heap t).joinLc = n := by
  obtain ⟨out, e, hp, hpw, hlt, heq⟩ := orderedTerms_spec s.heap hq (s.heap x).terms
  refine ⟨out, ?_, hp, hpw, hlt, ?_, ?_⟩
  · simp [sortByTerm, e]
  · rw [heq]
    exact sortBy_sorted (fun t => (s.heap t).joinLc) _
  · intro n; rw [heq]; exact sortBy_stable (fun t => (s.heap t).joinLc) _ n

/-- **C21** A malformed name in the order list raises and leaves the section as it was. -/
theorem C21_error (s : St) (x : Nat) (order : Option (List Str)) {e : Err} {s' : St} (h : sortByTerm x order s = .err e s') :
    s' = s := by
  cases order with
  | none => simp [sortByTerm] at h
  | some ns =>
    simp only [sortByTerm, bind_run, get_run, lift_run] at h
    cases ho : orderedTerms s.heap ns (s.heap x).terms <;> rw [ho] at h <;> simp at h
    exact h.2.symm

/-- Names of a section sorted with the order list `Root.Name, *.Table`. -/
example : (do
    let h : Nat → Obj := fun i => { Obj.blank with pt := py!"root", rt := [py!"zip", py!"table", py!"author", py!"name"].getD i [] }
    orderedTerms h [py!"Root.Name", py!"*.Table"] [0, 1, 2, 3]) = .ok [3, 1, 2, 0] := by decide

theorem filterMap_filter_ne {α β : Type} [DecidableEq α] (l : List α) (f : α → Option β) {k : α} (hk : f k = none) :
    (l.filter (· ≠ k)).filterMap f = l.filterMap f := by
  induction l with
  | nil => rfl
  | cons a l ih =>
    by_cases h : a = k
    · subst h
      rw [List.filter_cons, if_neg (by simp), ih, List.filterMap_cons, hk]
    · rw [List.filter_cons, if_pos (by simpa using h), List.filterMap_cons, List.filterMap_cons, ih]

theorem update_pick {α : Type} (d acc : Dict α) (lc : List Str) (ha : ∀ k v, (k, v) ∈ acc → d.get? k = some v)
    (hn : acc.keys.Nodup) :
    Dict.update acc (lc.filterMap fun k => (d.get? k).map fun v => (k, v)) =
      acc ++ ((firsts lc).filter (· ∉ acc.keys)).filterMap fun k => (d.get? k).map fun v => (k, v) := by
  induction lc generalizing acc with
  | nil => simp [firsts, Dict.update_nil]
  | cons k lc ih =>
    cases hg : d.get? k with
    | none =>
      have hk : k ∉ acc.keys := by
        intro hk
        obtain ⟨kv, hkv, rfl⟩ := List.mem_map.1 hk
        rw [ha kv.1 kv.2 hkv] at hg; cases hg
      rw [List.filterMap_cons, hg]
      simp only [Option.map_none]
      rw [ih acc ha hn]
      congr 1
      simp only [firsts]
      rw [List.filter_cons, if_pos (by simpa using hk), List.filterMap_cons, hg]
      simp only [Option.map_none]
      rw [List.filter_filter]
      have : (firsts lc).filter (fun a => decide (a ∉ acc.keys) && decide (a ≠ k))
          = ((firsts lc).filter (fun a => decide (a ∉ acc.keys))).filter (· ≠ k) := by
        rw [List.filter_filter]; apply List.filter_congr; intro a _; exact Bool.and_comm _ _
      rw [this, filterMap_filter_ne _ _ (by rw [hg]; rfl)]
    | some v =>
      rw [List.filterMap_cons, hg]
      simp only [Option.map_some]
      rw [Dict.update_cons]
      by_cases hk : k ∈ acc.keys
      · have hgk : acc.get? k = some v := by
          obtain ⟨kv, hkv, rfl⟩ := List.mem_map.1 hk
          rw [Dict.get?_of_mem hn hkv]
          have := ha kv.1 kv.2 hkv
          rw [hg] at this; exact this.symm
        rw [Dict.set_same hgk, ih acc ha hn]
        congr 1
        simp only [firsts]
        rw [List.filter_cons, if_neg (by simpa using hk), List.filter_filter]
        congr 1
        apply List.filter_congr; intro a _
        by_cases h : a = k
        · subst h; simp [hk]
        · simp [h]
      · rw [Dict.set_append hk, ih]
        · simp only [firsts]
          rw [List.filter_cons, if_pos (by simpa using hk), List.filterMap_cons, hg]
          simp only [Option.map_some, List.append_assoc, List.singleton_append]
          rw [List.filter_filter]
          congr 3
          apply List.filter_congr; intro a _
          have e : Dict.keys (acc ++ [(k, v)]) = acc.keys ++ [k] := List.map_append
          rw [e]
          by_cases h1 : a ∈ acc.keys <;> by_cases h2 : a = k <;> simp [h1, h2]
        · intro k' v' h'
          rcases List.mem_append.1 h' with h' | h'
          · exact ha _ _ h'
          · simp at h'; obtain ⟨rfl, rfl⟩ := h'; exact hg
        · have := Dict.nodup_set hn k v
          rwa [Dict.set_append hk] at this

theorem mem_firsts {l : List Str} {k : Str} : k ∈ firsts l ↔ k ∈ l := by
  induction l with
  | nil => simp [firsts]
  | cons a l ih =>
    simp only [firsts, List.mem_cons, List.mem_filter, ih]
    by_cases h : k = a <;> simp [h]

theorem nodup_firsts (l : List Str) : (firsts l).Nodup := by
  induction l with
  | nil => simp [firsts]
  | cons a l ih =>
    simp only [firsts, List.nodup_cons]
    exact ⟨by simp, ih.filter _⟩

theorem keys_named_sub {α : Type} (d : Dict α) (l : List Str) : (named d l).keys.Sublist (firsts l) := by
  unfold named Dict.keys
  induction firsts l with
  | nil => simp
  | cons k t ih =>
    rw [List.filterMap_cons]
    cases d.get? k with
    | none => exact ih.cons k
    | some v => simpa using ih

theorem sortedSections_eq {d : Dict Nat} (hn : d.keys.Nodup) (order : List Str) :
    sortedSections d order = named d (order.map lower) ++ d.filter fun kv => kv.1 ∉ order.map lower := by
  unfold sortedSections
  have e := update_pick d [] (order.map lower) (by simp) (by simp [Dict.keys])
  simp only [List.nil_append] at e
  have e2 : (firsts (order.map lower)).filter (· ∉ Dict.keys ([] : Dict Nat)) = firsts (order.map lower) := by
    rw [List.filter_eq_self]; simp [Dict.keys]
  rw [e2] at e
  simp only [e]
  rw [Dict.update_append_fresh]
  · rfl
  · have : (Dict.keys (d.filter fun kv => kv.1 ∉ order.map lower)).Sublist d.keys := List.filter_sublist.map _
    exact this.nodup hn
  · intro k hk hk2
    obtain ⟨kv, hkv, rfl⟩ := List.mem_map.1 hk
    have h1 : kv.1 ∈ order.map lower := mem_firsts.1 ((keys_named_sub d _).subset hk2)
    have := (List.mem_filter.1 hkv).2
    simp only [decide_eq_true_eq] at this
    exact this h1

theorem mem_named {d : Dict Nat} {l : List Str} {kv : Str × Nat} : kv ∈ named d l ↔ kv.1 ∈ l ∧ d.get? kv.1 = some kv.2 := by
  unfold named
  rw [List.mem_filterMap]
  constructor
  · rintro ⟨k, hk, e⟩
    cases hg : d.get? k with
    | none => rw [hg] at e; simp at e
    | some v => rw [hg] at e; simp at e; subst e; exact ⟨mem_firsts.1 hk, hg⟩
  · rintro ⟨h1, h2⟩
    exact ⟨kv.1, mem_firsts.2 h1, by rw [h2]; rfl⟩

/-- **C22** Sorting the sections never raises and changes only the section table: it keeps exactly the same entries; those named in the
order list, ignoring case, come first, in the order of first mention; the others follow in their old order. The hypothesis says that the
table is a dictionary (it holds in every reachable state, theorem `C14_unique`). -/
theorem C22_sort_sections (s : St) (hn : s.sections.keys.Nodup) (order : List Str) :
    ∃ d, sortSections order s = .ok () { s with sections := d } ∧ d.Perm s.sections ∧
      d = named s.sections (order.map lower) ++ s.sections.filter fun kv => kv.1 ∉ order.map lower := by
  have hp : (sortedSections s.sections order).Perm s.sections := by
    rw [sortedSections_eq hn]
    apply (List.perm_ext_iff_of_nodup _ (List.Nodup.of_map _ hn)).2
    · intro kv
      rw [List.mem_append, mem_named, List.mem_filter]
      constructor
      · rintro (⟨_, h⟩ | ⟨h, _⟩)
        · exact Dict.mem_of_get? h
        · exact h
      · intro h
        by_cases hk : kv.1 ∈ order.map lower
        · exact Or.inl ⟨hk, Dict.get?_of_mem hn h⟩
        · exact Or.inr ⟨h, by simpa using hk⟩
    · rw [← sortedSections_eq hn]
      refine List.Nodup.of_map (·.1) ?_
      exact Dict.nodup_update (Dict.nodup_update (d := []) (by simp [Dict.keys]) _) _
  refine ⟨sortedSections s.sections order, ?_, hp, sortedSections_eq hn order⟩
  simp [sortSections, hp.length_eq]

/-- Four sections and an order with an unknown name, other case and a repetition. -/
example : sortedSections [(py!"root", 0), (py!"schema", 1), (py!"contacts", 2), (py!"data", 3)]
    [py!"Data", py!"Nothing", py!"root", py!"DATA"] = [(py!"data", 3), (py!"root", 0), (py!"schema", 1), (py!"contacts", 2)] := by
  decide

end Metatab
