import Verif.Props.Version
/-! # C46: `ensure_identifier` -/
namespace Metatab
open Py Spec

/-- The identifier as the code looks it up: the first `Root.Identifier` in the section `Root`. -/
def identifierTerm (s : St) : Except Err (Option Nat) := findFirst s (py!"Root.Identifier") .fls (some [py!"Root"])

theorem findFirst_mem {s : St} {term : Str} {sec : Option (List Str)} {t : Nat} (h : findFirst s term .fls sec = .ok (some t)) :
    ∃ l, find s term .fls sec = .ok l ∧ t ∈ l := by
  unfold findFirst at h
  cases hl : find s term .fls sec with
  | error e => rw [hl] at h; cases h
  | ok l =>
    rw [hl] at h
    have : l.head? = some t := by simpa [bind, Except.bind, pure, Except.pure] using h
    exact ⟨l, rfl, List.mem_of_mem_head? this⟩

theorem findFirst_none {s : St} {term : Str} {sec : Option (List Str)} (h : findFirst s term .fls sec = .ok none) : find s term .fls sec = .ok [] := by
  unfold findFirst at h
  cases hl : find s term .fls sec with
  | error e => rw [hl] at h; cases h
  | ok l =>
    rw [hl] at h
    have : l.head? = none := by simpa [bind, Except.bind, pure, Except.pure] using h
    rw [List.head?_eq_none_iff.1 this]

theorem findFirst_values {s s' : St} (w : WF False s) (h : OnlyValues s s') (term : Str) (sec : Option (List Str)) :
    findFirst s' term .fls sec = findFirst s term .fls sec := by
  unfold findFirst; rw [find_values w h]

/-- After a root-level term has been added, a search for a root-level name finds what it found before, and the new term if it matches. -/
theorem find_withTerm {s : St} (w : WF False s) {x : Nat} (hx : x < s.next) (o : Obj) (ho : ∀ y, o.sec = some y → y = x)
    {term : Str} (hr : startsWith (py!"root.") (lower term) = true) (hd : s.derived.get? (lower term) = none) (sec : Option (List Str)) {l : List Nat}
    (hl : find s term .fls sec = .ok l) :
    find (withTerm s x o) term .fls sec = (do
      let b ← findTest (withTerm s x o) (lower term) .fls sec s.next
      return if b then l ++ [s.next] else l) := by
  have hdot : ¬ '.' ∉ lower term := by
    intro hn
    unfold startsWith at hr
    rw [List.isPrefixOf_iff_prefix] at hr
    obtain ⟨r, hr⟩ := hr
    rw [← hr] at hn
    simp at hn
  have hold : ∀ y, y < s.next → ((withTerm s x o).heap y).value = (s.heap y).value ∧ ((withTerm s x o).heap y).pt = (s.heap y).pt ∧
      ((withTerm s x o).heap y).rt = (s.heap y).rt ∧ ((withTerm s x o).heap y).sec = (s.heap y).sec := by
    intro y hy
    unfold withTerm
    simp only [if_neg (show y ≠ s.next by omega)]
    split
    · next e => subst e; exact ⟨rfl, rfl, rfl, rfl⟩
    · exact ⟨rfl, rfl, rfl, rfl⟩
  have hd' : (withTerm s x o).derived.get? (lower term) = none := hd
  unfold find at hl ⊢
  rw [hd] at hl; rw [hd']
  simp only [findOne, if_neg hdot, hr, if_true, bind, Except.bind] at hl ⊢
  show filterE _ (s.terms ++ [s.next]) = _
  have e : filterE (findTest (withTerm s x o) (lower term) .fls sec) s.terms = .ok l := by
    rw [← hl]
    refine filterE_congr fun t ht => ?_
    have hlt := (w.termsLt t ht).1
    obtain ⟨-, h2, h3, h4⟩ := hold t hlt
    exact findTest_same' ⟨h2, h3, h4⟩ (fun y hy => (hold y (w.secLt t y hy).1).1) _ _
  rw [filterE_append, e]
  simp only [filterE, bind, Except.bind, pure, Except.pure]
  cases findTest (withTerm s x o) (lower term) .fls sec s.next with
  | error e => rfl
  | ok b => cases b <;> simp

/-- **C46.** An identifier that is there and not empty is left alone, and so is everything else. -/
theorem C46_kept {s : St} {t : Nat} (h : identifierTerm s = .ok (some t)) (hv : (s.heap t).value.truthy = true) : ensureIdentifier s = .ok () s := by
  unfold identifierTerm at h
  unfold ensureIdentifier
  simp only [bind_run, lift_run, h, pure_run, obj_run, hv, Bool.not_true, ite_run, Bool.false_eq_true, if_false, assert_run, if_true]

theorem identifier_filled {s : St} (w : WF False s) (hd : s.derived.get? (py!"root.identifier") = none) {t : Nat}
    (h : identifierTerm s = .ok (some t)) (hv : (s.heap t).value.truthy = false) (hu : s.env.uuid s.next ≠ []) :
    ensureIdentifier s = .ok () (withValue s t (.str (s.env.uuid s.next))) ∧
      identifierTerm (withValue s t (.str (s.env.uuid s.next))) = .ok (some t) := by
  have ht : (s.heap t).cls.isSection = false := by
    obtain ⟨l, hl, hm⟩ := findFirst_mem h
    have := find_name (A := py!"Root") (B := py!"Identifier") ⟨by decide, by decide, by decide⟩ ⟨by decide, by decide, by decide⟩
      (by decide) (by decide) hd hl t hm
    exact (w.termsLt t this.1).2
  constructor
  · unfold identifierTerm at h
    unfold ensureIdentifier
    simp only [bind_run, lift_run, h, pure_run, obj_run, hv, Bool.not_false, ite_run, if_true, get_run, upd_run, assert_run, heap_setObj]
    have : (Val.str (s.env.uuid s.next)).truthy = true := by
      cases e : s.env.uuid s.next with
      | nil => exact absurd e hu
      | cons a l => rfl
    rw [if_pos this]
    rfl
  · exact (findFirst_values w (onlyValues_value ht _) _ _).trans h

/-- **C46.** An identifier that is there but empty gets a new value; nothing else changes. -/
theorem C46_filled {s : St} (hr : Reach (fun _ => True) s) (hd : s.derived.get? (py!"root.identifier") = none) {t : Nat}
    (h : identifierTerm s = .ok (some t)) (hv : (s.heap t).value.truthy = false) (hu : s.env.uuid s.next ≠ []) :
    ensureIdentifier s = .ok () (withValue s t (.str (s.env.uuid s.next))) ∧
      identifierTerm (withValue s t (.str (s.env.uuid s.next))) = .ok (some t) :=
  identifier_filled (hr.wf fun f => f.elim) hd h hv hu

theorem identifier_made {s : St} (w : WF False s) (hd : s.derived.get? (py!"root.identifier") = none)
    (h : identifierTerm s = .ok none) {x : Nat} {n : Str} (hx : Registered s x n) (hn : lower n = py!"root")
    (hc : (docTermClass s (py!"root.identifier")).isSection = false) (htv : lower (newTvn s x (py!"Identifier")) ∉ reservedTvn)
    (hu : s.env.uuid (s.next + 1) ≠ []) :
    ∃ s', ensureIdentifier s = .ok () s' ∧ identifierTerm s' = .ok (some s.next) ∧ (s'.heap s.next).value = .str (s.env.uuid (s.next + 1)) ∧
      s' = withValue (withTerm s x (newObj s x (docTermClass s (py!"root.identifier")) (py!"Root.Identifier") (py!"Identifier") .none)) s.next
        (.str (s.env.uuid (s.next + 1))) := by
  have e1 := newTerm_root w hx (N := py!"Root.Identifier") (B := py!"Identifier") (by decide) hc htv .none
  have hxlt : x < s.next := (w.secsLt (lower n, x) (Dict.mem_of_get? hx.known)).1
  obtain ⟨o, ho⟩ : ∃ o, o = newObj s x (docTermClass s (py!"root.identifier")) (py!"Root.Identifier") (py!"Identifier") .none := ⟨_, rfl⟩
  have e1 : newTerm x (py!"Root.Identifier") .none [] s = .ok s.next (withTerm s x o) := by rw [ho]; exact e1
  have hop : o.pt = ROOT ∧ o.rt = py!"identifier" ∧ o.sec = some x ∧ o.value = .none ∧ o.cls.isSection = false := by
    rw [ho]; exact ⟨rfl, rfl, rfl, rfl, hc⟩
  have hg : getSection s (py!"Root") = .ok x := by
    unfold getSection
    have : s.sections.get? (lower (py!"Root")) = some x := by
      have := hx.known; rw [hn] at this; exact this
    rw [this]
  rw [← ho]
  have hnew : (withTerm s x o).heap s.next = o := by unfold withTerm; simp only [if_true]
  have hs1 : (withTerm s x o).next = s.next + 1 := rfl
  have he1 : (withTerm s x o).env = s.env := rfl
  have htr : (Val.str (s.env.uuid (s.next + 1))).truthy = true := by
    cases e : s.env.uuid (s.next + 1) with
    | nil => exact absurd e hu
    | cons a l => rfl
  refine ⟨_, ?_, ?_, ?_, rfl⟩
  · unfold identifierTerm at h
    unfold ensureIdentifier
    have hnt : (!o.value.truthy) = true := by rw [hop.2.2.2.1]; rfl
    simp only [bind_run, lift_run, h, hg, e1, obj_run, hnew, hnt, ite_run, if_true, get_run, upd_run, heap_setObj, hs1, he1]
    rw [assert_run, if_pos htr]
    unfold withValue
    rw [hnew]; rfl
  · have hf : find (withTerm s x o) (py!"Root.Identifier") .fls (some [py!"Root"]) = .ok [s.next] := by
      rw [find_withTerm (term := py!"Root.Identifier") w hxlt o (fun y hy => by rw [hop.2.2.1] at hy; exact (Option.some.inj hy).symm) (by decide) hd _ (findFirst_none h)]
      have : findTest (withTerm s x o) (lower (py!"Root.Identifier")) .fls (some [py!"Root"]) s.next = .ok true := by
        have hval : ((withTerm s x o).heap x).value = .str n := by
          unfold withTerm
          simp only [if_neg (show x ≠ s.next by omega), if_true]
          exact hx.value
        have hsec : inSection (withTerm s x o) s.next (some [py!"Root"]) = .ok true := by
          unfold inSection
          simp only [hnew, hop.2.2.1, sectionNameLower, hval, hn, bind, Except.bind, pure, Except.pure]
          decide
        have hti : termIs o.pt o.rt (lower (py!"Root.Identifier")) = .ok true := by rw [hop.1, hop.2.1]; decide
        unfold findTest
        have hj : o.joinLc = py!"root.identifier" := by unfold Obj.joinLc; rw [hop.1, hop.2.1]; decide
        simp only [hnew, hj, hop.2.2.1, hti, hsec, bind, Except.bind, pure, Except.pure]
        rw [if_neg (by decide), if_neg (by simp), if_neg (by decide), if_neg (by decide)]
        rfl
      rw [this]; rfl
    have hov : OnlyValues (withTerm s x o) (withValue (withTerm s x o) s.next (.str (s.env.uuid (s.next + 1)))) :=
      onlyValues_value (by rw [hnew]; exact hop.2.2.2.2) _
    have w' : WF False (withTerm s x o) := by
      have st := after_steps (tri_newTerm (term := py!"Root.Identifier") (value := .none) (kw := []) (C := Cap.all False) ⟨hxlt, hx.cls⟩ (Cap.all_good False s.next)) w
      unfold after at st
      rw [e1] at st
      exact st.wf w
    unfold identifierTerm
    rw [findFirst_values w' hov]
    unfold findFirst
    rw [hf]; rfl
  · rw [withValue_heap, if_pos rfl]

/-- **C46.** Without an identifier, a term with a new value is made at the end of the section `Root`; it is found as the identifier. -/
theorem C46_made {s : St} (hr : Reach (fun _ => True) s) (hd : s.derived.get? (py!"root.identifier") = none)
    (h : identifierTerm s = .ok none) {x : Nat} {n : Str} (hx : Registered s x n) (hn : lower n = py!"root")
    (hc : (docTermClass s (py!"root.identifier")).isSection = false) (htv : lower (newTvn s x (py!"Identifier")) ∉ reservedTvn)
    (hu : s.env.uuid (s.next + 1) ≠ []) :
    ∃ s', ensureIdentifier s = .ok () s' ∧ identifierTerm s' = .ok (some s.next) ∧ (s'.heap s.next).value = .str (s.env.uuid (s.next + 1)) ∧
      s' = withValue (withTerm s x (newObj s x (docTermClass s (py!"root.identifier")) (py!"Root.Identifier") (py!"Identifier") .none)) s.next
        (.str (s.env.uuid (s.next + 1))) :=
  identifier_made (hr.wf fun f => f.elim) hd h hx hn hc htv hu

/-! A document without, with an empty, and with an identifier. -/
def idNone : St := exParse [[py!"Dataset", py!"foo"]]
def idEmpty : St := exParse [[py!"Dataset", py!"foo"], [py!"Identifier", py!""]]
def idSet : St := exParse [[py!"Dataset", py!"foo"], [py!"Identifier", py!"abc"]]

example : Reach (fun _ => True) idNone ∧ Reach (fun _ => True) idEmpty := ⟨exParse_reach _ trivial, exParse_reach _ trivial⟩
example : identifierTerm idNone = .ok none ∧ idNone.derived.get? (py!"root.identifier") = none ∧
    (docTermClass idNone (py!"root.identifier")).isSection = false ∧ lower (newTvn idNone 0 (py!"Identifier")) ∉ reservedTvn ∧
    idNone.env.uuid (idNone.next + 1) ≠ [] := by decide +kernel
example : Registered idNone 0 (py!"Root") := ⟨by decide +kernel, by decide +kernel, by decide +kernel, by decide +kernel⟩
example : identifierTerm idEmpty = .ok (some 2) ∧ (idEmpty.heap 2).value.truthy = false ∧ idEmpty.derived.get? (py!"root.identifier") = none := by
  decide +kernel
example : identifierTerm idSet = .ok (some 2) ∧ (idSet.heap 2).value.truthy = true := by decide +kernel

end Metatab
