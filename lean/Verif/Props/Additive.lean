import Verif.Lemmas.Adds
import Verif.Props.Declared
/-! # C75: reading only adds; C36: what declare files leave alone -/
namespace Metatab
open Py _root_.Spec

/-- **C75** Reading rows into a document, with all files they include and declare, changes no term that was there, removes no term from the
document or from a section, and neither removes nor replaces a section. The same holds if reading fails half-way. -/
theorem C75_read {s : St} (h : Reach (fun _ => True) s) (files : Files) (fuel : Nat) (path : Str) (rows : List (List Str)) :
    OnlyAdds s (parseRows files fuel path rows s).st :=
  parseRows_adds (h.wf (F := False) fun f => f.elim) files fuel path rows

/-- **C75** The same for loading declarations. -/
theorem C75_declarations {s : St} (h : Reach (fun _ => True) s) (files : Files) (fuel : Nat) (decls : List Str) :
    OnlyAdds s (loadDeclarations files fuel decls s).st :=
  loadDeclarations_adds (h.wf (F := False) fun f => f.elim) files fuel decls

theorem get?_append_some {α : Type} : ∀ {d e : Dict α} {k : Str} {x : α}, d.get? k = some x → Dict.get? (d ++ e) k = some x
  | (y, v) :: d, e, k, x, h => by
    rw [List.cons_append, Dict.get?_cons]
    rw [Dict.get?_cons] at h
    by_cases hk : y = k
    · rw [if_pos hk] at h ⊢; exact h
    · rw [if_neg hk] at h ⊢; exact get?_append_some h

/-- **C36, partial** Loading declare files changes no term that was there and removes nothing from the document, and no section is replaced.
(Missing: nothing is added. That is false, see `C36_load_witness`.) -/
theorem C36_additive_partial {s : St} (h : Reach (fun _ => True) s) (files : Files) (fuel : Nat) (decls : List Str) :
    let s' := (loadDeclarations files fuel decls s).st
    (∀ t ∈ s.terms, t ∈ s'.terms ∧ s'.heap t = s.heap t) ∧ (∀ k x, s.sections.get? k = some x → s'.sections.get? k = some x) ∧
    ∀ x, x < s.next → ∀ t ∈ (s.heap x).terms, t ∈ (s'.heap x).terms := by
  have w := h.wf (F := False) fun f => f.elim
  have k := C75_declarations h files fuel decls
  refine ⟨fun t ht => ⟨k.terms.subset ht, k.term t (w.termsLt t ht).1 (w.termsLt t ht).2⟩, fun key x hx => ?_, fun x hx t ht => ?_⟩
  · obtain ⟨more, hm⟩ := k.sections
    rw [← hm]
    exact get?_append_some hx
  · by_cases hc : (s.heap x).cls.isSection = true
    · exact (k.sect x hx hc).terms.subset ht
    · rw [k.term x hx (by simpa using hc)]; exact ht

/-! ## What searches find -/

/-- The name of a root-level term. -/
def _root_.Spec.RootName (name : Str) : Prop := '.' ∉ lower name ∨ startsWith (py!"root.") (lower name) = true

theorem startsWith_append (p l : Str) : startsWith p (p ++ l) = true := by
  unfold startsWith
  exact List.isPrefixOf_iff_prefix.2 (List.prefix_append _ _)

theorem findOne_root {s : St} {name : Str} (h : RootName name) (v : Val) (sec : Option (List Str)) :
    findOne s name v sec = filterE (findTest s (if '.' ∉ lower name then py!"root." ++ lower name else lower name) v sec) s.terms := by
  unfold findOne
  by_cases hd : '.' ∉ lower name
  · simp only [if_pos hd, startsWith_append, if_true, bind, Except.bind]
  · have hs := h.resolve_left hd
    simp only [if_neg hd, hs, if_true, bind, Except.bind]

theorem filterE_prefix {α : Type} {p q : α → Except Err Bool} : ∀ {l m : List α} {r r' : List α}, (∀ a ∈ l, p a = q a) →
    filterE p l = .ok r → filterE q (l ++ m) = .ok r' → r <+: r'
  | [], m, r, r', _, h, h' => by cases h; exact List.nil_prefix
  | a :: l, m, r, r', hp, h, h' => by
    rw [List.cons_append, filterE] at h'
    rw [filterE, hp a List.mem_cons_self] at h
    cases ha : q a with
    | error e => rw [ha] at h; cases h
    | ok b =>
      rw [ha] at h h'
      cases hl : filterE p l with
      | error e => rw [hl] at h; cases h
      | ok r1 =>
        cases hl' : filterE q (l ++ m) with
        | error e => rw [hl'] at h'; cases h'
        | ok r2 =>
          rw [hl] at h; rw [hl'] at h'
          have := filterE_prefix (fun a ha => hp a (List.mem_cons_of_mem _ ha)) hl hl'
          cases b with
          | false =>
            have e1 : r1 = r := by injection h
            have e2 : r2 = r' := by injection h'
            subst e1 e2; exact this
          | true =>
            have e1 : a :: r1 = r := by injection h
            have e2 : a :: r2 = r' := by injection h'
            subst e1 e2
            exact (List.cons_prefix_cons).2 ⟨rfl, this⟩

/-- Searching after something was added. -/
theorem find_adds {s s' : St} (w : WF False s) (h : OnlyAdds s s') {name : Str} (hn : RootName name) {v : Val} {sec : Option (List Str)}
    (hsec : sec = none ∨ ∀ kv, kv < s.next → (s.heap kv).cls.isSection = true → lower (s.heap kv).tvn ≠ py!"section")
    (hd : s.derived.get? (lower name) = none) (hd' : s'.derived.get? (lower name) = none) {l l' : List Nat} (hl : find s name v sec = .ok l)
    (hl' : find s' name v sec = .ok l') : l <+: l' := by
  unfold find at hl hl'
  rw [hd] at hl
  rw [hd'] at hl'
  simp only [] at hl hl'
  rw [findOne_root hn] at hl hl'
  obtain ⟨more, hm⟩ := h.terms
  rw [← hm] at hl'
  refine filterE_prefix (fun t ht => ?_) hl hl'
  obtain ⟨hlt, hc⟩ := w.termsLt t ht
  have ho := h.term t hlt hc
  have hin : inSection s' t sec = inSection s t sec := by
    cases sec with
    | none => rfl
    | some secs =>
      unfold inSection
      rw [ho]
      cases hx : (s.heap t).sec with
      | none => rfl
      | some x =>
        obtain ⟨h1, h2⟩ := w.secLt t x hx
        have hv : (s'.heap x).value = (s.heap x).value := (h.sect x h1 h2).value ((hsec.resolve_left (by simp)) x h1 h2)
        simp only [sectionNameLower, hv]
  unfold findTest
  rw [ho, hin]

/-- **C75** What a search for a root-level term found before, it finds afterwards, in the same order and before anything new (if the search
succeeds). If the search is restricted to sections, their value must not be called `section`. -/
theorem C75_find {s : St} (h : Reach (fun _ => True) s) (files : Files) (fuel : Nat) (path : Str) (rows : List (List Str)) {name : Str}
    (hn : RootName name) {v : Val} {sec : Option (List Str)}
    (hsec : sec = none ∨ ∀ x, x < s.next → (s.heap x).cls.isSection = true → lower (s.heap x).tvn ≠ py!"section")
    {s' : St} (hs : (parseRows files fuel path rows s).st = s')
    (hd : s.derived.get? (lower name) = none) (hd' : s'.derived.get? (lower name) = none) {l l' : List Nat} (hl : find s name v sec = .ok l)
    (hl' : find s' name v sec = .ok l') : l <+: l' := by
  subst hs
  exact find_adds (h.wf (F := False) fun f => f.elim) (C75_read h files fuel path rows) hn hsec hd hd' hl hl'

/-! ## Concrete cases -/

/-- A declare file whose sections have a column called `Section`, read into a document that has a table already: nothing that was there
changes, the section of the declare file and its terms are new. -/
example :
    let s' := after (parseRows exFiles 3 (py!"n.csv") [[py!"Declare", py!"d.csv"], [py!"Section", py!"Data"], [py!"Table", py!"t2"]]) exTab
    (parseRows exFiles 3 (py!"n.csv") [[py!"Declare", py!"d.csv"], [py!"Section", py!"Data"], [py!"Table", py!"t2"]] exTab).val = .ok () ∧
    exTab.next < s'.next ∧ s'.heap 15 = exTab.heap 15 ∧ (exTab.heap 15).join = py!"root.table" ∧
    find exTab (py!"Table") = .ok [15] ∧ find s' (py!"Table") = .ok [15, 26] := by
  decide +kernel

/-- The rows of that case. -/
def addRows : List (List Str) := [[py!"Declare", py!"d.csv"], [py!"Section", py!"Data"], [py!"Table", py!"t2"]]
example : [15] <+: [15, 26] :=
  C75_find exTab_reach exFiles 3 (py!"n.csv") addRows (name := py!"Table") (.inl (by decide)) (v := .fls) (sec := none) (.inl rfl) rfl
    (by decide +kernel) (by decide +kernel) (by decide +kernel) (by decide +kernel)

/-- Reading stops at the row that cannot be read; the table read before it stays, and so does everything older. -/
example : (parseRows exFiles 3 (py!"n.csv") [[py!"Section", py!"Data"], [py!"Table", py!"t2"], [py!"Include", py!"none.csv"]] exTab).val =
      .error .includeError ∧
    let s' := (parseRows exFiles 3 (py!"n.csv") [[py!"Section", py!"Data"], [py!"Table", py!"t2"], [py!"Include", py!"none.csv"]] exTab).st
    exTab.terms.length < s'.terms.length ∧ s'.terms.take exTab.terms.length = exTab.terms ∧ s'.heap 15 = exTab.heap 15 := by
  decide +kernel

end Metatab
