import Verif.Lemmas.Reach
import Verif.Lemmas.Examples
import Verif.Spec.Edit
/-! # Removing terms (C16) -/
namespace Metatab
open Py Spec

/-- The term is no section, and if it is a root-level term with a section, then that section is the one the document has under its
name, and assigning `term.section` is not diverted to a property (metatab/terms.py:364-371), which happens if the section has a column
called `Section` or the term's value goes by that name. -/
structure Placed (s : St) (t : Nat) : Prop where
  notSec : (s.heap t).cls.isSection = false
  home : ∀ x, (s.heap t).sec = some x → lower (s.heap t).pt = ROOT → ∃ n, (s.heap x).value = .str n ∧ s.sections.get? (lower n) = some x
  plain : ∀ x, (s.heap t).sec = some x → lower (s.heap t).pt = ROOT → lower (s.heap t).tvn ≠ py!"section" ∧ py!"section" ∉ (propertyNames s t).map lower

theorem addSection_known {s : St} {x : Nat} {n : Str} (hc : (s.heap x).cls.isSection = true) (hv : (s.heap x).value = .str n)
    (hk : s.sections.get? (lower n) = some x) : addSection x s = .ok x s := by
  unfold addSection
  simp only [bind_run, obj_run, hc, assert_run, if_true, hv, get_run, hk, pure_run]

theorem setSectionTerm_run {s : St} {t x : Nat} (hp : lower (s.heap t).tvn ≠ py!"section" ∧ py!"section" ∉ (propertyNames s t).map lower) :
    setSectionTerm t x s = .ok () (s.setObj t { s.heap t with sec := some x }) := by
  unfold setSectionTerm
  simp only [bind_run, get_run, ite_run, if_neg hp.1, if_neg hp.2, upd_run]

/-- What one round does before it looks at the parent. -/
def unlist (s : St) (t : Nat) : St :=
  { s with
    terms := s.terms.erase t
    heap := fun j => if lower (s.heap t).pt = ROOT ∧ (s.heap t).sec = some j then { s.heap j with terms := (s.heap j).terms.erase t } else s.heap j }

theorem setObj_same (s : St) (t : Nat) : s.setObj t (s.heap t) = s := by
  unfold St.setObj
  congr 1
  funext j
  split
  · next e => rw [e]
  · rfl

theorem removeTermF_round {s : St} {t : Nat} (h : Placed s t) (hcls : ∀ x, (s.heap t).sec = some x → (s.heap x).cls.isSection = true) (f : Nat) : removeTermF (f + 1) t s =
    match (s.heap t).parent with
    | some q => if t ∈ (s.heap q).children then
        removeTermF f t ((unlist s t).setObj q { (unlist s t).heap q with children := (s.heap q).children.erase t })
      else .ok () (unlist s t)
    | none => .ok () (unlist s t) := by
  have key : ∀ j, ((unlist s t).heap j).parent = (s.heap j).parent ∧ ((unlist s t).heap j).children = (s.heap j).children := by
    intro j; unfold unlist; simp only; split <;> exact ⟨rfl, rfl⟩
  have last : ∀ s', s' = unlist s t → (do
      let o ← obj t
      match o.parent with
      | some q => do
        let po ← obj q
        if t ∈ po.children then do
          upd q fun oq => { oq with children := oq.children.erase t }
          removeTermF f t
      | none => pure ()) s' = match (s.heap t).parent with
      | some q => if t ∈ (s.heap q).children then
        removeTermF f t ((unlist s t).setObj q { (unlist s t).heap q with children := (s.heap q).children.erase t })
        else .ok () (unlist s t)
      | none => .ok () (unlist s t) := by
    rintro s' rfl
    simp only [bind_run, obj_run, (key t).1]
    cases (s.heap t).parent with
    | none => rfl
    | some q =>
      simp only [bind_run, obj_run, (key q).2, ite_run]
      split
      · simp only [bind_run, upd_run, (key q).2]
      · rfl
  rw [removeTermF, bind_run, modify_run]
  obtain ⟨s0, hs0⟩ : ∃ s0, s0 = { s with terms := s.terms.erase t } := ⟨_, rfl⟩
  rw [← hs0]
  have hh : ∀ j, s0.heap j = s.heap j := fun j => by rw [hs0]
  simp only
  rw [bind_run, obj_run]
  simp only [hh]
  cases hx : (s.heap t).sec with
  | none =>
    simp only
    refine last _ ?_
    rw [hs0]; unfold unlist
    refine St.ext rfl (funext fun j => ?_) rfl rfl rfl rfl rfl rfl rfl rfl rfl rfl
    simp only [hx, reduceCtorEq, and_false, if_false]
  | some x =>
    simp only
    by_cases hr : lower (s.heap t).pt = ROOT
    · rw [if_pos hr]
      obtain ⟨n, hv, hk⟩ := h.home x hx hr
      have hc := hcls x hx
      have hprop : propertyNames s0 t = propertyNames s t := by unfold propertyNames; simp only [hh]
      rw [bind_run, addSection_known (s := s0) (by rw [hh]; exact hc) (by rw [hh]; exact hv) (by rw [hs0]; exact hk)]
      simp only
      rw [bind_run, setSectionTerm_run (by rw [hprop, hh]; exact h.plain x hx hr)]
      have e1 : s0.setObj t { s0.heap t with sec := some x } = s0 := by
        have : ({ s0.heap t with sec := some x } : Obj) = s0.heap t := by rw [hh, ← hx]
        rw [this, setObj_same]
      rw [e1]
      simp only [bind_run, obj_run, hh, hx, upd_run]
      refine last _ ?_
      rw [hs0]; unfold unlist St.setObj
      refine St.ext rfl (funext fun j => ?_) rfl rfl rfl rfl rfl rfl rfl rfl rfl rfl
      simp only [hx, hr, true_and, Option.some.injEq]
      by_cases hj : j = x
      · rw [if_pos hj, if_pos hj.symm, hj]
      · rw [if_neg hj, if_neg (Ne.symm hj)]
    · rw [if_neg hr]
      refine last _ ?_
      rw [hs0]; unfold unlist
      refine St.ext rfl (funext fun j => ?_) rfl rfl rfl rfl rfl rfl rfl rfl rfl rfl
      simp only [hr, false_and, if_false]

theorem erase_filter {l : List Nat} (h : l.Nodup) (t : Nat) : l.erase t = l.filter (· ≠ t) := by
  rw [h.erase_eq_filter]; congr 1; funext x; simp [bne, BEq.beq]

theorem filter_erase (l : List Nat) (t : Nat) : (l.erase t).filter (· ≠ t) = l.filter (· ≠ t) := by
  induction l with
  | nil => rfl
  | cons a l ih =>
    rw [List.erase_cons]
    by_cases e : a = t
    · simp [e]
    · simp only [beq_iff_eq, e, if_false, List.filter_cons, ih]

theorem filter_self {l : List Nat} {t : Nat} (h : t ∉ l) : l.filter (· ≠ t) = l := by
  rw [List.filter_eq_self]
  intro a ha
  simp only [ne_eq, decide_not, Bool.not_eq_eq_eq_not, Bool.not_true, decide_eq_false_iff_not]
  rintro rfl; exact h ha

theorem removeTermF_last {t : Nat} (f : Nat) {s : St} (h : Placed s t) (hc : ∀ x, (s.heap t).sec = some x → (s.heap x).cls.isSection = true)
    (hn : s.terms.Nodup) (hx : ∀ x, (s.heap t).sec = some x → (s.heap x).terms.Nodup)
    (hm : ∀ q, (s.heap t).parent = some q → t ∉ (s.heap q).children) : removeTermF (f + 1) t s = .ok () (without s t) := by
  rw [removeTermF_round h hc]
  have e : unlist s t = without s t := by
    unfold unlist without
    refine St.ext rfl (funext fun j => ?_) rfl (erase_filter hn t) rfl rfl rfl rfl rfl rfl rfl rfl
    simp only
    by_cases hj : (s.heap t).parent = some j
    · by_cases hr : lower (s.heap t).pt = ROOT ∧ (s.heap t).sec = some j
      · simp only [if_pos hr, if_pos hj, filter_self (hm j hj), erase_filter (hx j hr.2)]
      · simp only [if_neg hr, if_pos hj, filter_self (hm j hj)]
    · by_cases hr : lower (s.heap t).pt = ROOT ∧ (s.heap t).sec = some j
      · simp only [if_pos hr, if_neg hj, erase_filter (hx j hr.2)]
      · simp only [if_neg hr, if_neg hj]
  cases hp : (s.heap t).parent with
  | none => simp only [e]
  | some q => simp only [if_neg (hm q hp), e]

theorem removeTermF_run {t : Nat} : ∀ (f : Nat) {s : St}, Placed s t → (∀ x, (s.heap t).sec = some x → (s.heap x).cls.isSection = true) →
    s.terms.Nodup → (∀ x, (s.heap t).sec = some x → (s.heap x).terms.Nodup) → (∀ q, (s.heap t).parent = some q → (s.heap q).children.count t ≤ f) →
    removeTermF (f + 1) t s = .ok () (without s t)
  | f, s, h, hc, hn, hx, hq => by
    by_cases hm : ∀ q, (s.heap t).parent = some q → t ∉ (s.heap q).children
    · exact removeTermF_last f h hc hn hx hm
    · simp only [not_forall, not_not] at hm
      obtain ⟨q, hp, hm⟩ := hm
      have hpos := List.count_pos_iff.2 hm
      have hle := hq q hp
      match f, hle with
      | 0, hle => omega
      | f + 1, hle =>
        rw [removeTermF_round h hc]
        simp only [hp, if_pos hm]
        obtain ⟨s2, hs2⟩ : ∃ s2, s2 = (unlist s t).setObj q { (unlist s t).heap q with children := (s.heap q).children.erase t } := ⟨_, rfl⟩
        rw [← hs2]
        have hh : ∀ j, s2.heap j = { s.heap j with
            terms := if lower (s.heap t).pt = ROOT ∧ (s.heap t).sec = some j then (s.heap j).terms.erase t else (s.heap j).terms
            children := if j = q then (s.heap j).children.erase t else (s.heap j).children } := by
          intro j
          rw [hs2, heap_setObj]
          by_cases hj : j = q
          · rw [if_pos hj, hj]
            unfold unlist
            simp only [if_true]
            split <;> rfl
          · rw [if_neg hj]
            unfold unlist
            simp only [if_neg hj]
            split <;> rfl
        have hsec : s2.sections = s.sections := by rw [hs2]; rfl
        have ht : s2.terms = s.terms.erase t := by rw [hs2]; rfl
        have hpn : propertyNames s2 t = propertyNames s t := by unfold propertyNames; simp only [hh]; rfl
        rw [removeTermF_run f]
        · congr 1
          unfold without
          refine St.ext ?_ (funext fun j => ?_) ?_ ?_ ?_ ?_ ?_ ?_ ?_ ?_ ?_ ?_
          · rw [hs2]; rfl
          · simp only [hh]
            by_cases hj : j = q
            · rw [hj]
              simp only [hp, if_true, filter_erase]
              split
              · simp only [filter_erase]
              · rfl
            · have : (s.heap t).parent ≠ some j := by rw [hp]; simp only [ne_eq, Option.some.injEq]; exact Ne.symm hj
              simp only [if_neg this, if_neg hj]
              split
              · simp only [filter_erase]
              · rfl
          · rw [hs2]; rfl
          · rw [ht]; exact filter_erase _ _
          all_goals (rw [hs2]; rfl)
        · exact ⟨by rw [hh]; exact h.notSec, fun x e1 e2 => by rw [hh] at e1 e2; rw [hsec, hh]; exact h.home x e1 e2,
            fun x e1 e2 => by rw [hh] at e1 e2; rw [hpn, hh]; exact h.plain x e1 e2⟩
        · intro x e; rw [hh] at e; rw [hh]; exact hc x e
        · rw [ht]; exact hn.erase t
        · intro x e; rw [hh] at e; rw [hh]; simp only; split
          · exact (hx x e).erase t
          · exact hx x e
        · intro q' e
          rw [hh] at e
          have : q' = q := by simp only [hp, Option.some.injEq] at e; exact e.symm
          subst this
          rw [hh]
          simp only [if_true, List.count_erase_self]
          omega

/-- **C16.** `doc.remove_term(t)` on any document a client can have, for a term whose section, if it is a root-level term with a
section, belongs to the document: the document's term list, the section's term list and the parent's children lose exactly `t`;
the order of the rest, and everything else, is as before. -/
theorem C16_removed {s : St} (h : Reach (fun _ => True) s) {t : Nat} (hp : Placed s t) : removeTerm t s = .ok () (without s t) := by
  have w : WF False s := h.wf fun f => f.elim
  unfold removeTerm
  simp only [bind_run, get_run, ite_run, hp.notSec, if_false, Bool.false_eq_true]
  have hn : ∀ x, (s.heap t).sec = some x → (s.heap x).terms.Nodup := fun x hx => w.secTermsNodup x
  unfold removeRounds
  cases hq : (s.heap t).parent with
  | none => exact removeTermF_run 0 hp (fun x hx => (w.secLt t x hx).2) w.termsNodup hn (fun q e => by rw [hq] at e; cases e)
  | some q => 
    refine removeTermF_run _ hp (fun x hx => (w.secLt t x hx).2) w.termsNodup hn (fun q' e => ?_)
    rw [hq] at e; cases e; omega

/-- After the call the term is in none of the three lists. -/
theorem C16_gone {s : St} (h : Reach (fun _ => True) s) {t : Nat} (hp : Placed s t) : ∃ s', removeTerm t s = .ok () s' ∧ t ∉ s'.terms ∧
    (∀ x, (s'.heap t).sec = some x → lower (s'.heap t).pt = ROOT → t ∉ (s'.heap x).terms) ∧
    (∀ q, (s'.heap t).parent = some q → t ∉ (s'.heap q).children) ∧
    (∀ l : St → List Nat, (l = St.terms ∨ ∃ j, l = (fun s => (s.heap j).terms) ∨ l = fun s => (s.heap j).children) →
      (l s').filter (· ≠ t) = (l s).filter (· ≠ t)) := by
  refine ⟨_, C16_removed h hp, ?_, ?_, ?_, ?_⟩
  · simp [without]
  · intro x hx hr
    simp only [without] at hx hr ⊢
    rw [if_pos ⟨hr, hx⟩]; simp
  · intro q hq
    simp only [without] at hq ⊢
    rw [if_pos hq]; simp
  · rintro l (rfl | ⟨j, rfl | rfl⟩)
    · simp [without]
    · simp only [without]; split <;> simp
    · simp only [without]; split <;> simp

/-- A document with two terms, argument cells and a child row. -/
def rmDoc : St := exParse [[py!"Section", py!"Contacts", py!"Email"], [py!"Wrangler", py!"Bob", py!"b@x"], [py!"Creator", py!"Eve", py!"e@x"],
  [py!".Tag", py!"q"]]

theorem rmDoc_reach : Reach (fun _ => True) rmDoc := exParse_reach _ trivial

example : Placed rmDoc 2 ∧ rmDoc.terms = [2, 4] ∧ (rmDoc.heap 1).terms = [2, 4] ∧ (rmDoc.heap 0).children = [2, 4] :=
  ⟨⟨by decide +kernel, fun x hx _ => by
    have : (rmDoc.heap 2).sec = some 1 := by decide +kernel
    rw [this] at hx; cases hx
    exact ⟨py!"Contacts", by decide +kernel, by decide +kernel⟩, fun _ _ _ => by decide +kernel⟩, by decide +kernel⟩

example : Placed rmDoc 6 ∧ (rmDoc.heap 4).children = [5, 6] ∧ ((without rmDoc 6).heap 4).children = [5] :=
  ⟨⟨by decide +kernel, fun x hx h => absurd h (by decide +kernel), fun x hx h => absurd h (by decide +kernel)⟩, by decide +kernel⟩

/-- Without the condition on the section: removing a term whose section was deleted puts the section back into the document. -/
theorem C16_deleted_section_witness : let s := after (delSection (py!"contacts")) rmDoc
    (s.sections.keys = [py!"root"] ∧ s.terms = []) ∧ (after (removeTerm 2) s).sections.keys = [py!"root", py!"contacts"] := by
  decide +kernel

end Metatab
