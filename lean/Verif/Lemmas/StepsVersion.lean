import Verif.Lemmas.StepsDoc
import Verif.Model.Version
/-! Updating identifiers, versions and names is a sequence of elementary steps. -/
namespace Metatab
open Py
variable {C : Cap} {s : St}

theorem mem_getSection {F : Prop} (w : WF F s) {name : Str} {x : Nat} (h : getSection s name = .ok x) : x < s.next ∧ (s.heap x).cls.isSection = true := by
  unfold getSection at h
  split at h
  · next e => cases h; have := w.secsLt _ (Dict.mem_of_get? e); exact ⟨this.1, this.2.1⟩
  · cases h

theorem mem_childNamed {F : Prop} (w : WF F s) {t : Nat} {k : Str} {v : Val} {c : Nat} (h : childNamed s t k v = some c) : c < s.next :=
  w.kidLt t c (List.mem_of_find?_eq_some h)

theorem mem_termFindFirst {F : Prop} (w : WF F s) {t : Nat} {k : Str} {v : Val} {c : Nat} (h : termFindFirst s t k v = .ok (some c)) : c < s.next := by
  unfold termFindFirst at h
  cases hn : localName s t k with
  | error e => rw [hn] at h; cases h
  | ok n =>
    rw [hn] at h
    have : childNamed s t n v = some c := by simpa [bind, Except.bind, pure, Except.pure] using h
    exact mem_childNamed w this

theorem mem_versionTerm {F : Prop} (w : WF F s) {v : Nat} (h : versionTerm s = .ok (some v)) : v < s.next := by
  unfold versionTerm at h
  cases hg : getSection s (py!"Root") with
  | error e => rw [hg] at h; cases h
  | ok x => rw [hg] at h; exact (mem_sectionFindFirst h).lt w

theorem tri_ensureIdentifier (hC : C.Good s.next) : Tri C ensureIdentifier (fun _ _ => True) s := by
  unfold ensureIdentifier
  have fin : ∀ t s1, t < s1.next → Tri C (do
      let o ← obj t
      if !o.value.truthy then do
        let s ← M.get
        upd t fun o => { o with value := .str (s.env.uuid s.next) }
      let o ← obj t
      M.assert o.value.truthy) (fun _ _ => True) s1 := by
    intro t s1 ht
    refine tri_obj (tri_ite (fun _ => ?_) fun _ => ?_)
    · exact tri_get (tri_bind (tri_setValue ht) fun _ _ _ _ => tri_obj (tri_assert' fun _ => trivial))
    · exact tri_obj (tri_assert' fun _ => trivial)
  refine tri_wf fun w => tri_lift fun a ha => ?_
  cases a with
  | some t => exact fin t s ((mem_findFirst ha).lt w)
  | none =>
    refine tri_lift fun x hx => ?_
    exact tri_bind (tri_newTerm (mem_getSection w hx) hC) fun t s1 _ h => fin t s1 h

theorem tri_versionPart {v : Nat} {name : Str} {p : Option Nat} (hv : v < s.next) (hp : ∀ t, p = some t → t < s.next) (hC : C.Good s.next) :
    Tri C (versionPart v name p) (fun _ _ => True) s := by
  unfold versionPart
  have fin : ∀ t s1, t < s1.next → Tri C (do
      let o ← obj t
      if o.value = .none then upd t fun o => { o with value := .int 0 }) (fun _ _ => True) s1 := by
    intro t s1 ht
    exact tri_obj (tri_ite (fun _ => tri_setValue ht) fun _ => tri_pure trivial)
  cases p with
  | some t => exact fin t s (hp t rfl)
  | none => exact tri_bind (tri_newChild0 hv hC) fun t s1 _ h => fin t s1 h

theorem tri_versionString {v : Nat} (hv : v < s.next) : Tri C (versionString v) (fun _ _ => True) s := by
  unfold versionString
  refine tri_lift fun a _ => tri_lift fun b _ => tri_lift fun c _ => ?_
  split
  · refine tri_lift fun x _ => tri_lift fun y _ => tri_lift fun z _ => ?_
    refine tri_upd (step_attrs hv ⟨rfl, rfl, rfl, rfl, rfl, rfl, rfl⟩) ?_
    refine tri_lift fun d _ => ?_
    split
    · exact tri_obj (tri_pure trivial)
    · refine tri_lift fun u _ => tri_bind (tri_setValue ?_) fun _ _ _ _ => tri_obj (tri_pure trivial)
      exact hv
  · exact tri_raise

theorem tri_updateVersion (hC : C.Good s.next) : Tri C updateVersion (fun _ _ => True) s := by
  unfold updateVersion
  refine tri_wf fun w => tri_lift fun a ha => ?_
  cases a with
  | none => exact tri_pure trivial
  | some v =>
    have hv := mem_versionTerm w ha
    refine tri_lift fun a ha => tri_lift fun b hb => tri_lift fun c hc => tri_ite (fun _ => tri_obj (tri_pure trivial)) fun _ => ?_
    refine tri_bind (tri_versionPart hv (fun t e => by subst e; exact mem_termFindFirst w ha) hC) fun _ s1 st1 _ => ?_
    refine tri_bind (tri_versionPart (st1.lt hv) (fun t e => by subst e; exact st1.lt (mem_termFindFirst w hb)) (hC.up st1)) fun _ s2 st2 _ => ?_
    refine tri_bind (tri_versionPart (st2.lt (st1.lt hv)) (fun t e => by subst e; exact st2.lt (st1.lt (mem_termFindFirst w hc))) ((hC.up st1).up st2))
      fun _ s3 st3 _ => ?_
    exact tri_versionString (st3.lt (st2.lt (st1.lt hv)))

theorem tri_identityName {mod : ModVer} (hC : C.Good s.next) : Tri C (identityName mod) (fun _ _ => True) s := by
  unfold identityName
  refine tri_lift fun vals _ => tri_bind (tri_updateVersion hC) fun _ s1 st1 _ => ?_
  refine tri_lift fun sv _ => tri_lift fun x _ => ?_
  dsimp only
  refine tri_lift fun mv0 _ => tri_lift fun mv _ => ?_
  have fin : ∀ (ver : Val) s2, Tri C (do
      let s ← M.get
      let parts ← M.lift fun _ => nameParts s.env.nfkd (vals ++ [ver])
      return join (py!"-") parts) (fun _ _ => True) s2 := fun ver s2 => tri_get (tri_lift fun _ _ => tri_pure trivial)
  refine tri_ite (fun _ => ?_) fun _ => ?_
  · exact fin _ _
  · refine tri_wf fun w1 => tri_lift fun t ht => ?_
    split
    · exact tri_bind (Q := fun _ _ => False) tri_raise fun _ _ _ h => h.elim
    · exact tri_bind (tri_setValue ((mem_sectionFindFirst ht).lt w1)) fun _ s2 st2 _ =>
        tri_bind (tri_updateVersion ((hC.up st1).up st2)) fun ver s2 _ _ => fin ver s2

theorem tri_updateName {force create report : Bool} {mod : ModVer} (hC : C.Good s.next) : Tri C (updateName force create report mod) (fun _ _ => True) s := by
  unfold updateName
  refine tri_bind (tri_ensureIdentifier hC) fun _ s1 st1 _ => tri_wf fun w1 => ?_
  refine tri_bind (Q := fun a s' => ∀ t, a = some t → t < s'.next) ?_ fun a s2 st2 ha => ?_
  · unfold nameTerm
    refine tri_lift fun a ha => ?_
    split
    · next t => exact tri_pure fun t e => by cases e; exact (mem_findFirst ha).lt w1
    · refine tri_ite (fun _ => ?_) fun _ => tri_pure fun t e => by cases e
      refine tri_lift fun x hx => ?_
      exact tri_bind (tri_newTerm (mem_getSection w1 hx) (hC.up st1)) fun t s2 _ h => tri_pure fun t e => by cases e; exact h
  · cases a with
    | none => exact tri_pure trivial
    | some t =>
      have ht := ha t rfl
      show Tri C (setName force report mod t) _ s2
      unfold setName
      refine tri_obj (tri_lift fun i _ => tri_lift fun d _ => tri_ite (fun _ => ?_) fun _ => ?_)
      · refine tri_bind (tri_identityName ((hC.up st1).up st2)) fun n s3 st3 _ => tri_ite (fun _ => ?_) fun _ => tri_pure trivial
        exact tri_bind (tri_setValue (st3.lt ht)) fun _ _ _ _ => tri_pure trivial
      · refine tri_ite (fun _ => tri_ite (fun _ => tri_pure trivial) fun _ => ?_) fun _ => tri_ite (fun _ => tri_pure trivial) fun _ => tri_pure trivial
        exact tri_bind (tri_setValue ht) fun _ _ _ _ => tri_pure trivial

end Metatab
