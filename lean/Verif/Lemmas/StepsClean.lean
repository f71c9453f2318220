import Verif.Lemmas.StepsVersion
import Verif.Model.Clean
/-! Cleaning a document, and assigning attributes, is a sequence of elementary steps. -/
namespace Metatab
open Py
variable {C : Cap} {s : St}

theorem tri_tryMetatab {m h : M Unit} (hm : Tri C m (fun _ _ => True) s) (hh : ∀ s', Steps C s s' → Tri C h (fun _ _ => True) s') :
    Tri C (tryMetatab m h) (fun _ _ => True) s := by
  intro w
  have h1 := hm w
  unfold wp at h1 ⊢
  unfold tryMetatab
  cases e : m s with
  | ok a s' => rw [e] at h1; exact h1
  | err x s' =>
    rw [e] at h1
    simp only
    split
    · next hr =>
      split at hr
      · have h2 := hh s' h1 (h1.wf w)
        unfold wp at h2
        rw [hr] at h2
        exact ⟨h1.trans h2.1, trivial⟩
      · cases hr
    · next hr =>
      split at hr
      · have h2 := hh s' h1 (h1.wf w)
        unfold wp at h2
        rw [hr] at h2
        exact h1.trans h2
      · cases hr; exact h1

theorem tri_cleanseName (hC : C.Good s.next) : Tri C cleanseName (fun _ _ => True) s := by
  unfold cleanseName
  refine tri_wf fun w => tri_lift fun x hx => tri_lift fun ident _ => tri_lift fun name hn => ?_
  cases name with
  | some n =>
    have hlt := (mem_sectionFindFirst hn).lt w
    refine tri_obj (tri_ite (fun _ => ?_) fun _ => ?_)
    · exact tri_lift fun v _ => tri_setValue hlt
    · exact tri_lift fun i _ => tri_lift fun v _ => tri_setValue hlt
  | none =>
    refine tri_lift fun i _ => tri_lift fun v _ => ?_
    exact tri_bind (tri_getOrNewTerm (mem_getSection w hx) hC) fun t s1 _ h => tri_setValue h

theorem tri_cleanse (hC : C.Good s.next) : Tri C cleanse (fun _ _ => True) s := by
  unfold cleanse
  refine tri_bind (tri_ensureIdentifier hC) fun _ s1 st1 _ => ?_
  refine tri_tryMetatab (tri_bind (tri_updateName (hC.up st1)) fun _ _ _ _ => tri_mpure trivial) fun s2 st2 => ?_
  exact tri_cleanseName ((hC.up st1).up st2)

theorem tri_dropBlank {c : Nat} : ∀ {ks : List Nat} {s : St}, c < s.next → C.Good s.next → Tri C (dropBlank c ks) (fun _ _ => True) s
  | [], _, _, _ => tri_pure trivial
  | k :: ks, s, hc, hC => by
    unfold dropBlank
    refine tri_obj (tri_lift fun b _ => tri_ite (fun _ => ?_) fun _ => ?_)
    · exact tri_bind (tri_removeChild hc hC) fun _ s1 st1 _ => tri_dropBlank (st1.lt hc) (hC.up st1)
    · exact tri_dropBlank hc hC

theorem mem_termFind {F : Prop} (w : WF F s) {t : Nat} {k : Str} {v : Val} {l : List Nat} (h : termFind s t k v = .ok l) {c : Nat} (hc : c ∈ l) :
    c < s.next := by
  unfold termFind at h
  cases hn : localName s t k with
  | error e => rw [hn] at h; cases h
  | ok n =>
    rw [hn] at h
    cases h
    exact w.kidLt t c (List.mem_filter.1 hc).1

theorem tri_dropBlankTables : ∀ {ts : List Nat} {s : St}, C.Good s.next → Tri C (dropBlankTables ts) (fun _ _ => True) s
  | [], _, _ => tri_pure trivial
  | t :: ts, s, hC => by
    unfold dropBlankTables
    refine tri_wf fun w => tri_lift fun cs hcs => ?_
    refine tri_bind (tri_forL (I := fun _ => True) (fun c hc s' st' _ => ?_) trivial) fun _ s1 st1 _ => tri_dropBlankTables (hC.up st1)
    exact tri_obj (tri_dropBlank (st'.lt (mem_termFind w hcs hc)) (hC.up st'))

theorem tri_cleanUnused (hC : C.Good s.next) : Tri C cleanUnused (fun _ _ => True) s := by
  unfold cleanUnused
  refine tri_wf fun w => tri_lift fun x hx => tri_obj ?_
  dsimp only
  have hlt := (mem_getSection w hx).1
  refine tri_lift fun tables _ => tri_lift fun used _ => tri_get ?_
  refine tri_bind (tri_forL (I := fun _ => True) (fun a _ s' st' _ => tri_removeArg (st'.lt hlt)) trivial) fun _ s1 st1 _ => ?_
  refine tri_bind (tri_forL (I := fun _ => True) (fun a _ s' st' _ => tri_addArg (st'.lt (st1.lt hlt))) trivial) fun _ s2 st2 _ => ?_
  exact tri_lift fun ts _ => tri_dropBlankTables ((hC.up st1).up st2)

theorem tri_setPlain {x : Dict Val} {t : Nat} {item : Str} {v : Val} : Tri C (setPlain x t item v) (fun _ _ => True) s := by
  unfold setPlain
  exact tri_get (tri_ite (fun _ => tri_raise) fun _ => tri_pure trivial)

theorem tri_setAttr {x : Dict Val} {t : Nat} {item : Str} {v : Val} (ht : t < s.next) (hC : C.Good s.next) :
    Tri C (setAttr x t item v) (fun _ _ => True) s := by
  unfold setAttr
  refine tri_get ?_
  dsimp only
  refine tri_ite (fun _ => tri_setPlain) fun _ => tri_ite (fun _ => ?_) fun _ => tri_ite (fun _ => ?_) fun _ => tri_setPlain
  · exact tri_bind (tri_setValue ht) fun _ _ _ _ => tri_pure trivial
  · exact tri_bind (tri_setItemAny ht hC) fun _ _ _ _ => tri_pure trivial

end Metatab
