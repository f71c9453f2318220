import Verif.Props.Remove
import Verif.Props.Find
/-! # C17: adding a term to a section -/
namespace Metatab
open Py Spec

/-- The section is the one the document has under its name, and has no column called `Section` (which would divert the assignment of
`term.section`, metatab/terms.py:364-371). -/
structure Registered (s : St) (x : Nat) (n : Str) : Prop where
  cls : (s.heap x).cls.isSection = true
  value : (s.heap x).value = .str n
  known : s.sections.get? (lower n) = some x
  plain : py!"section" ∉ (s.heap x).secPropertyNames.map lower

/-- The value name the new term gets: the declared one, if the section's default is in use. -/
def newTvn (s : St) (x : Nat) (B : Str) : Str :=
  if py!"@value" = (s.heap x).defTvn then declProp s.declTerms (dotJoin ROOT (lower B)) (py!"termvaluename") (s.heap x).defTvn else py!"@value"

/-- The object of the new term. -/
def newObj (s : St) (x : Nat) (c : Cls) (N B : Str) (v : Val) : Obj :=
  { Obj.blank with cls := c, raw := N, pt := ROOT, rt := lower B, value := v.mk, sec := some x, tvn := newTvn s x B,
                   cpt := declProp s.declTerms (dotJoin ROOT (lower B)) (py!"childpropertytype") (py!"any") }

/-- The state after: one object more, at the end of the document's and of the section's term list. -/
def _root_.Spec.withTerm (s : St) (x : Nat) (o : Obj) : St :=
  { s with
    next := s.next + 1
    terms := s.terms ++ [s.next]
    heap := fun j => if j = s.next then o else if j = x then { s.heap x with terms := (s.heap x).terms ++ [s.next] } else s.heap j }

theorem splitTermLower_plain {B : Str} (hB : PlainPart B) : splitTermLower B = .ok (ROOT, lower B) := by
  unfold splitTermLower
  rw [splitTerm_nodot hB.nodot, hB.stripped]
  rfl

/-- Making a root-level term: `N` is the name as given, `B` the name of the term without its parent. -/
theorem newTerm_root {s : St} (w : WF False s) {x : Nat} {n : Str} (hx : Registered s x n) {N B : Str}
    (hN : splitTermLower N = .ok (ROOT, lower B)) (hc : (docTermClass s (lower N)).isSection = false)
    (htv : lower (newTvn s x B) ∉ reservedTvn) (v : Val) :
    newTerm x N v [] s = .ok s.next (withTerm s x (newObj s x (docTermClass s (lower N)) N B v)) := by
  have hxlt : x < s.next := (w.secsLt (lower n, x) (Dict.mem_of_get? hx.known)).1
  have hxn : x ≠ s.next := by omega
  have hnt : s.next ∉ s.terms := fun m => absurd (w.termsLt _ m).1 (by omega)
  have hnx : s.next ∉ (s.heap x).terms := fun m => absurd (w.secTermsLt x _ m) (by omega)
  unfold newTerm
  rw [bind_run, get_run]
  simp only
  obtain ⟨c, hcc⟩ : ∃ c, c = docTermClass s (lower N) := ⟨_, rfl⟩
  rw [← hcc] at hc ⊢
  obtain ⟨o0, ho0⟩ : ∃ o0, o0 = { Obj.blank with cls := c, raw := N, pt := ROOT, rt := lower B, value := v.mk, sec := some x } := ⟨_, rfl⟩
  have e1 : construct c N v none (some x) s = .ok s.next ({ s with next := s.next + 1 }.setObj s.next o0) := by
    have : newTermObj c N v [] none (some x) 0 false s = .ok s.next ({ s with next := s.next + 1 }.setObj s.next o0) := by
      unfold newTermObj
      rw [bind_run, lift_run, hN]
      rw [ho0]; rfl
    unfold construct
    cases c with
    | term => exact this
    | user k => exact this
    | «section» => cases hc
    | root => cases hc
  rw [bind_run, e1]
  simp only
  obtain ⟨s1, hs1⟩ : ∃ s1 : St, s1 = ({ s with next := s.next + 1 }.setObj s.next o0) := ⟨_, rfl⟩
  rw [← hs1]
  have hh : ∀ j, s1.heap j = if j = s.next then o0 else s.heap j := fun j => by rw [hs1]; rfl
  have hsec : o0.sec = some x := by rw [ho0]
  have hpt : o0.pt = ROOT := by rw [ho0]
  have htvn : o0.tvn = py!"@value" := by rw [ho0]; rfl
  have hkids : o0.children = [] := by rw [ho0]; rfl
  have hn : s1.heap s.next = o0 := by rw [hh, if_pos rfl]
  have hxx : s1.heap x = s.heap x := by rw [hh, if_neg hxn]
  have ht1 : s1.terms = s.terms := by rw [hs1]; rfl
  have hcl : o0.cls.isSection = false := by rw [ho0]; exact hc
  unfold newChildren forL
  rw [bind_run, pure_run]
  simp only
  obtain ⟨s2, hs2⟩ : ∃ s2 : St, s2 = { s1 with terms := s.terms ++ [s.next] } := ⟨_, rfl⟩
  obtain ⟨s3, hs3⟩ : ∃ s3 : St, s3 = s2.setObj x { s.heap x with terms := (s.heap x).terms ++ [s.next] } := ⟨_, rfl⟩
  have h2 : ∀ j, s2.heap j = s1.heap j := fun j => by rw [hs2]
  have h3n : s3.heap s.next = o0 := by rw [hs3, heap_setObj, if_neg (Ne.symm hxn), h2, hn]
  have h3t : s.next ∈ s3.terms := by
    have : s3.terms = s.terms ++ [s.next] := by rw [hs3, hs2]; rfl
    rw [this]; simp
  have e4 : sectionAddTerm x s.next s2 = .ok () s3 := by
    unfold sectionAddTerm
    rw [bind_run, get_run]
    simp only
    rw [if_pos (by rw [h2, hxx]; exact hnx)]
    rw [h2, hn, hpt, if_pos (by decide), bind_run, upd_run, h2, hxx, ← hs3]
    simp only
    unfold docAddTermCore
    rw [bind_run, bind_run, get_run]
    simp only
    rw [if_pos h3t, pure_run]
    simp only
    unfold setOwnership
    rw [bind_run, bind_run, get_run]
    simp only
    unfold setOwnershipF
    simp only [bind_run, obj_run, h3n, hsec, Option.isSome_some, assert_run, if_true, hkids, forL, pure_run, Bool.true_or]
    simp
  have e5 : docAddTerm s.next s1 = addTermFinish s.next s3 := by
    unfold docAddTerm
    rw [bind_run, get_run]
    simp only
    rw [if_neg (by rw [ht1]; exact hnt), hn, bind_run]
    simp only [hsec, Option.isSome_some, true_or, decide_true, assert_run, if_true, hcl, Bool.false_eq_true, if_false]
    rw [bind_run, modify_run, ht1, ← hs2]
    simp only
    rw [hpt, if_pos (by decide), bind_run, addSection_known (n := n) (by rw [h2, hxx]; exact hx.cls) (by rw [h2, hxx]; exact hx.value)
      (by rw [hs2, hs1]; exact hx.known)]
    simp only
    have hps : lower (s2.heap s.next).tvn ≠ py!"section" ∧ py!"section" ∉ (propertyNames s2 s.next).map lower := by
      refine ⟨by rw [h2, hn, htvn]; decide, ?_⟩
      unfold propertyNames
      rw [h2, hn, hcl, hsec]
      simp only [Bool.false_eq_true, if_false, h2, hxx]
      exact hx.plain
    rw [bind_run, setSectionTerm_run hps]
    have e6 : s2.setObj s.next { s2.heap s.next with sec := some x } = s2 := by
      have : ({ s2.heap s.next with sec := some x } : Obj) = s2.heap s.next := by rw [h2, hn, ← hsec]
      rw [this, setObj_same]
    rw [e6]
    simp only [bind_run, obj_run, h2, hn, hsec, e4]
  rw [bind_run, e5]
  have hj : o0.join = dotJoin ROOT (lower B) := by rw [ho0]; rfl
  have hd3 : s3.declTerms = s.declTerms := by rw [hs3, hs2, hs1]; rfl
  have hx3 : (s3.heap x).defTvn = (s.heap x).defTvn := by rw [hs3, heap_setObj, if_pos rfl]
  have hcpt : o0.cpt = py!"any" := by rw [ho0]; rfl
  unfold addTermFinish
  rw [bind_run, get_run]
  simp only
  rw [h3n, if_pos (.inr hcpt), bind_run, upd_run, hsec]
  simp only
  have fin : ∀ s4, (∀ j, s4.heap j = (withTerm s x (newObj s x c N B v)).heap j) → { s4 with heap := s3.heap } = s3 →
      s4 = withTerm s x (newObj s x c N B v) := by
    intro s4 ha hb
    have h3 : { s3 with heap := (withTerm s x (newObj s x c N B v)).heap } = withTerm s x (newObj s x c N B v) := by
      rw [hs3, hs2, hs1]; rfl
    rw [← h3, ← hb]
    refine St.ext rfl (funext ha) rfl rfl rfl rfl rfl rfl rfl rfl rfl rfl
  have hheap : ∀ j, j ≠ s.next → s3.heap j = (withTerm s x (newObj s x c N B v)).heap j := by
    intro j hj
    rw [hs3, heap_setObj, h2, hh]
    unfold withTerm
    simp only [if_neg hj]
  have hobj : ∀ tv, tv = newTvn s x B → ({ o0 with cpt := declProp s3.declTerms o0.join (py!"childpropertytype") (py!"any"), tvn := tv } : Obj) =
      newObj s x c N B v := by
    intro tv htv
    rw [hd3, hj, htv, ho0]
    rfl
  by_cases hv : py!"@value" = (s.heap x).defTvn
  · have hnew : newTvn s x B = declProp s3.declTerms o0.join (py!"termvaluename") (s3.heap x).defTvn := by
      unfold newTvn; rw [if_pos hv, hd3, hj, hx3]
    rw [if_pos (.inr (by rw [htvn, hx3]; exact hv))]
    unfold setTvn
    rw [← hnew, if_neg htv, upd_run]
    simp only [pure_run]
    congr 1
    refine fin _ (fun j => ?_) ?_
    · by_cases e : j = s.next
      · subst e
        simp only [heap_setObj, if_true, h3n]
        rw [hobj _ rfl]; unfold withTerm; simp only [if_true]
      · simp only [heap_setObj, if_neg e]; exact hheap j e
    · rfl
  · have hnew : newTvn s x B = py!"@value" := by
      unfold newTvn; rw [if_neg hv]
    rw [if_neg (by rw [htvn, hx3]; simpa using hv), pure_run]
    simp only [pure_run]
    congr 1
    refine fin _ (fun j => ?_) ?_
    · by_cases e : j = s.next
      · subst e
        simp only [heap_setObj, if_true, h3n]
        have := hobj (py!"@value") hnew.symm
        rw [← htvn] at this
        rw [this]; unfold withTerm; simp only [if_true]
      · simp only [heap_setObj, if_neg e]; exact hheap j e
    · rfl

/-- **C17.** `section.new_term(name, value)` for a root-level name of a class other than a section class makes exactly one new term
with that name, in lower case, and the stripped value, and puts it at the end of the section and of the document; nothing else
changes. -/
theorem C17_new {s : St} (h : Reach (fun _ => True) s) {x : Nat} {n : Str} (hx : Registered s x n) {B : Str} (hB : PlainPart B)
    (hc : (docTermClass s (lower B)).isSection = false) (htv : lower (newTvn s x B) ∉ reservedTvn) (v : Val) :
    newTerm x B v [] s = .ok s.next (withTerm s x (newObj s x (docTermClass s (lower B)) B B v)) :=
  newTerm_root (h.wf fun f => f.elim) hx (splitTermLower_plain hB) hc htv v

open Classical in
/-- **C17.** Searching for the name afterwards finds what it found before, followed by the new term. The terms already there have to be
searchable, that is, belong to a section, and the name must have no derived terms. -/
theorem C17_found {s : St} (h : Reach (fun _ => True) s) {x : Nat} {n : Str} (hx : Registered s x n) {B : Str} (hB : PlainPart B)
    (hc : (docTermClass s (lower B)).isSection = false) (htv : lower (newTvn s x B) ∉ reservedTvn) (v : Val)
    (hr : lower B ≠ py!"root") (hd : s.derived.get? (lower B) = none) (hs : ∀ t ∈ s.terms, SearchableBy s.heap none t) :
    ∃ s' l, newTerm x B v [] s = .ok s.next s' ∧ find s B = .ok l ∧ find s' B = .ok (l ++ [s.next]) := by
  have w : WF False s := h.wf fun f => f.elim
  have hxlt : x < s.next := (w.secsLt (lower n, x) (Dict.mem_of_get? hx.known)).1
  refine ⟨_, _, C17_new h hx hB hc htv v, find_plain_by hB hd hs .fls, ?_⟩
  obtain ⟨o, ho⟩ : ∃ o, o = newObj s x (docTermClass s (lower B)) B B v := ⟨_, rfl⟩
  rw [← ho]
  have hp : o.pt = ROOT ∧ o.rt = lower B ∧ o.sec = some x := by rw [ho]; exact ⟨rfl, rfl, rfl⟩
  have hval : ∀ y, y < s.next → ((withTerm s x o).heap y).value = (s.heap y).value ∧ ((withTerm s x o).heap y).pt = (s.heap y).pt ∧
      ((withTerm s x o).heap y).rt = (s.heap y).rt ∧ ((withTerm s x o).heap y).sec = (s.heap y).sec := by
    intro y hy
    unfold withTerm
    simp only [if_neg (show y ≠ s.next by omega)]
    split
    · next e => subst e; exact ⟨rfl, rfl, rfl, rfl⟩
    · exact ⟨rfl, rfl, rfl, rfl⟩
  have hnew : (withTerm s x o).heap s.next = o := by unfold withTerm; simp only [if_true]
  have hs' : ∀ t ∈ (withTerm s x o).terms, SearchableBy (withTerm s x o).heap none t := by
    intro t ht
    have ht : t ∈ s.terms ++ [s.next] := ht
    rcases List.mem_append.1 ht with ht | ht
    · have hlt := (w.termsLt t ht).1
      obtain ⟨h1, h2, h3, h4⟩ := hval t hlt
      refine ⟨fun e => ?_, fun k => absurd rfl k⟩
      rw [h2, h3]; rw [h4] at e; exact (hs t ht).hasSection e
    · obtain rfl := List.mem_singleton.1 ht
      refine ⟨fun e => ?_, fun k => absurd rfl k⟩
      rw [hnew, hp.2.2] at e; cases e
  have hf := find_plain_by (s := withTerm s x o) hB hd hs' .fls
  rw [hf]
  congr 1
  show (s.terms ++ [s.next]).filter _ = _
  rw [List.filter_append]
  congr 1
  · apply List.filter_congr
    intro t ht
    obtain ⟨h1, h2, h3, h4⟩ := hval t (w.termsLt t ht).1
    apply decide_eq_decide.2
    simp only [Meets, h1, h2, h3, SectionIs]
  · rw [List.filter_cons, if_pos, List.filter_nil]
    apply decide_eq_true
    simp only [Meets, hnew, hp, SectionIs, ValueIs, NameMatches, PartMatches]
    refine ⟨fun e => hr (by simpa using e.2), ⟨.inr rfl, .inr (by simp)⟩, trivial, trivial⟩

/-- A document with a section and two terms. -/
def ntDoc : St := exParse [[py!"Section", py!"Contacts", py!"Email"], [py!"Wrangler", py!"Bob"], [py!"Creator", py!"Eve"]]

example : Reach (fun _ => True) ntDoc := exParse_reach _ trivial
example : Registered ntDoc 1 (py!"Contacts") := ⟨by decide +kernel, by decide +kernel, by decide +kernel, by decide +kernel⟩
example : (docTermClass ntDoc (py!"creator")).isSection = false ∧ lower (newTvn ntDoc 1 (py!"Creator")) ∉ reservedTvn ∧
    ntDoc.derived.get? (py!"creator") = none ∧ ntDoc.terms = [2, 3] ∧ find ntDoc (py!"Creator") = .ok [3] ∧ ntDoc.next = 4 := by decide +kernel
example : ∀ t ∈ ntDoc.terms, Searchable ntDoc.heap t := by
  have : ntDoc.terms = [2, 3] := by decide +kernel
  have h2 : (ntDoc.heap 2).sec = some 1 := by decide +kernel
  have h3 : (ntDoc.heap 3).sec = some 1 := by decide +kernel
  have hv : (ntDoc.heap 1).value = .str (py!"Contacts") := by decide +kernel
  intro t ht
  rw [this] at ht
  rcases List.mem_cons.1 ht with rfl | ht
  · exact ⟨fun e => (by rw [h2] at e; cases e), fun x e => by rw [h2] at e; cases e; exact ⟨_, hv⟩⟩
  · obtain rfl := List.mem_singleton.1 ht
    exact ⟨fun e => (by rw [h3] at e; cases e), fun x e => by rw [h3] at e; cases e; exact ⟨_, hv⟩⟩
example : find (after (newTerm 1 (py!"Creator") (.str (py!" Joe ")) []) ntDoc) (py!"Creator") = .ok [3, 4] := by decide +kernel

end Metatab
