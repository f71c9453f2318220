import Verif.Model.Foreign
import Verif.Props.Move
/-! # C84: Adding a term of another document -/
namespace Metatab
open Py _root_.Spec

/-- Assigning a section to `t` is not diverted to a property: neither the value nor a column of its section is called `Section`. -/
def _root_.Spec.PlainSection (heap : Nat → Obj) (t x : Nat) : Prop :=
  lower (heap t).tvn ≠ py!"section" ∧ ∀ a, a ∈ (heap x).args ∨ a ∈ (heap x).headerArgs → lower a ≠ py!"section"

theorem plainSection_props {s : St} {t x : Nat} (ht : (s.heap t).cls.isSection = false) (hx : (s.heap t).sec = some x)
    (h : PlainSection s.heap t x) : py!"section" ∉ (propertyNames s t).map lower := by
  unfold propertyNames Obj.secPropertyNames
  rw [if_neg (by rw [ht]; decide), hx]
  intro hm
  obtain ⟨a, ha, e⟩ := List.mem_map.1 hm
  dsimp only at ha
  split at ha
  · exact h.2 a (.inr ha) e
  · exact h.2 a (.inl ha) e

/-- What `add_term` of a document does with a root-level term that it does not list, when the document has a section of the name of the
term's section. -/
theorem docAddTerm_taken {s s' : St} {t x y : Nat} {n : Str} (ht : (s.heap t).cls.isSection = false) (hx : (s.heap t).sec = some x)
    (hn : (s.heap x).value = .str n) (hy : s.sections.get? (lower n) = some y) (hr : lower (s.heap t).pt = ROOT) (hnt : t ∉ s.terms)
    (hny : t ∉ (s.heap y).terms) (hp : PlainSection s.heap t x) (hty : t ≠ y) (h : docAddTerm t s = .ok () s') :
    s'.terms = s.terms ++ [t] ∧ s'.sections = s.sections ∧ (s'.heap y).terms = (s.heap y).terms ++ [t] ∧
    (∀ z, z ≠ y → (s'.heap z).terms = (s.heap z).terms) ∧ (s'.heap t).sec = some y ∧ (∀ u, Under s t u → (s'.heap u).sec = some y) ∧
    (∀ i, (s'.heap i).children = (s.heap i).children) ∧ ∀ i, i ≠ y → i ≠ t → ¬ Under s t i → s'.heap i = s.heap i := by
  have hpn := plainSection_props ht hx hp
  have hsecx : (s.heap x).cls.isSection = true := by
    unfold docAddTerm at h
    rw [bind_run, get_run] at h
    dsimp only at h
    rw [if_neg hnt, bind_run, assert_run, if_pos (by rw [hx]; rfl)] at h
    dsimp only at h
    rw [if_neg (by rw [ht]; decide), bind_run, modify_run] at h
    dsimp only at h
    rw [hx] at h
    dsimp only at h
    rw [if_pos hr, bind_run] at h
    unfold addSection at h
    rw [bind_run, obj_run] at h
    dsimp only at h
    rw [bind_run, assert_run] at h
    by_cases hc : (s.heap x).cls.isSection = true
    · exact hc
    · rw [if_neg hc] at h; cases h
  have hadd : ∀ l, addSection x { s with terms := l } = .ok y { s with terms := l } := by
    intro l
    unfold addSection
    rw [bind_run, obj_run]
    dsimp only
    rw [bind_run, assert_run, if_pos hsecx]
    dsimp only
    rw [hn]
    dsimp only
    rw [bind_run, get_run]
    dsimp only
    rw [hy]
    rfl
  have hset : setSectionTerm t y { s with terms := s.terms ++ [t] } =
      .ok () ({ s with terms := s.terms ++ [t] }.setObj t { s.heap t with sec := some y }) := by
    unfold setSectionTerm
    rw [bind_run, get_run]
    dsimp only
    have hpn' : py!"section" ∉ (propertyNames { s with terms := s.terms ++ [t] } t).map lower := hpn
    rw [if_neg hp.1, if_neg hpn', upd_run]
  unfold docAddTerm at h
  rw [bind_run, get_run] at h
  dsimp only at h
  rw [if_neg hnt, bind_run, assert_run, if_pos (by rw [hx]; rfl)] at h
  dsimp only at h
  rw [if_neg (by rw [ht]; decide), bind_run, modify_run] at h
  dsimp only at h
  rw [hx] at h
  dsimp only at h
  rw [if_pos hr, bind_run, hadd] at h
  dsimp only at h
  rw [bind_run, hset] at h
  dsimp only at h
  obtain ⟨s2, hs2⟩ : ∃ s2, s2 = { s with terms := s.terms ++ [t] }.setObj t { s.heap t with sec := some y } := ⟨_, rfl⟩
  rw [← hs2] at h
  have e2 : ∀ i, s2.heap i = if i = t then { s.heap t with sec := some y } else s.heap i := fun i => by rw [hs2, heap_setObj]
  have e2t : s2.heap t = { s.heap t with sec := some y } := by rw [e2, if_pos rfl]
  have ch2 : ∀ i, (s2.heap i).children = (s.heap i).children := fun i => by rw [e2]; split <;> [(next e => rw [e]); rfl]
  have te2 : ∀ i, (s2.heap i).terms = (s.heap i).terms := fun i => by rw [e2]; split <;> [(next e => rw [e]); rfl]
  rw [bind_run, obj_run] at h
  dsimp only at h
  rw [e2t] at h
  dsimp only at h
  rw [bind_run] at h
  cases h3 : sectionAddTerm y t s2 with
  | err e s3 => rw [h3] at h; cases h
  | ok u s3 =>
    rw [h3] at h
    dsimp only at h
    obtain ⟨a1, a2, a3, a4, a5, a6, a7, a8⟩ := C71_add_partial (by rw [e2t]; exact ht) h3
    have hd := addTermFinish_dressed t s3
    rw [h] at hd
    obtain ⟨c, v, hd⟩ := hd
    have hd : s' = s3.setObj t { s3.heap t with cpt := c, tvn := v } := hd
    have e4 : ∀ i, i ≠ t → s'.heap i = s3.heap i := fun i hi => by rw [hd, heap_setObj, if_neg hi]
    have e4t : s'.heap t = { s3.heap t with cpt := c, tvn := v } := by rw [hd, heap_setObj, if_pos rfl]
    have te4 : ∀ i, (s'.heap i).terms = (s3.heap i).terms := fun i => by
      by_cases hi : i = t
      · rw [hi, e4t]
      · rw [e4 i hi]
    have se4 : ∀ i, (s'.heap i).sec = (s3.heap i).sec := fun i => by
      by_cases hi : i = t
      · rw [hi, e4t]
      · rw [e4 i hi]
    have ch4 : ∀ i, (s'.heap i).children = (s3.heap i).children := fun i => by
      by_cases hi : i = t
      · rw [hi, e4t]
      · rw [e4 i hi]
    have t2 : s2.terms = s.terms ++ [t] := by rw [hs2]; rfl
    have q2 : s2.sections = s.sections := by rw [hs2]; rfl
    have hny2 : t ∉ (s2.heap y).terms := by rw [te2]; exact hny
    refine ⟨?_, ?_, ?_, fun z hz => ?_, ?_, fun u hu => ?_, fun i => ?_, fun i h1 h2 h5 => ?_⟩
    · rw [hd]; show s3.terms = _; rw [a3, t2, if_pos (.inl (by simp))]
    · rw [hd]; show s3.sections = _; rw [a4, q2]
    · rw [te4, a1, if_neg hny2, te2]
    · rw [te4, a2 z hz, te2]
    · rw [se4, a6, e2t]
    · rw [se4, (a7 hny2 u ((under_congr ch2).2 hu)).1, e2t]
    · rw [ch4, a5, ch2]
    · rw [e4 i h2, a8 i h1 h2 (fun hu => h5 ((under_congr ch2).1 hu)), e2, if_neg h2]

theorem view_put_self {w : Shared} {b : Nat} {s s' : St} (h : w.view b = some s) : (w.put b s').view b = some s' := by
  unfold Shared.view at h
  have hb : b < w.docs.length := by
    cases e : w.docs[b]? with
    | none => rw [e] at h; cases h
    | some d => exact (List.getElem?_eq_some_iff.1 e).1
  unfold Shared.view Shared.put
  simp [hb]

theorem view_put_other {w : Shared} {a b : Nat} {s' : St} (h : b ≠ a) :
    (w.put b s').view a = (w.view a).map fun d => { d with heap := s'.heap, next := s'.next } := by
  unfold Shared.view Shared.put
  simp [List.getElem?_set_ne h, Function.comp_def]

/-- **C84, a term is taken over.** Let a document have a section of the name of the section of a root-level term that it does not list,
say of another document. Then after `add_term` of the term returns, the document lists the term, last; so does that section of it; the
term and everything below it belong to that section. All other documents list the terms and sections that they did, and so does every
section other than this one. What is missing: the document has no section of that name (`C84_stolen_witness`). -/
theorem C84_taken_partial {w w' : Shared} {b t x y : Nat} {n : Str} {s : St} (hv : w.view b = some s)
    (ht : (w.heap t).cls.isSection = false) (hx : (w.heap t).sec = some x) (hr : lower (w.heap t).pt = ROOT)
    (hn : (w.heap x).value = .str n) (hy : s.sections.get? (lower n) = some y) (hys : (w.heap y).cls.isSection = true)
    (hp : PlainSection w.heap t x) (hnt : t ∉ s.terms) (hny : t ∉ (w.heap y).terms) (h : w.addTerm b t = (.ok (), w')) :
    (∃ s', w'.view b = some s' ∧ s'.terms = s.terms ++ [t] ∧ s'.sections = s.sections) ∧
    (∀ a d, a ≠ b → w.view a = some d → ∃ d', w'.view a = some d' ∧ d'.terms = d.terms ∧ d'.sections = d.sections) ∧
    (w'.heap y).terms = (w.heap y).terms ++ [t] ∧ (∀ z, z ≠ y → (w'.heap z).terms = (w.heap z).terms) ∧
    (w'.heap t).sec = some y ∧ (∀ u, Under s t u → (w'.heap u).sec = some y) ∧
    ∀ i, i ≠ y → i ≠ t → ¬ Under s t i → w'.heap i = w.heap i := by
  have hh : s.heap = w.heap := by
    unfold Shared.view at hv
    cases e : w.docs[b]? with
    | none => rw [e] at hv; cases hv
    | some d => rw [e] at hv; cases hv; rfl
  obtain ⟨w1, hw1⟩ : ∃ w1, w1 = w.handOver b t s.terms := ⟨_, rfl⟩
  have hv1 : ∀ a, w1.view a = w.view a := by
    intro a
    rw [hw1]
    unfold Shared.handOver
    split
    · split <;> rfl
    · rfl
  unfold Shared.addTerm at h
  rw [hv] at h
  dsimp only at h
  rw [← hw1, hx] at h
  dsimp only at h
  split at h
  · cases hd : docAddTerm t s with
    | err e s' => rw [hd] at h; cases h
    | ok u s' =>
      rw [hd] at h
      cases h
      rw [← hh] at ht hx hr hn hys hp hny
      obtain ⟨r1, r2, r3, r4, r5, r6, -, r8⟩ := docAddTerm_taken ht hx hn hy hr hnt hny hp
        (fun e => by subst e; rw [ht] at hys; cases hys) hd
      rw [← hh]
      refine ⟨⟨s', view_put_self ((hv1 b).trans hv), r1, r2⟩, fun a d ha hva => ?_, r3, r4, r5, r6, r8⟩
      refine ⟨{ d with heap := s'.heap, next := s'.next }, ?_, rfl, rfl⟩
      rw [view_put_other (Ne.symm ha), hv1, hva]; rfl
  · cases h

/-- **C84, taking over works in the end as adding does.** When the document has a section of its own with the name of the term's section, in
any letter case, `add_term` returns or raises as `add_term` of a document alone. -/
theorem C84_same_answer {w : Shared} {b t x y : Nat} {n : Str} {s : St} (hv : w.view b = some s) (hx : (w.heap t).sec = some x)
    (hn : (w.heap x).value = .str n) (hy : s.sections.get? (lower n) = some y) (ho : w.owner y = b) :
    (w.addTerm b t).1 = match docAddTerm t s with | .ok _ _ => .ok () | .err e _ => .error e := by
  have hh : s.heap = w.heap := by
    unfold Shared.view at hv
    cases e : w.docs[b]? with
    | none => rw [e] at hv; cases hv
    | some d => rw [e] at hv; cases hv; rfl
  have hl : localSec s x = y := by unfold localSec; rw [hh, hn]; dsimp only; rw [hy]; rfl
  have ho1 : (w.handOver b t s.terms).owner y = b := by
    unfold Shared.handOver
    rw [hx]
    dsimp only
    split
    · show (if y = x then b else w.owner y) = b
      split
      · rfl
      · exact ho
    · exact ho
  unfold Shared.addTerm
  rw [hv]
  dsimp only
  rw [if_pos (by rw [hx]; show ((w.handOver b t s.terms).owner (localSec s x) == b) = true; rw [hl, ho1]; simp)]
  cases docAddTerm t s <;> rfl

/-! ## Concrete cases -/

/-- Two documents. The first has a section `Contacts` with a creator, who has an address. -/
def foreign1 : Shared :=
  ((Shared.start.opened exEnv).opened exEnv).call 0 (.newSection (py!"Contacts") [])
    |>.call 0 (.newTerm 2 (py!"Root.Creator") (.str (py!"C")) [(py!"email", .str (py!"c@x"))])

/-- The second document has a section of that name, too. -/
def foreign2 : Shared := foreign1.call 1 (.newSection (py!"contacts") [])

example : (foreign2.heap 3).joinLc = py!"root.creator" ∧ (foreign2.heap 3).sec = some 2 ∧ (foreign2.heap 3).children = [4] := by decide +kernel

/-- There the section `Contacts` of the first document has its counterpart. -/
example : (foreign2.view 1).map (fun s => s.sections.get? (lower (py!"Contacts"))) = some (some 5) ∧ foreign2.owner 5 = 1 ∧
    (foreign2.heap 2).value = .str (py!"Contacts") := by decide +kernel

/-- The creator is taken over into the second document. -/
example : ∃ w', foreign2.addTerm 1 3 = (.ok (), w') ∧ (∃ s', w'.view 1 = some s' ∧ s'.terms = [3]) ∧ (w'.heap 3).sec = some 5 ∧
    (w'.heap 4).sec = some 5 ∧ (w'.heap 5).terms = [3] ∧ (w'.heap 2).terms = [3] := by
  have h : (foreign2.addTerm 1 3).1 = .ok () := by decide +kernel
  have h' : foreign2.addTerm 1 3 = (.ok (), (foreign2.addTerm 1 3).2) := by rw [← h]
  obtain ⟨s, hs⟩ : ∃ s, foreign2.view 1 = some s := ⟨_, rfl⟩
  have q1 : (foreign2.view 1).map St.sections = some [(py!"root", 1), (py!"contacts", 5)] := by decide +kernel
  have q2 : (foreign2.view 1).map St.terms = some [] := by decide +kernel
  have q3 : (foreign2.view 1).map (fun s => decide (4 ∈ (s.heap 3).children)) = some true := by decide +kernel
  rw [hs] at q1 q2 q3
  have q1 := Option.some.inj q1
  have q2 := Option.some.inj q2
  have q3 := of_decide_eq_true (Option.some.inj q3)
  obtain ⟨⟨s', r1, r2, -⟩, -, r3, r4, r5, r6, -⟩ := C84_taken_partial (x := 2) (y := 5) (n := py!"Contacts") hs (by decide +kernel)
    (by decide +kernel) (by decide +kernel) (by decide +kernel) (by rw [q1]; decide) (by decide +kernel)
    ⟨by decide +kernel, by
      intro a ha
      have e1 : (foreign2.heap 2).args = [] := by decide +kernel
      have e2 : (foreign2.heap 2).headerArgs = [] := by decide +kernel
      rw [e1, e2] at ha
      simp at ha⟩
    (by rw [q2]; simp) (by decide +kernel) h'
  refine ⟨_, h', ⟨s', r1, by rw [r2, q2]; rfl⟩, r5, r6 4 (.single q3), ?_, ?_⟩
  · rw [r3]; decide +kernel
  · rw [r4 2 (by decide)]; decide +kernel

/-- **C84, a new document has a root section of its own.** A term made in the root section of a document that has just been opened goes to
that document; the documents that were there before keep their terms, sections and tables, and their objects. -/
theorem C84_new_document (w : Shared) (env : Env) (name : Str) (value : Val) :
    (∀ a, a < w.docs.length → ((w.opened env).newTerm w.next name value).docs[a]? = w.docs[a]?) ∧
    ((w.opened env).newTerm w.next name value).docs.length = w.docs.length + 1 ∧
    ∃ s, (w.opened env).view w.docs.length = some s ∧ s.terms = [] ∧ s.sections = [(py!"root", w.next)] ∧
      (∀ i, i < w.next → s.heap i = w.heap i) ∧
      (((w.opened env).newTerm w.next name value).view w.docs.length).map (fun d => (d.heap, d.terms, d.sections)) =
        some ((after (newTerm w.next name value []) s).heap, (after (newTerm w.next name value []) s).terms,
          (after (newTerm w.next name value []) s).sections) := by
  have hd : (w.opened env).docs = w.docs ++ [{ newDoc env with sections := [(py!"root", w.next)], root := w.next, p := initP w.next }] := rfl
  have ho : (w.opened env).owner w.next = w.docs.length := by
    show (if w.next = w.next then w.docs.length else w.owner w.next) = _
    rw [if_pos rfl]
  have hv : ∃ s, (w.opened env).view w.docs.length = some s ∧ s.terms = [] ∧ s.sections = [(py!"root", w.next)] ∧
      ∀ i, i < w.next → s.heap i = w.heap i := by
    refine ⟨_, by unfold Shared.view; rw [hd, List.getElem?_append_right (Nat.le_refl _), Nat.sub_self]; rfl, rfl, rfl, fun i hi => ?_⟩
    show (if i = w.next then rootObj else w.heap i) = _
    rw [if_neg (Nat.ne_of_lt hi)]
  obtain ⟨s, hs, h1, h2, h3⟩ := hv
  have hn : (w.opened env).newTerm w.next name value = (w.opened env).put w.docs.length (after (newTerm w.next name value []) s) := by
    unfold Shared.newTerm
    rw [ho, hs]
  rw [hn]
  refine ⟨fun a ha => ?_, ?_, s, hs, h1, h2, h3, ?_⟩
  · show ((w.opened env).docs.set w.docs.length _)[a]? = _
    rw [List.getElem?_set_ne (Nat.ne_of_gt ha), hd, List.getElem?_append_left ha]
  · show ((w.opened env).docs.set w.docs.length _).length = _
    rw [List.length_set, hd, List.length_append]; rfl
  · unfold Shared.view
    show (((w.opened env).docs.set w.docs.length _)[w.docs.length]?.map _).map _ = _
    rw [List.getElem?_set_self (by rw [hd, List.length_append]; exact Nat.lt_succ_self _)]
    rfl

/-- A second document next to one that has a term: its own root section takes the new term. -/
example : ((foreign1.opened exEnv).newTerm foreign1.next (py!"Root.Title") (.str (py!"T"))).docs.map (·.terms) = foreign1.docs.map (·.terms) ++ [[foreign1.next + 1]] ∧
    foreign1.docs.length = 2 := by
  decide +kernel

/-- **C84 fails when the document has no section of that name.** Then the other document's section itself becomes a section of this
document, and belongs to it from then on. A term that is made in the section of the first document after that goes to the list of the second
document and not to that of the first, although the section is one of the sections of the first document. -/
theorem C84_stolen_witness :
    (foreign1.addTerm 1 3).1 = .ok () ∧
    let w := (foreign1.addTerm 1 3).2.newTerm 2 (py!"Root.Note") (.str (py!"n"))
    (w.view 0).map (fun s => (s.sections.get? (py!"contacts"), s.terms)) = some (some 2, [3]) ∧
    (w.view 1).map (fun s => (s.sections.get? (py!"contacts"), s.terms)) = some (some 2, [3, 5]) ∧
    (w.heap 5).joinLc = py!"root.note" ∧ (w.heap 2).terms = [3, 5] := by
  decide +kernel

end Metatab
