import Verif.Lemmas.OutlineEdit
import Verif.Props.Remove
import Verif.Props.OutlineDict
/-! # C97: edits do on the outline what they say -/
namespace Metatab
open Py _root_.Spec

/-- Names other than `Root.Section` and `Root.Root` have no section class. -/
def _root_.Spec.NoSecClass (s : St) : Prop :=
  ∀ n, lower n ∉ [py!"root.section", py!"root.root"] → (docTermClass s n).isSection = false

theorem _root_.Spec.NoSecClass.congr {s s' : St} (h : NoSecClass s) (h1 : s'.classes = s.classes) (h2 : s'.superTerms = s.superTerms) : NoSecClass s' := by
  intro n hn
  unfold docTermClass
  rw [h1, h2]
  exact h n hn

/-- What an editable document is: names other than `Root.Section` and `Root.Root` have no section class, declared value names are usable,
only terms are listed as terms, the document lists the terms of its sections, and no sections are declared beyond those every parser starts
with. -/
structure _root_.Spec.Editable (s : St) : Prop where
  reach : Reach Op.noAddChild s
  usable : Usable s
  terms : TermsOnly s
  names : SecTvn s
  secs : ∀ n, n ∉ [py!"root", py!"declaredterms", py!"declaredsections"] → s.declSecs.get? n = none
  listed : AllListed s
  classes : NoSecClass s

theorem _root_.Spec.Editable.wf {s : St} (h : Editable s) : WF True s := h.reach.wf fun _ _ ha => ha

theorem reach_weaken {allow allow' : Op → Prop} (ha : ∀ op, allow op → allow' op) {s : St} (h : Reach allow s) : Reach allow' s := by
  induction h with
  | new env classes => exact .new env classes
  | step op _ h1 h2 ih => exact .step op ih (ha op h1) h2

/-- Editing one object that is a term leaves the lists of terms as they are. -/
theorem termsOnly_frame {s s' : St} (w : WF True s) (hT : TermsOnly s) {t : Nat} (ho : ∀ u, u ≠ t → u < s.next → s'.heap u = s.heap u)
    (hc : (s'.heap t).cls = (s.heap t).cls) (ht : (s'.heap t).terms = (s.heap t).terms) (hs : s'.sections = s.sections) : TermsOnly s' := by
  intro kv hkv u hu
  rw [hs] at hkv
  have h1 : (s'.heap kv.2).terms = (s.heap kv.2).terms := by
    by_cases e : kv.2 = t
    · rw [e, ht]
    · rw [ho _ e (w.secsLt _ hkv).1]
  rw [h1] at hu
  have h2 : (s'.heap u).cls = (s.heap u).cls := by
    by_cases e : u = t
    · rw [e, hc]
    · rw [ho _ e (w.secTermsLt _ _ hu)]
  rw [h2]
  exact hT kv hkv u hu

theorem secTvn_frame {s s' : St} (w : WF True s) (hT : SecTvn s) {t : Nat} (ho : ∀ u, u ≠ t → u < s.next → s'.heap u = s.heap u)
    (hc : (s'.heap t).rt = (s.heap t).rt ∧ (s'.heap t).tvn = (s.heap t).tvn) (ht : (s'.heap t).terms = (s.heap t).terms) (hs : s'.sections = s.sections)
    (hd : s'.declTerms = s.declTerms) : SecTvn s' := by
  refine ⟨by rw [hd]; exact hT.decl, fun kv hkv u hu => ?_⟩
  rw [hs] at hkv
  have h1 : (s'.heap kv.2).terms = (s.heap kv.2).terms := by
    by_cases e : kv.2 = t
    · rw [e, ht]
    · rw [ho _ e (w.secsLt _ hkv).1]
  rw [h1] at hu
  have h2 : (s'.heap u).rt = (s.heap u).rt ∧ (s'.heap u).tvn = (s.heap u).tvn := by
    by_cases e : u = t
    · rw [e]; exact hc
    · rw [ho _ e (w.secTermsLt _ _ hu)]; exact ⟨rfl, rfl⟩
  rw [h2.1, h2.2]
  exact hT.terms kv hkv u hu

theorem listed_frame {s s' : St} (w : WF True s) (hT : AllListed s) {t : Nat} (ho : ∀ u, u ≠ t → u < s.next → s'.heap u = s.heap u)
    (ht : (s'.heap t).terms = (s.heap t).terms) (hs : s'.sections = s.sections)
    (hl : ∀ kv ∈ s.sections, ∀ u ∈ (s.heap kv.2).terms, u ∈ s.terms → u ∈ s'.terms) : AllListed s' := by
  intro kv hkv u hu
  rw [hs] at hkv
  have h1 : (s'.heap kv.2).terms = (s.heap kv.2).terms := by
    by_cases e : kv.2 = t
    · rw [e, ht]
    · rw [ho _ e (w.secsLt _ hkv).1]
  rw [h1] at hu
  exact hl kv hkv u hu (hT kv hkv u hu)

/-- **C97** (values). Assigning a value to the term at a position changes the value at this position of the outline, and nothing else. -/
theorem C97_value {s : St} (h : Editable s) {D : List Part} (hD : Shows s D) {i j : Nat} {p : List Nat} {v : Option Str}
    (hok : Edit.ok D (.value i j p v)) : ∃ s', (Edit.value i j p v).run s = .ok () s' ∧ Shows s' ((Edit.value i j p v).apply D) ∧ Editable s' ∧ s'.declTerms = s.declTerms := by
  have w := h.wf
  obtain ⟨⟨n, v0, ks⟩, hk⟩ := Option.isSome_iff_exists.1 hok
  obtain ⟨kv, d, t, h1, h2, h3, h4, h5, h6, h7⟩ := docAt_shows w h.terms hD hk
  obtain ⟨s', hs'⟩ : ∃ s', s' = s.setObj t { s.heap t with value := asVal v } := ⟨_, rfl⟩
  have ho : ∀ u, u ≠ t → u < s.next → s'.heap u = s.heap u := fun u hu _ => by rw [hs', heap_setObj, if_neg hu]
  have ht : s'.heap t = { s.heap t with value := asVal v } := by rw [hs', heap_setObj, if_pos rfl]
  have hk' := showsItem_mk.1 h7.shows
  refine ⟨s', ?_, ?_, ⟨?_, h.usable.congr (by rw [hs']; rfl) (by rw [hs']; rfl) (by rw [hs']; rfl),
    termsOnly_frame w h.terms ho (by rw [ht]) (by rw [ht]) (by rw [hs']; rfl),
    secTvn_frame w h.names ho (by rw [ht]; exact ⟨rfl, rfl⟩) (by rw [ht]) (by rw [hs']; rfl) (by rw [hs']; rfl), by rw [hs']; exact h.secs,
    listed_frame w h.listed ho (by rw [ht]) (by rw [hs']; rfl) (fun _ _ _ _ hu => by rw [hs']; exact hu), h.classes.congr (by rw [hs']; rfl) (by rw [hs']; rfl)⟩, by rw [hs']; rfl⟩
  · unfold Edit.run
    dsimp only
    rw [bind_run, get_run]
    dsimp only
    rw [h5, hs']
    exact upd_run _ _ _
  · refine shows_edit w h.terms hD h1 hk h6 ho (by rw [ht]) (by rw [ht]) (by rw [hs']; rfl) (by rw [hs']; rfl) ?_
    dsimp only
    rw [showsItem_mk, ht]
    have hloop := shows_noLoop h7.shows
    have hkid : ∀ c ∈ (s.heap t).children, c ≠ t := fun c hc e => hloop (e ▸ hc)
    refine ⟨hk'.1, rfl, hk'.2.2.1, fun c hc => ?_, ?_⟩
    · rw [ho c (hkid c hc) (w.kidLt _ _ hc)]
      exact hk'.2.2.2.1 c hc
    · refine showsItems_keep ks (fun c hc u hu => ?_) hk'.2.2.2.2
      have h8 : u ≠ t := by
        rintro rfl
        have := Below.le w hu
        rcases w.edge trivial _ _ hc with h9 | h9
        · omega
        · exact hkid c hc h9.1.symm
      rw [hs', heap_setObj, if_neg h8]
  · have := Reach.step (.setValue t (asVal v)) h.reach trivial h7.lt
    have e' : after (Op.setValue t (asVal v)).run s = s' := by rw [hs']; rfl
    rw [e'] at this
    exact this

/-- **C97** (children). `new_child` of the term at a position, and `new_child` for everything below, puts the new item at the end of the
children at this position of the outline, and changes nothing else. -/
theorem C97_child {s : St} (h : Editable s) {D : List Part} (hD : Shows s D) {i j : Nat} {p : List Nat} {it : Item}
    (hok : Edit.ok D (.child i j p it)) : ∃ s', (Edit.child i j p it).run s = .ok () s' ∧ Shows s' ((Edit.child i j p it).apply D) ∧ Editable s' ∧ s'.declTerms = s.declTerms := by
  have w := h.wf
  obtain ⟨hok, hg⟩ := hok
  obtain ⟨⟨n, v0, ks⟩, hk⟩ := Option.isSome_iff_exists.1 hok
  obtain ⟨kv, d, t, h1, h2, h3, h4, h5, h6, h7⟩ := docAt_shows w h.terms hD hk
  have hk' := showsItem_mk.1 h7.shows
  obtain ⟨s', e, g, hlt, hp, hpt, hr, hsh⟩ := addKid_run it h7.lt h.usable hk'.2.2.1 hg
  have ho : ∀ u, u ≠ t → u < s.next → s'.heap u = s.heap u := fun u hu hl => g.old u hl hu
  have hsec : s'.sections = s.sections := by rw [g.rest]
  refine ⟨s', ?_, ?_, ⟨hr h.reach, g.usable h.usable, termsOnly_frame w h.terms ho (by rw [g.par]) (by rw [g.par]) hsec,
    secTvn_frame w h.names ho (by rw [g.par]; exact ⟨rfl, rfl⟩) (by rw [g.par]) hsec (by rw [g.rest]), by rw [g.rest]; exact h.secs,
    listed_frame w h.listed ho (by rw [g.par]) hsec (fun _ _ _ _ hu => by rw [g.rest]; exact hu), h.classes.congr (by rw [g.rest]) (by rw [g.rest])⟩, by rw [g.rest]⟩
  · unfold Edit.run
    dsimp only
    rw [bind_run, get_run]
    dsimp only
    rw [h5]
    exact e
  · refine shows_edit w h.terms hD h1 hk h6 ho (by rw [g.par]) (by rw [g.par]) hsec (by rw [g.rest]) ?_
    unfold Item.onKids
    rw [showsItem_mk, g.par]
    have hloop := shows_noLoop h7.shows
    have hkid : ∀ c ∈ (s.heap t).children, c ≠ t := fun c hc e => hloop (e ▸ hc)
    refine ⟨hk'.1, hk'.2.1, hk'.2.2.1, fun c hc => ?_, showsItems_append ?_ ?_⟩
    · rcases List.mem_append.1 hc with hc | hc
      · rw [ho c (hkid c hc) (w.kidLt _ _ hc)]
        exact hk'.2.2.2.1 c hc
      · rw [List.mem_singleton.1 hc]
        exact ⟨hp, hpt.trans hk'.1⟩
    · refine showsItems_keep ks (fun c hc u hu => ?_) hk'.2.2.2.2
      have h8 : u ≠ t := by
        rintro rfl
        have := Below.le w hu
        rcases w.edge trivial _ _ hc with h9 | h9
        · omega
        · exact hkid c hc h9.1.symm
      rw [ho u h8 ?_]
      rcases Relation.ReflTransGen.cases_tail hu with e | ⟨z, _, hc'⟩
      · rw [e]; exact w.kidLt _ _ hc
      · exact w.kidLt _ _ hc'
    · unfold ShowsItems
      exact ⟨s.next, [], rfl, hsh s' fun _ _ _ => rfl, by unfold ShowsItems; rfl⟩

/-- Removing a child that is not a root-level term. -/
theorem removeChild_kid {s : St} {t c : Nat} (hm : c ∈ (s.heap t).children) (hn : (s.heap t).children.Nodup) (hne : c ≠ t)
    (hc : (s.heap c).cls.isSection = false) (hp : (s.heap c).parent = some t) (hr : lower (s.heap c).pt ≠ ROOT) :
    removeChild t c s = .ok () { s.setObj t { s.heap t with children := (s.heap t).children.erase c } with terms := s.terms.erase c } := by
  obtain ⟨s1, hs1⟩ : ∃ s1, s1 = s.setObj t { s.heap t with children := (s.heap t).children.erase c } := ⟨_, rfl⟩
  have h1 : s1.heap c = s.heap c := by rw [hs1, heap_setObj, if_neg hne]
  have h1t : s1.heap t = { s.heap t with children := (s.heap t).children.erase c } := by rw [hs1, heap_setObj, if_pos rfl]
  have ht1 : s1.terms = s.terms := by rw [hs1]; rfl
  unfold removeChild
  rw [bind_run, obj_run]
  dsimp only
  rw [if_pos hm, bind_run, upd_run]
  dsimp only
  rw [← hs1]
  unfold removeTerm
  rw [bind_run, get_run]
  dsimp only
  rw [if_neg (by rw [h1, hc]; simp)]
  unfold removeRounds
  rw [h1, hp]
  dsimp only
  unfold removeTermF
  rw [bind_run, modify_run]
  dsimp only
  rw [bind_run, obj_run]
  dsimp only
  have fin : (do
      let o ← obj c
      match o.parent with
      | some q => do
        let po ← obj q
        if c ∈ po.children then do
          upd q fun oq => { oq with children := oq.children.erase c }
          removeTermF ((s1.heap t).children.count c + 1) c
      | none => pure () : M Unit) { s1 with terms := s1.terms.erase c } = .ok () { s1 with terms := s1.terms.erase c } := by
    rw [bind_run, obj_run]
    dsimp only
    rw [h1, hp]
    dsimp only
    rw [bind_run, obj_run]
    dsimp only
    rw [if_neg (by rw [h1t]; exact hn.not_mem_erase), pure_run]
  have hpr : lower (s1.heap c).pt ≠ ROOT := by rw [h1]; exact hr
  rw [← ht1]
  cases (s1.heap c).sec with
  | none => exact fin
  | some x => dsimp only; rw [if_neg hpr]; exact fin

theorem forall₂_eraseIdx {α β : Type} {R : α → β → Prop} : ∀ {l : List α} {m : List β} (i : Nat), List.Forall₂ R l m → List.Forall₂ R (l.eraseIdx i) (m.eraseIdx i)
  | [], _, i, .nil => by cases i <;> exact .nil
  | _ :: _, _ :: _, 0, .cons _ h => h
  | _ :: _, _ :: _, i + 1, .cons h1 h2 => .cons h1 (forall₂_eraseIdx i h2)

theorem erase_at {l : List Nat} (hn : l.Nodup) {i c : Nat} (h : l[i]? = some c) : l.erase c = l.eraseIdx i := by
  obtain ⟨a, b⟩ := List.getElem?_eq_some_iff.1 h
  rw [← b]
  exact hn.erase_getElem i a

/-- **C97** (removing children). `remove_child` removes the child at this place of the outline with everything below it, and changes nothing
else. -/
theorem C97_dropChild {s : St} (h : Editable s) {D : List Part} (hD : Shows s D) {i j : Nat} {p : List Nat} {m : Nat}
    (hok : Edit.ok D (.dropChild i j p m)) :
    ∃ s', (Edit.dropChild i j p m).run s = .ok () s' ∧ Shows s' ((Edit.dropChild i j p m).apply D) ∧ Editable s' ∧ s'.declTerms = s.declTerms := by
  have w := h.wf
  obtain ⟨n, v0, ks, hk, hnr, hml⟩ := hok
  obtain ⟨kv, d, t, h1, h2, h3, h4, h5, h6, h7⟩ := docAt_shows w h.terms hD hk
  have hk' := showsItem_mk.1 h7.shows
  have hloop := shows_noLoop h7.shows
  have hkid : ∀ c ∈ (s.heap t).children, c ≠ t := fun c hc e => hloop (e ▸ hc)
  have hf := showsItems_forall.1 hk'.2.2.2.2
  obtain ⟨c, hc⟩ : ∃ c, (s.heap t).children[m]? = some c := by
    rw [hf.length_eq] at hml
    exact ⟨_, List.getElem?_eq_getElem hml⟩
  have hcm := List.mem_of_getElem? hc
  have hlow : lower n = n := by rw [← hk'.1]; exact (w.low t).2
  have hrun := removeChild_kid hcm (w.kidNodup trivial t) (hkid c hcm) (w.kidSec trivial _ _ hcm) (w.kidPar trivial _ _ hcm) (by
    rw [(hk'.2.2.2.1 c hcm).2, hlow]
    exact hnr)
  obtain ⟨s', hs'⟩ : ∃ s' : St, s' = { s.setObj t { s.heap t with children := (s.heap t).children.erase c } with terms := s.terms.erase c } := ⟨_, rfl⟩
  rw [← hs'] at hrun
  have ho : ∀ u, u ≠ t → u < s.next → s'.heap u = s.heap u := fun u hu _ => by
    rw [hs']
    show (s.setObj t _).heap u = _
    rw [heap_setObj, if_neg hu]
  have ht : s'.heap t = { s.heap t with children := (s.heap t).children.eraseIdx m } := by
    rw [hs', ← erase_at (w.kidNodup trivial t) hc]
    show (s.setObj t _).heap t = _
    rw [heap_setObj, if_pos rfl]
  refine ⟨s', ?_, ?_, ⟨?_, h.usable.congr (by rw [hs']; rfl) (by rw [hs']; rfl) (by rw [hs']; rfl),
    termsOnly_frame w h.terms ho (by rw [ht]) (by rw [ht]) (by rw [hs']; rfl),
    secTvn_frame w h.names ho (by rw [ht]; exact ⟨rfl, rfl⟩) (by rw [ht]) (by rw [hs']; rfl) (by rw [hs']; rfl), by rw [hs']; exact h.secs,
    listed_frame w h.listed ho (by rw [ht]) (by rw [hs']; rfl) (fun a ha u hu hm => ?_), h.classes.congr (by rw [hs']; rfl) (by rw [hs']; rfl)⟩, by rw [hs']; rfl⟩
  · unfold Edit.run
    dsimp only
    rw [bind_run, get_run]
    dsimp only
    rw [h5]
    dsimp only
    rw [hc]
    exact hrun
  · refine shows_edit w h.terms hD h1 hk h6 ho (by rw [ht]) (by rw [ht]) (by rw [hs']; rfl) (by rw [hs']; rfl) ?_
    unfold Item.onKids
    rw [showsItem_mk, ht]
    have hsub : ∀ c ∈ (s.heap t).children.eraseIdx m, c ∈ (s.heap t).children := fun c hc => List.mem_of_mem_eraseIdx hc
    refine ⟨hk'.1, hk'.2.1, hk'.2.2.1, fun c hc => ?_, ?_⟩
    · rw [ho c (hkid c (hsub c hc)) (w.kidLt _ _ (hsub c hc))]
      exact hk'.2.2.2.1 c (hsub c hc)
    · refine showsItems_keep (s := s) _ (fun c hc u hu => ?_) (showsItems_forall.2 (forall₂_eraseIdx m hf))
      have hc := hsub c hc
      have h8 : u ≠ t := by
        rintro rfl
        have := Below.le w hu
        rcases w.edge trivial _ _ hc with h9 | h9
        · omega
        · exact hkid c hc h9.1.symm
      rw [ho u h8 ?_]
      rcases Relation.ReflTransGen.cases_tail hu with e | ⟨z, _, hc'⟩
      · rw [e]; exact w.kidLt _ _ hc
      · exact w.kidLt _ _ hc'
  · have := Reach.step (.removeChild t c) h.reach trivial ⟨h7.lt, w.kidLt _ _ hcm⟩
    have e' : after (Op.removeChild t c).run s = s' := by
      show after (removeChild t c) s = s'
      unfold after
      rw [hrun]
    rw [e'] at this
    exact this
  · have hne : u ≠ c := by
      rintro rfl
      obtain ⟨i', hi'⟩ := List.getElem?_of_mem ha
      obtain ⟨e, -, he⟩ := forall₂_get? hD.parts hi'
      have h8 := (he.rootLevel u hu).1
      rw [(hk'.2.2.2.1 u hcm).2] at h8
      exact hnr h8
    rw [hs']
    exact (List.mem_erase_of_ne hne).2 hm

/-- **C97** (new terms). `new_term` in a section, and `new_child` for everything below, puts the new item at the end of this section of the
outline, and changes nothing else. -/
theorem C97_term {s : St} (h : Editable s) {D : List Part} (hD : Shows s D) {i : Nat} {it : Item} (hok : Edit.ok D (.term i it)) :
    ∃ s', (Edit.term i it).run s = .ok () s' ∧ Shows s' ((Edit.term i it).apply D) ∧ Editable s' ∧ s'.declTerms = s.declTerms := by
  obtain ⟨⟨d, hd, hf⟩, hg⟩ := hok
  obtain ⟨⟨k, x⟩, h1, h2⟩ := forall₂_get? hD.parts.flip hd
  obtain ⟨s', a1, a2, a3, a4, a5, a6, a7, a8, a9, a10, a11, a12, a13⟩ := addItem_full h.reach h.usable hD h1 hd hf hg
  refine ⟨s', ?_, ?_, ⟨a3, a4, a9 h.terms, a10 h.names, by rw [a7]; exact h.secs, a11 h.listed, h.classes.congr a12 a13⟩, a6⟩
  · unfold Edit.run
    dsimp only
    rw [bind_run, get_run]
    dsimp only
    rw [h1]
    exact a1
  · unfold Edit.apply
    dsimp only
    rw [List.modify_eq_set_getElem?, hd]
    exact a2

/-- **C97** (new sections). -/
theorem C97_section {s : St} (h : Editable s) {D : List Part} (hD : Shows s D) {d : Part} (hok : Edit.ok D (.part d)) :
    ∃ s', (Edit.part d).run s = .ok () s' ∧ Shows s' ((Edit.part d).apply D) ∧ Editable s' ∧ s'.declTerms = s.declTerms := by
  obtain ⟨hg, hn, hnew⟩ := hok
  have hlen : s.sections.length = D.length := hD.parts.length_eq
  obtain ⟨s1, e1, h1, h2, h3, h4, h5, h6, h7, h8, h9, h10, h11⟩ := newSection_full h.reach hD hg hnew (h.secs _ hn)
  have hx1 : s1.sections[D.length]? = some (lower d.name, s.next) := by rw [h3, ← hlen]; simp
  obtain ⟨s2, e2, g1, g2, g3, g4, g5, g6, g7, g8, g9, g10, g11, g12⟩ := addItems_run d.items h2 (h.usable.congr h6 h7 h4) h1 (i := D.length) (d := { d with items := [] }) hx1
    (by simp) hg.free hg.items
  have hset : (D ++ [({ d with items := [] } : Part)]).set D.length { d with items := [] ++ lowL d.items } = D ++ [d.low] := by
    rw [List.set_append_right _ _ (Nat.le_refl _)]
    simp [Part.low]
  rw [hset] at g1
  refine ⟨s2, ?_, g1, ⟨g2, g3, g8 (h9 h.terms), g9 (h10 h.names), by rw [g6, h5]; exact h.secs, g10 (h11 h.listed), h.classes.congr (g11.trans h6) (g12.trans h7)⟩, g5.trans h4⟩
  unfold Edit.run
  dsimp only
  rw [bind_run, e1]
  exact e2

/-- **C97** (removing terms). `remove_term` of a root-level term removes it with everything below it from its section of the outline, and
changes nothing else. -/
theorem C97_dropTerm {s : St} (h : Editable s) {D : List Part} (hD : Shows s D) {i j : Nat} (hok : Edit.ok D (.dropTerm i j)) :
    ∃ s', (Edit.dropTerm i j).run s = .ok () s' ∧ Shows s' ((Edit.dropTerm i j).apply D) ∧ Editable s' ∧ s'.declTerms = s.declTerms := by
  have w := h.wf
  obtain ⟨⟨d, hd, hf⟩, n, v, ks, hk, hnd⟩ := hok
  obtain ⟨kv, d', t, h1, h2, h3, h4, h5, h6, h7⟩ := docAt_shows w h.terms hD hk
  rw [hd] at h2
  cases h2
  change (s.heap kv.2).terms[j]? = some t at h6
  have htm := List.mem_of_getElem? h6
  have hkm := List.mem_of_getElem? h1
  have hk' := showsItem_mk.1 h7.shows
  have hlv := h3.rootLevel t htm
  have hreg : s.sections.get? (lower d.name) = some kv.2 := by
    rw [← h3.key]
    exact Dict.get?_of_mem w.secsNodup hkm
  have hpl : Placed s t := by
    refine ⟨h7.notSec, fun x hx _ => ?_, fun x hx _ => ?_⟩
    · rw [hk'.2.2.1] at hx
      cases hx
      exact ⟨d.name, h3.name, hreg⟩
    · refine ⟨h.names.terms kv hkm t htm (by rw [hk'.1]; exact hnd), ?_⟩
      unfold propertyNames
      rw [if_neg (by rw [h7.notSec]; simp), hk'.2.2.1]
      dsimp only
      rw [h3.cols]
      exact hf
  have hrun := C16_removed (reach_weaken (fun _ _ => trivial) h.reach) hpl
  obtain ⟨s', hs'⟩ : ∃ s', s' = without s t := ⟨_, rfl⟩
  rw [← hs'] at hrun
  have hroot : lower (s.heap t).pt = ROOT := by rw [hlv.1]; decide
  have hheap : ∀ u, s'.heap u = { s.heap u with
      terms := if kv.2 = u then (s.heap u).terms.filter (· ≠ t) else (s.heap u).terms
      children := if (s.heap t).parent = some u then (s.heap u).children.filter (· ≠ t) else (s.heap u).children } := by
    intro u
    rw [hs']
    unfold without
    simp only [hroot, hk'.2.2.1, true_and, Option.some.injEq]
  have hsub : ∀ u, ∀ c ∈ (s'.heap u).terms, c ∈ (s.heap u).terms := by
    intro u c hc
    rw [hheap] at hc
    dsimp only at hc
    split at hc
    · exact (List.mem_filter.1 hc).1
    · exact hc
  have hcls : ∀ u, (s'.heap u).cls = (s.heap u).cls := fun u => by rw [hheap]
  have hsecs : s'.sections = s.sections := by rw [hs']; rfl
  have hsr : s'.root = s.root := by rw [hs']; rfl
  -- terms keep everything an outline depends on
  have hco : ∀ u, (s.heap u).cls.isSection = false → core (s'.heap u) = core (s.heap u) := by
    intro u hu
    have : (s.heap t).parent ≠ some u := by
      intro e
      rcases hlv.2 with hp | hp
      · rw [hp] at e; cases e
      · rw [hp] at e
        injection e with e
        rw [← e, w.rootSec] at hu
        cases hu
    rw [hheap, if_neg this]
    rfl
  refine ⟨s', ?_, ⟨?_, ?_⟩, ⟨?_, h.usable.congr (by rw [hs']; rfl) (by rw [hs']; rfl) (by rw [hs']; rfl), ?_, ⟨by rw [hs']; exact h.names.decl, ?_⟩,
    by rw [hs']; exact h.secs, ?_, h.classes.congr (by rw [hs']; rfl) (by rw [hs']; rfl)⟩, by rw [hs']; rfl⟩
  · unfold Edit.run
    dsimp only
    rw [bind_run, get_run]
    dsimp only
    rw [h5]
    exact hrun
  · rw [hsr, hheap]
    exact hD.rootName
  · rw [hsecs]
    have hlevel : ∀ a ∈ s.sections, ∀ e, ShowsPart s a e → ∀ u ∈ (s'.heap a.2).terms,
        (s'.heap u).pt = py!"root" ∧ ((s'.heap u).parent = none ∨ (s'.heap u).parent = some s'.root) := by
      intro a _ e he u hu
      rw [hsr, hheap]
      exact he.rootLevel u (hsub _ _ hu)
    have hkeep : ∀ a ∈ s.sections, ∀ l, (∀ c ∈ l, c ∈ (s.heap a.2).terms) → ∀ is, ShowsItems s a.2 is l → ShowsItems s' a.2 is l :=
      fun a ha l hl is hs => showsItems_keep is (fun c hc u hu => hco u (below_notSec w (h.terms a ha c (hl c hc)) hu)) hs
    refine forall₂_modify_right hD.parts ?_ ?_
    · intro a b e1 e2 hab
      rw [h1] at e1
      cases e1
      rw [hd] at e2
      cases e2
      have ht' : (s'.heap kv.2).terms = (s.heap kv.2).terms.eraseIdx j := by
        rw [hheap]
        show (if kv.2 = kv.2 then _ else _) = _
        rw [if_pos rfl, ← erase_filter (w.secTermsNodup _), erase_at (w.secTermsNodup _) h6]
      refine ⟨hab.key, by rw [hheap]; exact hab.name, by rw [hheap]; exact hab.cols, ?_, hlevel kv hkm d hab⟩
      rw [ht']
      exact hkeep kv hkm _ (fun c hc => List.mem_of_mem_eraseIdx hc) _ (showsItems_forall.2 (forall₂_eraseIdx j (showsItems_forall.1 hab.items)))
    · intro m a b hmi e1 e2 hab
      have ham := List.mem_of_getElem? e1
      have hne : kv.2 ≠ a.2 := fun e => hmi (secs_inj w hD e1 h1 e.symm)
      have ht' : (s'.heap a.2).terms = (s.heap a.2).terms := by
        rw [hheap]
        show (if kv.2 = a.2 then _ else _) = _
        rw [if_neg hne]
      refine ⟨hab.key, by rw [hheap]; exact hab.name, by rw [hheap]; exact hab.cols, ?_, hlevel a ham b hab⟩
      rw [ht']
      exact hkeep a ham _ (fun c hc => hc) _ hab.items
  · have := Reach.step (.removeTerm t) h.reach trivial h7.lt
    have e' : after (Op.removeTerm t).run s = s' := by
      show after (removeTerm t) s = s'
      unfold after
      rw [hrun]
    rw [e'] at this
    exact this
  · intro a ha u hu
    rw [hsecs] at ha
    rw [hcls]
    exact h.terms a ha u (hsub _ _ hu)
  · intro a ha u hu
    rw [hsecs] at ha
    rw [hheap u]
    exact h.names.terms a ha u (hsub _ _ hu)
  · intro a ha u hu
    rw [hsecs] at ha
    have hm := h.listed a ha u (hsub _ _ hu)
    have hne : u ≠ t := by
      rintro rfl
      by_cases e : kv.2 = a.2
      · rw [hheap] at hu
        dsimp only at hu
        rw [if_pos e] at hu
        simpa using (List.mem_filter.1 hu).2
      · obtain ⟨i', hi'⟩ := List.getElem?_of_mem ha
        obtain ⟨e', -, he⟩ := forall₂_get? hD.parts hi'
        obtain ⟨⟨n', v', ks'⟩, -, hs⟩ := showsItems_mem he.items (hsub _ _ hu)
        have h8 := (showsItem_mk.1 hs).2.2.1
        rw [hk'.2.2.1] at h8
        injection h8 with h8
        exact e h8
    rw [hs']
    unfold without
    exact List.mem_filter.2 ⟨hm, by simpa using hne⟩

end Metatab
