import Verif.Props.OutlineEdit
import Verif.Props.Items
import Verif.Props.Sort
import Verif.Lemmas.OutlineFind
import Verif.Lemmas.AgreeDoc
/-! # C97: deleting and sorting sections, `get_or_new_child` -/
namespace Metatab
open Py _root_.Spec

/-! ## Only the table of sections and the list of terms change -/

theorem shows_secs {s s' : St} (hh : s'.heap = s.heap) (hr : s'.root = s.root) {kv : Str × Nat} {d : Part} (h : ShowsPart s kv d) : ShowsPart s' kv d := by
  have hi : ∀ {is : List Item} {l : List Nat}, ShowsItems s kv.2 is l → ShowsItems s' kv.2 is l :=
    fun h => showsItems_keep _ (fun _ _ u _ => by rw [hh]) h
  refine ⟨h.key, by rw [hh]; exact h.name, by rw [hh]; exact h.cols, by rw [hh]; exact hi h.items, ?_⟩
  rw [hh, hr]
  exact h.rootLevel

theorem del_at : ∀ {d : Dict Nat} {i : Nat} {kv : Str × Nat}, d.keys.Nodup → d[i]? = some kv → d.del kv.1 = d.eraseIdx i
  | [], _, _, _, h => by simp at h
  | (k, x) :: d, 0, kv, _, h => by
    simp at h
    subst h
    unfold Dict.del
    rw [if_pos rfl]
    rfl
  | (k, x) :: d, i + 1, kv, hn, h => by
    have hn' := List.nodup_cons.1 (show (k :: Dict.keys d).Nodup from hn)
    have h' : d[i]? = some kv := by simpa using h
    have hk : k ≠ kv.1 := by
      rintro rfl
      exact hn'.1 (List.mem_map.2 ⟨kv, List.mem_of_getElem? h', rfl⟩)
    rw [Dict.del, if_neg hk, List.eraseIdx_cons_succ, del_at hn'.2 h']

/-- **C97** (deleting sections). `del doc[name]`, with the name in lower case, removes the section with all its terms from the outline, and
changes nothing else. -/
theorem C97_dropPart {s : St} (h : Editable s) {D : List Part} (hD : Shows s D) {i : Nat} (hok : Edit.ok D (.dropPart i)) :
    ∃ s', (Edit.dropPart i).run s = .ok () s' ∧ Shows s' ((Edit.dropPart i).apply D) ∧ Editable s' ∧ s'.declTerms = s.declTerms := by
  have w := h.wf
  obtain ⟨d, hd⟩ : ∃ d, D[i]? = some d := ⟨_, List.getElem?_eq_getElem hok⟩
  obtain ⟨kv, h1, h2⟩ := forall₂_get? hD.parts.flip hd
  have hm := List.mem_of_getElem? h1
  have hg := Dict.get?_of_mem w.secsNodup hm
  have hlow : lower kv.1 = kv.1 := by rw [h2.key, lower_lower]
  obtain ⟨r, e, hr1, hr2⟩ := removeAll_ok (w.secTermsNodup kv.2) (fun t ht => h.listed kv hm t ht) w.termsNodup
  obtain ⟨s', hs'⟩ : ∃ s' : St, s' = { s with terms := r, sections := s.sections.eraseIdx i } := ⟨_, rfl⟩
  have hrun : delSection kv.1 s = .ok () s' := by
    unfold delSection
    rw [bind_run, get_run]
    dsimp only
    rw [hg]
    dsimp only
    rw [bind_run, e]
    dsimp only
    rw [modify_run, hs', hlow]
    rw [del_at w.secsNodup h1]
  have hh : s'.heap = s.heap := by rw [hs']
  have hroot : s'.root = s.root := by rw [hs']
  have hsec : s'.sections = s.sections.eraseIdx i := by rw [hs']
  have hsub : ∀ a ∈ s'.sections, a ∈ s.sections := fun a ha => by rw [hsec] at ha; exact List.mem_of_mem_eraseIdx ha
  refine ⟨s', ?_, ⟨by rw [hroot, hh]; exact hD.rootName, ?_⟩, ⟨?_, h.usable.congr (by rw [hs']) (by rw [hs']) (by rw [hs']), ?_, ⟨?_, ?_⟩, ?_, ?_,
    h.classes.congr (by rw [hs']) (by rw [hs'])⟩, by rw [hs']⟩
  · unfold Edit.run
    dsimp only
    rw [bind_run, get_run]
    dsimp only
    rw [h1]
    exact hrun
  · rw [hsec]
    exact (forall₂_eraseIdx i hD.parts).imp fun a b hab => shows_secs hh hroot hab
  · have := Reach.step (.delSection kv.1) h.reach trivial trivial
    have e' : after (Op.delSection kv.1).run s = s' := by
      show after (delSection kv.1) s = s'
      unfold after
      rw [hrun]
    rw [e'] at this
    exact this
  · intro a ha
    rw [hh]
    exact h.terms a (hsub a ha)
  · rw [hs']; exact h.names.decl
  · intro a ha
    rw [hh]
    exact h.names.terms a (hsub a ha)
  · rw [hs']; exact h.secs
  · intro a ha u hu
    rw [hh] at hu
    have ha' := hsub a ha
    rw [show s'.terms = r by rw [hs']]
    refine (hr2 u).2 ⟨h.listed a ha' u hu, fun hc => ?_⟩
    rw [hsec] at ha
    obtain ⟨j, hj⟩ := List.getElem?_of_mem ha'
    obtain ⟨b, -, hb⟩ := forall₂_get? hD.parts hj
    obtain ⟨⟨n, v, ks⟩, -, s1⟩ := showsItems_mem hb.items hu
    obtain ⟨⟨n', v', ks'⟩, -, s2⟩ := showsItems_mem h2.items hc
    have e1 := (showsItem_mk.1 s1).2.2.1
    rw [(showsItem_mk.1 s2).2.2.1] at e1
    injection e1 with e1
    have hji := secs_inj w hD h1 hj e1
    subst hji
    rw [h1] at hj
    cases hj
    obtain ⟨m, hm'⟩ := List.getElem?_of_mem ha
    rw [List.getElem?_eraseIdx] at hm'
    split at hm'
    · have := secs_inj w hD hm' h1 rfl
      omega
    · have := secs_inj w hD hm' h1 rfl
      omega

/-- **C97** (sorting sections). `sort_sections` puts the sections named first, in the order of the names, and the others after them in the
order they had, and changes nothing else. -/
theorem C97_order {s : St} (h : Editable s) {D : List Part} (hD : Shows s D) {names : List Str} :
    ∃ s', (Edit.order names).run s = .ok () s' ∧ Shows s' ((Edit.order names).apply D) ∧ Editable s' ∧ s'.declTerms = s.declTerms := by
  have w := h.wf
  obtain ⟨d, hrun, hp, hd⟩ := C22_sort_sections s w.secsNodup names
  obtain ⟨s', hs'⟩ : ∃ s' : St, s' = { s with sections := d } := ⟨_, rfl⟩
  rw [← hs'] at hrun
  have hh : s'.heap = s.heap := by rw [hs']
  have hroot : s'.root = s.root := by rw [hs']
  have hsec : s'.sections = d := by rw [hs']
  have hsub : ∀ a ∈ s'.sections, a ∈ s.sections := fun a ha => by rw [hsec] at ha; exact hp.mem_iff.1 ha
  refine ⟨s', hrun, ⟨by rw [hroot, hh]; exact hD.rootName, ?_⟩, ⟨?_, h.usable.congr (by rw [hs']) (by rw [hs']) (by rw [hs']),
    fun a ha => by rw [hh]; exact h.terms a (hsub a ha), ⟨by rw [hs']; exact h.names.decl, fun a ha => by rw [hh]; exact h.names.terms a (hsub a ha)⟩,
    by rw [hs']; exact h.secs, fun a ha u hu => by rw [hh] at hu; rw [hs']; exact h.listed a (hsub a ha) u hu,
    h.classes.congr (by rw [hs']) (by rw [hs'])⟩, by rw [hs']⟩
  · rw [hsec, hd]
    refine List.Forall₂.imp (R := ShowsPart s) (fun a b hab => shows_secs hh hroot hab) ?_
    show List.Forall₂ _ _ (orderParts _ _)
    unfold orderParts named
    refine List.rel_append ?_ (forall₂_filter hD.parts fun a b hab => by rw [hab.key])
    have key : ∀ k, Option.Rel (ShowsPart s) ((s.sections.get? k).map fun v => (k, v)) (D.find? fun d => decide (lower d.name = k)) := by
      intro k
      have : ∀ {l : Dict Nat} {m : List Part}, List.Forall₂ (ShowsPart s) l m →
          Option.Rel (ShowsPart s) ((l.get? k).map fun v => (k, v)) (m.find? fun d => decide (lower d.name = k)) := by
        intro l m hf
        induction hf with
        | nil => exact .none
        | @cons a b l m hab _ ih =>
          obtain ⟨k', x⟩ := a
          rw [Dict.get?_cons]
          have hk := hab.key
          dsimp only at hk
          by_cases e : k' = k
          · subst e
            rw [if_pos rfl, List.find?_cons_of_pos (by simpa using hk.symm)]
            exact .some hab
          · rw [if_neg e, List.find?_cons_of_neg (by simpa [← hk] using e)]
            exact ih
      exact this hD.parts
    generalize firsts (names.map lower) = ns
    induction ns with
    | nil => exact .nil
    | cons n ns ih =>
      have := key n
      rw [List.filterMap_cons, List.filterMap_cons]
      revert this
      generalize (s.sections.get? n).map (fun v => (n, v)) = a
      generalize D.find? (fun d => decide (lower d.name = n)) = b
      intro hab
      cases hab with
      | none => exact ih
      | some hab => exact .cons hab ih
  · have := Reach.step (.sortSections names) h.reach trivial trivial
    have e' : after (Op.sortSections names).run s = s' := by
      show after (sortSections names) s = s'
      unfold after
      rw [hrun]
    rw [e'] at this
    exact this

/-! ## `get_or_new_child` -/

theorem termAt_snoc {s : St} {m : Nat} : ∀ {p : List Nat} {l : List Nat} {j t : Nat}, termAt s l j p = some t →
    termAt s l j (p ++ [m]) = (s.heap t).children[m]?
  | [], l, j, t, h => by
    unfold termAt at h
    rw [List.nil_append, termAt, h]
    rfl
  | k :: p, l, j, t, h => by
    rw [termAt] at h
    rw [List.cons_append, termAt]
    split at h
    · exact termAt_snoc h
    · cases h

theorem itemAt_snoc {m : Nat} {n : Str} {v : Option Str} {ks : List Item} : ∀ {p : List Nat} {is : List Item} {j : Nat}, itemAt is j p = some (.mk n v ks) →
    itemAt is j (p ++ [m]) = ks[m]?
  | [], is, j, h => by
    unfold itemAt at h
    rw [List.nil_append, itemAt, h]
    rfl
  | k :: p, is, j, h => by
    rw [itemAt] at h
    rw [List.cons_append, itemAt]
    split at h
    · exact itemAt_snoc h
    · cases h

theorem modify_congr_at {α : Type} {f g : α → α} : ∀ {l : List α} {i : Nat}, (∀ a, l[i]? = some a → f a = g a) → l.modify i f = l.modify i g
  | [], i, _ => by cases i <;> rfl
  | a :: l, 0, h => by
    show f a :: l = g a :: l
    rw [h a rfl]
  | a :: l, i + 1, h => by
    show a :: l.modify i f = a :: l.modify i g
    rw [modify_congr_at fun b hb => h b (by simpa using hb)]

/-- Editing a child is editing the children of the item above. -/
theorem editIn_snoc {f : Item → Item} {m : Nat} {g : List Item → List Item} {n : Str} {v : Option Str} {ks : List Item} (hg : g ks = ks.modify m f) :
    ∀ {p : List Nat} {is : List Item} {j : Nat}, itemAt is j p = some (.mk n v ks) → editIn (Item.onKids g) is j p = editIn f is j (p ++ [m])
  | [], is, j, h => by
    unfold itemAt at h
    rw [List.nil_append, editIn, editIn]
    refine modify_congr_at fun a ha => ?_
    rw [h] at ha
    cases ha
    show Item.mk n v (g ks) = Item.mk n v (editIn f ks m [])
    rw [editIn, hg]
  | k :: p, is, j, h => by
    rw [itemAt] at h
    rw [List.cons_append, editIn, editIn]
    refine modify_congr_at fun a ha => ?_
    rw [ha] at h
    obtain ⟨n', v', ks'⟩ := a
    show Item.mk n' v' (editIn (Item.onKids g) ks' k p) = Item.mk n' v' (editIn f ks' k (p ++ [m]))
    rw [editIn_snoc hg h]

theorem setKid_first {n : Str} {v : Option Str} : ∀ {pre post : List Item} {k : Item}, (∀ i ∈ pre, i.name ≠ n) → k.name = n →
    setKid n v (pre ++ k :: post) = (pre ++ k :: post).modify pre.length (fun | .mk m _ ks => .mk m v ks)
  | [], post, .mk m u ks, _, h => by
    show setKid n v (.mk m u ks :: post) = _
    rw [setKid, if_pos (show m = n from h)]
    rfl
  | .mk m u ks :: pre, post, k, hp, h => by
    show setKid n v (.mk m u ks :: (pre ++ k :: post)) = _
    rw [setKid, if_neg (show ¬ m = n from hp (.mk m u ks) List.mem_cons_self), setKid_first (fun i hi => hp i (List.mem_cons_of_mem _ hi)) h]
    rfl

theorem setKid_none {n : Str} {v : Option Str} : ∀ {ks : List Item}, (∀ i ∈ ks, i.name ≠ n) → setKid n v ks = ks ++ [.mk n v []]
  | [], _ => rfl
  | .mk m u r :: ks, hp => by
    rw [setKid, if_neg (show ¬ m = n from hp (.mk m u r) List.mem_cons_self), setKid_none fun i hi => hp i (List.mem_cons_of_mem _ hi)]
    rfl

/-- **C97** (`get_or_new_child`). The first child of the name gets the value; if there is none, the term gets a new one at the end.
Nothing else changes. -/
theorem C97_setChild {s : St} (h : Editable s) {D : List Part} (hD : Shows s D) {i j : Nat} {p : List Nat} {n : Str} {v : Option Str}
    (hok : Edit.ok D (.setChild i j p n v)) :
    ∃ s', (Edit.setChild i j p n v).run s = .ok () s' ∧ Shows s' ((Edit.setChild i j p n v).apply D) ∧ Editable s' ∧ s'.declTerms = s.declTerms := by
  have w := h.wf
  obtain ⟨m, u, ks, hk, hpm, hnr, hpn, hns, hcv⟩ := hok
  obtain ⟨kv, d, t, h1, h2, h3, h4, h5, h6, h7⟩ := docAt_shows w h.terms hD hk
  have hk' := showsItem_mk.1 h7.shows
  have hf := showsItems_forall.1 hk'.2.2.2.2
  have hlow : ∀ c, lower (s.heap c).rt = (s.heap c).rt := fun c => (w.low c).2
  have hsp : splitTerm n = .ok (ROOT, n) := by rw [splitTerm_nodot hpn.nodot, hpn.stripped]
  have hname : ∀ k c, ShowsItem s kv.2 k c → k.name = (s.heap c).rt := fun ⟨_, _, _⟩ c hs => (showsItem_mk.1 hs).1.symm
  rcases first_or_none s.heap t n with ⟨c, hc⟩ | hno
  · -- there is one
    obtain ⟨pre, post, e1, e2, e3⟩ := id hc
    rw [e1] at hf
    obtain ⟨ipre, irest, a1, a2, a3⟩ : ∃ ipre irest, List.Forall₂ (ShowsItem s kv.2) ipre pre ∧ List.Forall₂ (ShowsItem s kv.2) irest (c :: post) ∧
        ks = ipre ++ irest := by
      refine ⟨ks.take pre.length, ks.drop pre.length, ?_, ?_, (List.take_append_drop _ _).symm⟩
      · have := List.forall₂_take pre.length hf
        simpa using this
      · have := List.forall₂_drop pre.length hf
        simpa using this
    cases a2 with
    | @cons k _ ipost _ b1 b2 =>
      have hlen : ipre.length = pre.length := a1.length_eq
      have hset : setKid (lower n) v ks = ks.modify pre.length (fun | .mk m _ ks => .mk m v ks) := by
        rw [a3, ← hlen]
        refine setKid_first (fun i hi => ?_) ?_
        · obtain ⟨c', hc', hs⟩ := forall₂_right a1.flip i hi
          rw [hname _ _ hs, ← hlow]
          exact e3 c' hc'
        · rw [hname _ _ b1, ← hlow]
          exact e2
      have hkm : ks[pre.length]? = some k := by rw [a3, ← hlen]; simp
      have hout : outlineAt D i j (p ++ [pre.length]) = some k := by
        unfold outlineAt
        rw [h2]
        dsimp only
        rw [itemAt_snoc h4, hkm]
      obtain ⟨s', g1, g2, g3, g4⟩ := C97_value (v := v) h hD (i := i) (j := j) (p := p ++ [pre.length]) (by
        show (outlineAt D i j _).isSome = true
        rw [hout]
        rfl)
      have hat : docAt s i j (p ++ [pre.length]) = some c := by
        unfold docAt
        rw [h1]
        dsimp only
        rw [termAt_snoc h6, e1]
        simp
      have hval : (Edit.value i j (p ++ [pre.length]) v).run s = .ok () (s.setObj c { s.heap c with value := asVal v }) := by
        unfold Edit.run
        dsimp only
        rw [bind_run, get_run]
        dsimp only
        rw [hat]
        exact upd_run _ _ _
      refine ⟨s', ?_, ?_, g3, g4⟩
      · rw [hval] at g1
        unfold Edit.run
        dsimp only
        rw [bind_run, get_run]
        dsimp only
        rw [h5]
        dsimp only
        rw [bind_run, C19_found h7.notSec hsp hc, if_neg (by cases v <;> simp [asVal])]
        have hw : withValue s c (asVal v) = s.setObj c { s.heap c with value := asVal v } := by
          unfold withValue St.setObj
          congr 1
        rw [hw]
        injection g1 with _ g1
        rw [← g1]
        rfl
      · have : (Edit.setChild i j p n v).apply D = (Edit.value i j (p ++ [pre.length]) v).apply D := by
          show D.modify i _ = D.modify i _
          refine modify_congr_at fun a ha => ?_
          rw [h2] at ha
          cases ha
          show Part.mk d.name d.cols (editIn (Item.onKids fun ks => setKid (lower n) v ks) d.items j p) = _
          rw [editIn_snoc (g := fun ks => setKid (lower n) v ks) hset h4]
          rfl
        rw [this]
        exact g2
  · -- there is none
    have hcan : CanHave s t n := by
      have hrt : (s.heap t).rt = m := hk'.1
      refine ⟨h7.notSec, by rw [hrt]; exact hpm, hlow t, hpn, ?_, ?_⟩
      · refine h.classes _ ?_
        have hl : lower (lower (dotJoin (s.heap t).rt n)) = dotJoin m (lower n) := by
          rw [lower_lower]
          unfold dotJoin
          rw [lower_append, ← List.singleton_append, lower_append, hlow, hrt]
          rfl
        rw [hl]
        intro hm
        rcases List.mem_cons.1 hm with e | hm
        · exact hnr ((dotJoin_inj (c := py!"root") (d := py!"section") (by decide) (by decide)).1 e).1
        · exact hnr ((dotJoin_inj (c := py!"root") (d := py!"root") (by decide) (by decide)).1 (List.mem_singleton.1 hm)).1
      · intro e
        exact hns ((dotJoin_inj (c := py!"datafile") (d := py!"section") (by decide) (by decide)).1 e).2
    have hrun := C19_new (reach_weaken (fun _ _ => trivial) h.reach) h7.lt hsp hcan hno (asVal v)
    obtain ⟨s', hs'⟩ : ∃ s', s' = withChild s t (childObj s t n (asVal v)) := ⟨_, rfl⟩
    rw [← hs'] at hrun
    have hlt := h7.lt
    have hnew : s'.heap s.next = childObj s t n (asVal v) := by rw [hs']; exact if_pos rfl
    have ho : ∀ u, u ≠ t → u < s.next → s'.heap u = s.heap u := fun u hu hl => by
      rw [hs']
      show (if u = s.next then _ else if u = t then _ else _) = _
      rw [if_neg (by omega), if_neg hu]
    have ht : s'.heap t = { s.heap t with children := (s.heap t).children ++ [s.next] } := by
      rw [hs']
      show (if t = s.next then _ else if t = t then _ else _) = _
      rw [if_neg (by omega), if_pos rfl]
    have hloop := shows_noLoop h7.shows
    have hkid : ∀ c ∈ (s.heap t).children, c ≠ t := fun c hc e => hloop (e ▸ hc)
    have hkeep : ∀ c ∈ (s.heap t).children, ∀ u, Below s c u → s'.heap u = s.heap u := by
      intro c hc u hu
      refine ho u ?_ ?_
      · rintro rfl
        have := Below.le w hu
        rcases w.edge trivial _ _ hc with h9 | h9
        · omega
        · exact hkid c hc h9.1.symm
      · rcases Relation.ReflTransGen.cases_tail hu with e | ⟨z, _, hc'⟩
        · rw [e]; exact w.kidLt _ _ hc
        · exact w.kidLt _ _ hc'
    refine ⟨s', ?_, ?_, ⟨?_, h.usable.congr (by rw [hs']; rfl) (by rw [hs']; rfl) (by rw [hs']; rfl), termsOnly_frame w h.terms ho (by rw [ht]) (by rw [ht]) (by rw [hs']; rfl),
      secTvn_frame w h.names ho (by rw [ht]; exact ⟨rfl, rfl⟩) (by rw [ht]) (by rw [hs']; rfl) (by rw [hs']; rfl), by rw [hs']; exact h.secs,
      listed_frame w h.listed ho (by rw [ht]) (by rw [hs']; rfl) (fun _ _ _ _ hu => by rw [hs']; exact hu), h.classes.congr (by rw [hs']; rfl) (by rw [hs']; rfl)⟩,
      by rw [hs']; rfl⟩
    · unfold Edit.run
      dsimp only
      rw [bind_run, get_run]
      dsimp only
      rw [h5]
      dsimp only
      rw [bind_run, hrun]
      rfl
    · refine shows_edit w h.terms hD h1 hk h6 ho (by rw [ht]) (by rw [ht]) (by rw [hs']; rfl) (by rw [hs']; rfl) ?_
      have hset : setKid (lower n) v ks = ks ++ [.mk (lower n) v []] := setKid_none fun i hi => by
        obtain ⟨c', hc', hs⟩ := forall₂_right hf.flip i hi
        rw [hname _ _ hs, ← hlow]
        exact hno c' hc'
      show ShowsItem s' kv.2 (.mk m u (setKid (lower n) v ks)) t
      rw [hset, showsItem_mk, ht]
      refine ⟨hk'.1, hk'.2.1, hk'.2.2.1, fun c hc => ?_, showsItems_append ?_ ?_⟩
      · rcases List.mem_append.1 hc with hc | hc
        · rw [hkeep c hc c .refl]
          exact hk'.2.2.2.1 c hc
        · rw [List.mem_singleton.1 hc, hnew]
          exact ⟨rfl, (hlow t).trans hk'.1⟩
      · exact showsItems_keep ks (fun c hc u hu => by rw [hkeep c hc u hu]) hk'.2.2.2.2
      · unfold ShowsItems
        refine ⟨s.next, [], rfl, ?_, by unfold ShowsItems; rfl⟩
        rw [showsItem_mk, hnew]
        refine ⟨rfl, asVal_stored hcv, hk'.2.2.1, fun c hc => (by cases hc), ?_⟩
        unfold ShowsItems
        rfl
    · have := Reach.step (.getOrNewChild t n (asVal v) []) h.reach trivial h7.lt
      have e' : after (Op.getOrNewChild t n (asVal v) []).run s = s' := by
        show after (do let _ ← getOrNewChild t n (asVal v) []) s = s'
        unfold after
        rw [bind_run, hrun]
        rfl
      rw [e'] at this
      exact this

end Metatab
