import Verif.Props.EditMore
import Verif.Props.Columns
/-! # C97: sorting the terms of a section, adding and removing columns -/
namespace Metatab
open Py _root_.Spec

/-! ## Sorting items and sorting objects -/

theorem strLe_prefix (p a b : Str) : strLe (p ++ a) (p ++ b) = strLe a b := by
  induction p with
  | nil => rfl
  | cons c p ih => simp [strLe, ih]

theorem strLe_iff (a b : Str) : strLe a b = true ↔ a ≤ b := by
  induction a generalizing b with
  | nil => simp [strLe]
  | cons c a ih =>
    cases b with
    | nil => simp [strLe]
    | cons d b =>
      rw [List.cons_le_cons_iff, ← ih b]
      simp only [strLe, Bool.or_eq_true, decide_eq_true_eq, Bool.and_eq_true, beq_iff_eq]
      constructor
      · rintro (h | ⟨h1, h2⟩)
        · exact .inl h
        · exact .inr ⟨char_toNat_inj h1, h2⟩
      · rintro (h | ⟨rfl, h2⟩)
        · exact .inl h
        · exact .inr ⟨rfl, h2⟩

/-- Root-level objects and the items they show. -/
def TopShows (s : St) (x : Nat) (k : Item) (t : Nat) : Prop := ShowsItem s x k t ∧ (s.heap t).pt = py!"root"

theorem TopShows.name {s : St} {x t : Nat} {k : Item} (h : TopShows s x k t) : (s.heap t).rt = k.name := by
  obtain ⟨n, v, ks⟩ := k
  exact (showsItem_mk.1 h.1).1

theorem TopShows.le {s : St} {x t u : Nat} {k j : Item} (h : TopShows s x k t) (h' : TopShows s x j u) :
    strLe (s.heap t).joinLc (s.heap u).joinLc = true ↔ lower k.name ≤ lower j.name := by
  unfold Obj.joinLc
  rw [h.2, h'.2, h.name, h'.name, ← strLe_iff]
  show strLe (lower (py!"root") ++ '.' :: lower k.name) (lower (py!"root") ++ '.' :: lower j.name) = true ↔ _
  rw [strLe_prefix]
  show strLe (['.'] ++ lower k.name) (['.'] ++ lower j.name) = true ↔ _
  rw [strLe_prefix]

theorem insert_shows {s : St} {x t : Nat} {k : Item} (h : TopShows s x k t) {is : List Item} {ts : List Nat} (hs : List.Forall₂ (TopShows s x) is ts) :
    List.Forall₂ (TopShows s x) (insertItem k is) (insertBy (fun t => (s.heap t).joinLc) t ts) := by
  induction hs with
  | nil => exact .cons h .nil
  | cons hab hl ih =>
    rename_i j u _ _
    rw [insertItem, insertBy]
    by_cases hle : lower k.name ≤ lower j.name
    · rw [if_pos hle, if_pos ((h.le hab).2 hle)]
      exact .cons h (.cons hab hl)
    · rw [if_neg hle, if_neg fun e => hle ((h.le hab).1 e)]
      exact .cons hab ih

theorem sort_shows {s : St} {x : Nat} {is : List Item} {ts : List Nat} (hs : List.Forall₂ (TopShows s x) is ts) :
    List.Forall₂ (TopShows s x) (is.foldr insertItem []) (sortByName s.heap ts) := by
  unfold sortByName sortBy
  induction hs with
  | nil => exact .nil
  | cons hab _ ih => exact insert_shows hab ih

theorem order_shows {s : St} {x : Nat} : ∀ {names : List Str}, (∀ n ∈ names, PlainPart n) → ∀ {is : List Item} {ts : List Nat},
    List.Forall₂ (TopShows s x) is ts → ∃ l, orderedTerms s.heap (names.map (dotJoin (py!"root"))) ts = .ok l ∧
      List.Forall₂ (TopShows s x) (sortItems names is) l ∧ ∀ t ∈ l, t ∈ ts
  | [], _, is, ts, hs => ⟨_, rfl, sort_shows hs, fun t ht => (sortBy_perm _ _).mem_iff.1 ht⟩
  | n :: ns, hn, is, ts, hs => by
    have hp : PlainPart (py!"root") := ⟨by decide, by decide, by decide⟩
    have hm : ∀ k t, TopShows s x k t → (NameMatches (py!"root", n) (s.heap t).pt (s.heap t).rt ↔ PartMatches n k.name) := by
      intro k t h
      unfold NameMatches
      rw [h.2, h.name]
      exact and_iff_right (show PartMatches (py!"root") (py!"root") by decide)
    have hs1 : List.Forall₂ (TopShows s x) (is.filter fun k => decide (PartMatches n k.name))
        (ts.filter fun t => decide (NameMatches (py!"root", n) (s.heap t).pt (s.heap t).rt)) :=
      (forall₂_filter hs fun a b hab => by simp only [hm a b hab])
    have hs2 : List.Forall₂ (TopShows s x) (is.filter fun k => !decide (PartMatches n k.name))
        (ts.filter fun t => decide (¬ NameMatches (py!"root", n) (s.heap t).pt (s.heap t).rt)) :=
      (forall₂_filter hs fun a b hab => by simp only [hm a b hab, decide_not])
    obtain ⟨l, h1, h2, h3⟩ := order_shows (fun m h => hn m (List.mem_cons_of_mem _ h)) hs2
    refine ⟨_ ++ l, ?_, List.rel_append hs1 h2, ?_⟩
    · rw [List.map_cons, orderedTerms, takeMatching_eq s.heap (q := (py!"root", n)) ⟨hp, hn n List.mem_cons_self⟩]
      show (orderedTerms s.heap _ _ >>= _) = _
      rw [h1]
      rfl
    · intro t ht
      rcases List.mem_append.1 ht with h | h
      · exact (List.mem_filter.1 h).1
      · exact (List.mem_filter.1 (h3 t h)).1

/-! ## Only the object of a section changes -/

/-- A section gets another list of its terms, or other columns. -/
theorem section_frame {s : St} (h : Editable s) {D : List Part} (hD : Shows s D) {i : Nat} {kv : Str × Nat} {d d' : Part} (h1 : s.sections[i]? = some kv)
    (hd : D[i]? = some d) {f : Part → Part} (hf : f d = d') {o : Obj} (hcls : o.cls = (s.heap kv.2).cls) (hrt : o.rt = (s.heap kv.2).rt)
    (hval : o.value = (s.heap kv.2).value) (hname : d'.name = d.name) (hcols : o.secPropertyNames = d'.cols) (hits : ShowsItems s kv.2 d'.items o.terms)
    (hsub : ∀ t ∈ o.terms, t ∈ (s.heap kv.2).terms) (hreach : Reach Op.noAddChild (s.setObj kv.2 o)) :
    Shows (s.setObj kv.2 o) (D.modify i f) ∧ Editable (s.setObj kv.2 o) := by
  have w := h.wf
  have hkm := List.mem_of_getElem? h1
  have hx := (w.secsLt kv hkm).2.1
  obtain ⟨s', hs'⟩ : ∃ s', s' = s.setObj kv.2 o := ⟨_, rfl⟩
  rw [← hs'] at hreach ⊢
  have hsame : s'.heap kv.2 = o := by rw [hs']; exact if_pos rfl
  have hother : ∀ u, u ≠ kv.2 → s'.heap u = s.heap u := fun u hu => by rw [hs']; exact if_neg hu
  have hne : ∀ u, (s.heap u).cls.isSection = false → u ≠ kv.2 := by
    rintro u hu rfl
    rw [hx] at hu
    cases hu
  have hsecs : s'.sections = s.sections := by rw [hs']; rfl
  have hroot : s'.root = s.root := by rw [hs']; rfl
  have hsub' : ∀ a ∈ s.sections, ∀ c ∈ (s'.heap a.2).terms, c ∈ (s.heap a.2).terms := by
    intro a _ c hc
    by_cases e : a.2 = kv.2
    · rw [e] at hc ⊢
      rw [hsame] at hc
      exact hsub c hc
    · rw [hother _ e] at hc
      exact hc
  have hterm : ∀ a ∈ s.sections, ∀ c ∈ (s'.heap a.2).terms, s'.heap c = s.heap c := fun a ha c hc =>
    hother _ (hne _ (h.terms a ha c (hsub' a ha c hc)))
  have hkeep : ∀ a ∈ s.sections, ∀ l, (∀ c ∈ l, c ∈ (s.heap a.2).terms) → ∀ is, ShowsItems s a.2 is l → ShowsItems s' a.2 is l :=
    fun a ha l hl is hs => showsItems_keep is (fun c hc u hu => by rw [hother u (hne u (below_notSec w (h.terms a ha c (hl c hc)) hu))]) hs
  have hlevel : ∀ a ∈ s.sections, ∀ e, ShowsPart s a e → ∀ u ∈ (s'.heap a.2).terms,
      (s'.heap u).pt = py!"root" ∧ ((s'.heap u).parent = none ∨ (s'.heap u).parent = some s'.root) := by
    intro a ha e he u hu
    rw [hroot, hterm a ha u hu]
    exact he.rootLevel u (hsub' a ha u hu)
  refine ⟨⟨?_, ?_⟩, ⟨hreach, h.usable.congr (by rw [hs']; rfl) (by rw [hs']; rfl) (by rw [hs']; rfl), ?_, ⟨by rw [hs']; exact h.names.decl, ?_⟩,
    by rw [hs']; exact h.secs, ?_, h.classes.congr (by rw [hs']; rfl) (by rw [hs']; rfl)⟩⟩
  · rw [hroot]
    by_cases e : s.root = kv.2
    · rw [e, hsame, hrt, ← e]
      exact hD.rootName
    · rw [hother _ e]
      exact hD.rootName
  · rw [hsecs]
    refine forall₂_modify_right hD.parts ?_ ?_
    · intro a b e1 e2 hab
      rw [h1] at e1
      cases e1
      rw [hd] at e2
      cases e2
      rw [hf]
      refine ⟨by rw [hname]; exact hab.key, by rw [hsame, hval, hname]; exact hab.name, by rw [hsame]; exact hcols, ?_, hlevel kv hkm d hab⟩
      rw [hsame]
      exact hkeep kv hkm _ hsub _ hits
    · intro m a b hmi e1 e2 hab
      have ham := List.mem_of_getElem? e1
      have hne' : a.2 ≠ kv.2 := fun e => hmi (secs_inj w hD e1 h1 e)
      have e := hother _ hne'
      refine ⟨hab.key, by rw [e]; exact hab.name, by rw [e]; exact hab.cols, ?_, hlevel a ham b hab⟩
      rw [e]
      exact hkeep a ham _ (fun c hc => hc) _ hab.items
  · intro a ha u hu
    rw [hsecs] at ha
    rw [hterm a ha u hu]
    exact h.terms a ha u (hsub' a ha u hu)
  · intro a ha u hu
    rw [hsecs] at ha
    rw [hterm a ha u hu]
    exact h.names.terms a ha u (hsub' a ha u hu)
  · intro a ha u hu
    rw [hsecs] at ha
    rw [hs']
    exact h.listed a ha u (hsub' a ha u hu)

theorem tops {s : St} {kv : Str × Nat} {d : Part} (h : ShowsPart s kv d) : List.Forall₂ (TopShows s kv.2) d.items (s.heap kv.2).terms := by
  have key : ∀ {is : List Item} {ts : List Nat}, List.Forall₂ (ShowsItem s kv.2) is ts → (∀ t ∈ ts, (s.heap t).pt = py!"root") → List.Forall₂ (TopShows s kv.2) is ts := by
    intro is ts hf
    induction hf with
    | nil => intro _; exact .nil
    | cons hab _ ih =>
      intro hl
      exact .cons ⟨hab, hl _ List.mem_cons_self⟩ (ih fun t ht => hl t (List.mem_cons_of_mem _ ht))
  exact key (showsItems_forall.1 h.items) fun t ht => (h.rootLevel t ht).1

/-- **C97** (sorting terms). `sort_by_term` puts the terms named first, in the order of the names, and the others after them in alphabetical
order, each with everything below it, and changes nothing else. -/
theorem C97_sort {s : St} (h : Editable s) {D : List Part} (hD : Shows s D) {i : Nat} {names : Option (List Str)} (hok : Edit.ok D (.sort i names)) :
    ∃ s', (Edit.sort i names).run s = .ok () s' ∧ Shows s' ((Edit.sort i names).apply D) ∧ Editable s' ∧ s'.declTerms = s.declTerms := by
  have w := h.wf
  obtain ⟨d, hd⟩ : ∃ d, D[i]? = some d := ⟨_, List.getElem?_eq_getElem hok.1⟩
  obtain ⟨kv, h1, h2⟩ := forall₂_get? hD.parts.flip hd
  have hkm := List.mem_of_getElem? h1
  obtain ⟨l, hl1, hl2, hl3⟩ : ∃ l, sortByTerm kv.2 (names.map fun ns => ns.map (dotJoin (py!"root"))) s =
      .ok () (s.setObj kv.2 { s.heap kv.2 with terms := l }) ∧ List.Forall₂ (TopShows s kv.2) (sortItems (names.getD []) d.items) l ∧
      ∀ t ∈ l, t ∈ (s.heap kv.2).terms := by
    cases names with
    | none => exact ⟨_, by simp [sortByTerm], sort_shows (tops h2), fun t ht => (sortBy_perm _ _).mem_iff.1 ht⟩
    | some ns =>
      obtain ⟨l, g1, g2, g3⟩ := order_shows hok.2 (tops h2)
      refine ⟨l, ?_, g2, g3⟩
      unfold sortByTerm
      rw [bind_run, get_run]
      dsimp only [Option.map_some]
      rw [bind_run, lift_run]
      change orderedTerms s.heap (ns.map (dotJoin (py!"root"))) _ = _ at g1
      rw [g1]
      rfl
  have hreach : Reach Op.noAddChild (s.setObj kv.2 { s.heap kv.2 with terms := l }) := by
    have := Reach.step (.sortByTerm kv.2 (names.map fun ns => ns.map (dotJoin (py!"root")))) h.reach trivial ⟨(w.secsLt kv hkm).1, (w.secsLt kv hkm).2.1⟩
    have e' : after (Op.sortByTerm kv.2 (names.map fun ns => ns.map (dotJoin (py!"root")))).run s = s.setObj kv.2 { s.heap kv.2 with terms := l } := by
      show after (sortByTerm kv.2 _) s = _
      unfold after
      rw [hl1]
    rw [e'] at this
    exact this
  have key : List.Forall₂ (ShowsItem s kv.2) (sortItems (names.getD []) d.items) l := hl2.imp fun _ _ h => h.1
  obtain ⟨g1, g2⟩ := section_frame h hD h1 hd (f := onItems (sortItems (names.getD []))) rfl (o := { s.heap kv.2 with terms := l }) rfl rfl rfl rfl h2.cols
    (showsItems_forall.2 key) hl3 hreach
  refine ⟨_, ?_, g1, g2, rfl⟩
  unfold Edit.run
  dsimp only
  rw [bind_run, get_run]
  dsimp only
  rw [h1]
  exact hl1

/-! ## Columns -/

/-- The columns with one more, at the end or at the front, unless they have it. -/
def _root_.Spec.withColumn (a : Str) (pre : Bool) (l : List Str) : List Str :=
  if lower a ∈ l.map lower then l else if pre then title a :: l else l ++ [title a]

/-- Change the columns of a section of an outline. -/
def _root_.Spec.onCols (f : List Str → List Str) (d : Part) : Part := { d with cols := f d.cols }

theorem column_frame {s : St} (h : Editable s) {D : List Part} (hD : Shows s D) {i : Nat} {kv : Str × Nat} (h1 : s.sections[i]? = some kv)
    (hh : (s.heap kv.2).headerArgs = []) {f : List Str → List Str} (op : Op) (hop : op.noAddChild) (hv : op.valid s)
    (hrun : op.run s = .ok () (s.setObj kv.2 { s.heap kv.2 with args := f (s.heap kv.2).args })) :
    Shows (s.setObj kv.2 { s.heap kv.2 with args := f (s.heap kv.2).args }) (D.modify i (onCols f)) ∧
      Editable (s.setObj kv.2 { s.heap kv.2 with args := f (s.heap kv.2).args }) := by
  obtain ⟨d, hd, h2⟩ := forall₂_get? hD.parts h1
  have hc : (s.heap kv.2).args = d.cols := by
    rw [← h2.cols]
    unfold Obj.secPropertyNames
    rw [if_neg (fun e => e hh)]
  have hreach := Reach.step op h.reach hop hv
  unfold after at hreach
  rw [hrun] at hreach
  refine section_frame h hD h1 hd (f := onCols f) rfl rfl rfl rfl rfl ?_ h2.items (fun t ht => ht) hreach
  unfold Obj.secPropertyNames
  rw [if_neg (fun e => e hh)]
  show f (s.heap kv.2).args = f d.cols
  rw [hc]

/-- **C97** (new columns). `add_arg` of a section without a header row drops blank columns of the section and adds the column, unless it is there,
and changes nothing else. -/
theorem C97_addColumn {s : St} (h : Editable s) {D : List Part} (hD : Shows s D) {i : Nat} {kv : Str × Nat} (h1 : s.sections[i]? = some kv)
    (hh : (s.heap kv.2).headerArgs = []) (a : Str) (pre : Bool) :
    ∃ s', addArg kv.2 a pre s = .ok () s' ∧ Shows s' (D.modify i (onCols fun l => withColumn a pre (Metatab.Spec.cols l))) ∧ Editable s' ∧
      s'.declTerms = s.declTerms := by
  have w := h.wf
  have hkm := List.mem_of_getElem? h1
  have e : addArg kv.2 a pre s = .ok () (s.setObj kv.2 { s.heap kv.2 with args := withColumn a pre (Metatab.Spec.cols (s.heap kv.2).args) }) := by
    simp only [addArg, upd_run, addArgList, cleanArgs_eq, withColumn]
    by_cases hc : lower a ∈ (Metatab.Spec.cols (s.heap kv.2).args).map lower
    · simp only [hc, not_true_eq_false, if_false, if_true]
    · simp only [hc, not_false_eq_true, if_false, if_true]
  obtain ⟨g1, g2⟩ := column_frame h hD h1 hh (f := fun l => withColumn a pre (Metatab.Spec.cols l)) (.addArg kv.2 a pre) trivial
    ⟨(w.secsLt kv hkm).1, (w.secsLt kv hkm).2.1⟩ e
  exact ⟨_, e, g1, g2, rfl⟩

/-- **C97** (removed columns). `remove_arg` of a section without a header row drops blank columns of the section and those of the name, and
changes nothing else: terms keep their properties. -/
theorem C97_dropColumn {s : St} (h : Editable s) {D : List Part} (hD : Shows s D) {i : Nat} {kv : Str × Nat} (h1 : s.sections[i]? = some kv)
    (hh : (s.heap kv.2).headerArgs = []) (a : Str) :
    ∃ s', removeArg kv.2 a s = .ok () s' ∧ Shows s' (D.modify i (onCols fun l => (Metatab.Spec.cols l).filter fun c => lower c ≠ lower a)) ∧ Editable s' ∧
      s'.declTerms = s.declTerms := by
  have w := h.wf
  have hkm := List.mem_of_getElem? h1
  have e := C23_remove s kv.2 a
  obtain ⟨g1, g2⟩ := column_frame h hD h1 hh (f := fun l => (Metatab.Spec.cols l).filter fun c => lower c ≠ lower a) (.removeArg kv.2 a) trivial
    ⟨(w.secsLt kv hkm).1, (w.secsLt kv hkm).2.1⟩ e
  exact ⟨_, e, g1, g2, rfl⟩

end Metatab
