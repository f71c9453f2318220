import Verif.Lemmas.AgreeParse
import Verif.Lemmas.AgreeVersion
import Verif.Lemmas.Examples
/-! # C15: the document and its sections list the same root-level terms -/
namespace Metatab
open Py _root_.Spec

theorem newDoc_inv (env : Env) (classes : Dict Cls) : Inv (newDoc env classes) := by
  have hc : ∀ i, ((newDoc env classes).heap i).children = [] := by intro i; simp only [newDoc]; split <;> rfl
  have ht : ∀ i, ((newDoc env classes).heap i).terms = [] := by intro i; simp only [newDoc]; split <;> rfl
  have hs : ∀ i, ((newDoc env classes).heap i).sec = none := by intro i; simp only [newDoc]; split <;> rfl
  have hd : ∀ i, ((newDoc env classes).heap i).isDecl = false := by intro i; simp only [newDoc]; split <;> rfl
  have h0 : ∀ i, i < (newDoc env classes).next → i = 0 := fun i hi => Nat.lt_one_iff.1 hi
  refine ⟨Nat.zero_lt_one, fun t h => (by cases h), List.nodup_nil, fun t h => (by cases h), fun x _ t h => ?_, fun x _ => ?_, fun k x h => ?_, ?_,
    fun x hx _ => ?_, fun x hx _ => ?_, fun i c h => ?_, fun i _ => hc i, fun i _ x h => ?_, fun k d h => (by cases h), rfl, rfl, hd⟩
  · rw [ht] at h; cases h
  · rw [ht]; exact List.nodup_nil
  · have := Dict.mem_of_get? h
    simp only [newDoc, List.mem_cons, List.not_mem_nil, or_false] at this
    cases this
    exact ⟨Nat.zero_lt_one, rfl, py!"Root", rfl, by decide⟩
  · simp [newDoc, Dict.keys]
  · rw [h0 x hx]
    exact ⟨noSection_nil, noSection_nil, show lower rootObj.tvn ≠ py!"section" by decide⟩
  · rw [h0 x hx]
    exact ⟨rfl, rfl⟩
  · rw [hc] at h; cases h
  · rw [hs] at h; cases h

theorem at_after {α : Type} {m : M α} {Q : α → St → Prop} {s : St} (h : AT m Q s) (w : Inv s) : Inv (after m s) := by
  have := h w
  unfold wp at this
  unfold after
  cases hm : m s <;> rw [hm] at this
  · exact this.1
  · exact this

theorem inv_op {s : St} (w : Inv s) {op : Op} (hv : op.valid s) (ho : Orderly s op) : Inv (after op.run s) := by
  cases op with
  | parse => exact at_after (at_parseRows ho.1 ho.2.1 ho.2.2) w
  | loadDeclarations fs f ds =>
    have : ds = [] := ho
    subst this
    exact at_after (Q := fun _ _ => True) (at_pure trivial) w
  | newSection => exact at_after (at_drop (at_newSection ho.1 ho.2)) w
  | getOrNewSection => exact at_after (at_drop (at_getOrNewSection ho.1 ho.2)) w
  | addSection => exact at_after (at_drop (at_addSection hv.1 ho)) w
  | delSection n =>
    obtain ⟨s', h1, h2⟩ := inv_delSection w (name := n) ho
    show Inv (after (Metatab.delSection n) s)
    unfold after
    rw [h1]
    exact h2
  | sortSections => exact at_after at_sortSections w
  | docAddTerm => exact at_after (at_docAddTerm hv ho) w
  | removeTerm => exact at_after (at_removeTerm hv ho) w
  | create c n v as q x =>
    refine at_after (at_drop (at_newTermObj (fun h => ?_) hv.2.2)) w
    rw [hv.1] at h; cases h
  | newTerm => exact at_after (at_drop (at_newTerm ho.1 ho.2)) w
  | getOrNewTerm => exact at_after (at_drop (at_getOrNewTerm ho.1 ho.2)) w
  | sectionAddTerm => exact at_after (at_sectionAddTerm hv.2 ho.1 ho.2) w
  | sectionRemoveTerm => exact at_after (at_sectionRemoveTerm hv.2 ho) w
  | cleanSection => exact at_after (at_cleanSection ho) w
  | setTerms x ts kw =>
    obtain ⟨h1, h2, h3⟩ := ho
    subst h2
    exact at_after (at_setTerms h1 h3) w
  | sortByTerm => exact at_after (at_sortByTerm hv.1) w
  | addArg => exact at_after (at_addArg hv.1 ho) w
  | removeArg => exact at_after (at_removeArg hv.1) w
  | sectionDelItem =>
    exact at_after (Q := fun _ _ => True) (at_get (at_ite (fun _ => at_raise) fun _ => at_pure trivial)) w
  | newChild => exact at_after (at_drop (at_newChild hv)) w
  | getOrNewChild => exact at_after (at_drop (at_getOrNewChild hv)) w
  | removeChild => exact at_after (at_removeChild hv.1 fun _ => ho) w
  | addChild => exact ho.elim
  | setItem t n v =>
    refine at_after (Q := fun _ _ => True) (m := setItemAny t n v) ?_ w
    unfold setItemAny
    simp only [Orderly] at ho
    refine at_obj (at_ite (fun h => ?_) fun h => ?_)
    · rw [if_pos h] at ho
      exact at_drop (at_getOrNewTerm ho.1 ho.2)
    · rw [if_neg h] at ho
      exact at_setItem hv (by simpa using h) ho
  | setValue => exact at_after (at_setValue hv ho) w
  | setSection => exact ho.elim
  | registerClass => exact at_after (at_modify' (fun w => w.same rfl rfl rfl rfl rfl rfl rfl rfl) (Evo.same rfl rfl rfl rfl) (Q := fun _ _ => True) trivial) w
  | unregisterClass => exact at_after (at_modify' (fun w => w.same rfl rfl rfl rfl rfl rfl rfl rfl) (Evo.same rfl rfl rfl rfl) (Q := fun _ _ => True) trivial) w
  | ensureIdentifier => exact at_after at_ensureIdentifier w
  | updateVersion => exact at_after (at_drop at_updateVersion) w
  | updateName => exact at_after (at_drop at_updateName) w
  | asVersion => exact at_after (at_drop at_identityName) w
  | cleanse =>
    have := inv_cleanse w
    unfold wp at this
    show Inv (after Metatab.cleanse s)
    unfold after
    cases hm : Metatab.cleanse s <;> rw [hm] at this <;> exact this
  | cleanUnused => exact ho.elim
  | setAttr => exact ho.elim

theorem orderly_inv {s : St} (h : OrderlyHistory s) : Inv s := by
  induction h with
  | new env classes => exact newDoc_inv env classes
  | step op h hv ho ih => exact inv_op ih hv ho

/-- C15, for histories of orderly calls (`Spec.Orderly`): the document's list of root-level terms holds exactly the terms that their own
section lists, if that section is one of the document's. Missing are the calls that break it, which the witnesses below show, and declare
files, `add_child`, `t.section = x`, attribute assignment and `clean_unused_schema_terms`. -/
theorem C15_agree_partial {s : St} (h : OrderlyHistory s) : ListsAgree s := (orderly_inv h).agree

/-- No term is listed twice, neither by the document nor by one of its sections. -/
theorem C15_once_partial {s : St} (h : OrderlyHistory s) : s.terms.Nodup ∧ ∀ x, HasSec s x → (s.heap x).terms.Nodup :=
  ⟨(orderly_inv h).termsNodup, (orderly_inv h).secNodup⟩

/-- Every term that a section of the document lists names that section as its own. -/
theorem C15_own_partial {s : St} (h : OrderlyHistory s) {x t : Nat} (hx : HasSec s x) (ht : t ∈ (s.heap x).terms) : (s.heap t).sec = some x :=
  ((orderly_inv h).mine x hx t ht).2

/-! ## An orderly history -/

def agRows : List (List Str) :=
  [[py!"Title", py!"T"], [py!"Section", py!"Contacts", py!"Email"], [py!"Creator", py!"Bob", py!"b@x"], [py!"Creator", py!"Ann"],
   [py!"Creator.Org", py!"Ann's"]]
def agDoc : St := exParse agRows

theorem ag_orderly : OrderlyHistory agDoc := by
  have ho : Orderly exDoc (.parse noFiles 3 (py!"doc.csv") agRows) := by
    refine ⟨⟨fun _ _ => rfl, ?_, fun _ _ h => ?_⟩, ⟨py!"root", rfl⟩, ?_⟩
    · refine fun row h => .of ?_
      revert row
      unfold NoSectionColumn
      decide
    · cases h
    · intro n hn
      have := Dict.mem_of_get? hn
      simp only [exDoc, newDoc, initClasses, List.mem_cons, List.not_mem_nil, or_false] at this
      rcases this with h | h <;> cases h <;> rfl
  unfold agDoc exParse
  exact OrderlyHistory.step (.parse noFiles 3 (py!"doc.csv") agRows) (.new exEnv _) trivial ho

/-! From there a new section, a new term in it, sorting, removing and cleaning. -/
def ag1 : St := after (do let _ ← newSection (py!"Notes") [py!"Author"]) agDoc
def ag2 : St := after (do let _ ← newTerm 7 (py!"Note") (.str (py!"n1")) [(py!"author", .str (py!"me"))]) ag1
def ag3 : St := after (sortSections [py!"notes"]) ag2
def ag4 : St := after (removeTerm 3) ag3
def ag5 : St := after (do let _ ← newTerm 0 (py!"Root.Name") (.str (py!"old"))) ag4
def ag6 : St := after cleanse ag5

theorem ag1_orderly : OrderlyHistory ag1 := by
  have f1 : FreeName agDoc (py!"Notes") := ⟨rfl, by decide, by decide +kernel⟩
  exact OrderlyHistory.step (.newSection (py!"Notes") [py!"Author"]) ag_orderly trivial ⟨f1, by unfold NoSectionColumn; decide⟩
theorem ag2_orderly : OrderlyHistory ag2 :=
  OrderlyHistory.step (.newTerm 7 (py!"Note") (.str (py!"n1")) [(py!"author", .str (py!"me"))]) ag1_orderly
    (by constructor <;> decide +kernel) ⟨⟨py!"notes", by decide +kernel⟩, .inl (by decide)⟩
theorem ag3_orderly : OrderlyHistory ag3 := OrderlyHistory.step (.sortSections [py!"notes"]) ag2_orderly trivial trivial
theorem ag4_orderly : OrderlyHistory ag4 := by
  refine OrderlyHistory.step (.removeTerm 3) ag3_orderly (show 3 < ag3.next by decide +kernel) (fun x hx _ => ⟨py!"contacts", ?_⟩)
  have e : (ag3.heap 3).sec = some 2 := by decide +kernel
  rw [e] at hx
  cases hx
  decide +kernel
theorem ag5_orderly : OrderlyHistory ag5 :=
  OrderlyHistory.step (.newTerm 0 (py!"Root.Name") (.str (py!"old")) []) ag4_orderly
    (by constructor <;> decide +kernel) ⟨⟨py!"root", by decide +kernel⟩, .inr ⟨py!"name", rfl⟩⟩
theorem ag6_orderly : OrderlyHistory ag6 := OrderlyHistory.step .cleanse ag5_orderly trivial trivial

example : ag6.sections.keys = [py!"notes", py!"root", py!"contacts"] ∧ ag6.terms.length = 5 ∧ (ag6.heap 0).terms.length = 3 ∧
      show_ ag6 (ag6.heap 7).terms = [(py!"root.note", .str (py!"n1"))] ∧ show_ ag6 (ag6.heap 2).terms = [(py!"root.creator", .str (py!"Ann"))] := by
  decide +kernel

/-! ## What breaks the agreement -/

/-- `new_section` with the name of a section that is there: the terms of the old section stay in the document's list. -/
theorem C15_overwrite_witness : ¬ ListsAgree (after (newSection (py!"Contacts") []) agDoc) := by
  intro h
  obtain ⟨x, h1, ⟨k, h2⟩, _⟩ := (h 3).1 (by decide +kernel)
  have e : ((after (newSection (py!"Contacts") []) agDoc).heap 3).sec = some 2 := by decide +kernel
  rw [e] at h1
  cases h1
  have := Dict.mem_of_get? h2
  have q : (after (newSection (py!"Contacts") []) agDoc).sections = [(py!"root", 0), (py!"contacts", 7)] := by decide +kernel
  rw [q] at this
  simp at this

/-- `new_term` with a name below another term: the document lists the term, no section does. -/
theorem C15_non_root_witness : ¬ ListsAgree (after (newTerm 2 (py!"Foo.Bar") (.str (py!"x"))) agDoc) := by
  intro h
  obtain ⟨x, h1, _, h3⟩ := (h 7).1 (by decide +kernel)
  have e : ((after (newTerm 2 (py!"Foo.Bar") (.str (py!"x"))) agDoc).heap 7).sec = some 2 := by decide +kernel
  rw [e] at h1
  cases h1
  revert h3
  decide +kernel

/-- `del doc['Contacts']`, with a capital: the section goes, its terms stay in the document's list. -/
theorem C15_delete_case_witness : ¬ ListsAgree (after (delSection (py!"Contacts")) agDoc) := by
  intro h
  obtain ⟨x, h1, ⟨k, h2⟩, _⟩ := (h 3).1 (by decide +kernel)
  have e : ((after (delSection (py!"Contacts")) agDoc).heap 3).sec = some 2 := by decide +kernel
  rw [e] at h1
  cases h1
  have := Dict.mem_of_get? h2
  have q : (after (delSection (py!"Contacts")) agDoc).sections = [(py!"root", 0)] := by decide +kernel
  rw [q] at this
  simp at this

/-- `t.section = x` moves a term in its own eyes only. -/
theorem C15_section_witness : ¬ ListsAgree (after (setSection 3 (some 0)) agDoc) := by
  intro h
  obtain ⟨x, h1, _, h3⟩ := (h 3).1 (by decide +kernel)
  have e : ((after (setSection 3 (some 0)) agDoc).heap 3).sec = some 0 := by decide +kernel
  rw [e] at h1
  cases h1
  revert h3
  decide +kernel

/-- Adding or removing a term of a deleted section brings the section back with its other terms, which the document does not list. -/
theorem C15_deleted_section_witness : let s := after (delSection (py!"contacts")) agDoc
    ListsAgree s ∧ ¬ ListsAgree (after (docAddTerm 3) s) ∧ ¬ ListsAgree (after (removeTerm 3) s) := by
  intro s
  have hs : OrderlyHistory s := OrderlyHistory.step (.delSection (py!"contacts")) ag_orderly trivial rfl
  refine ⟨C15_agree_partial hs, fun h => ?_, fun h => ?_⟩
  · have := (h 5).2 ⟨2, by decide +kernel, ⟨py!"contacts", by decide +kernel⟩, by decide +kernel⟩
    revert this
    decide +kernel
  · have := (h 5).2 ⟨2, by decide +kernel, ⟨py!"contacts", by decide +kernel⟩, by decide +kernel⟩
    revert this
    decide +kernel

/-- `add_term` of another section's term: both sections list it, so the second half of the agreement, that a section lists only its own terms,
fails. -/
theorem C15_move_witness : let s := after (sectionAddTerm 0 3) agDoc
    HasSec s 0 ∧ 3 ∈ (s.heap 0).terms ∧ (s.heap 3).sec = some 2 := by
  exact ⟨⟨py!"root", by decide +kernel⟩, by decide +kernel, by decide +kernel⟩

end Metatab
