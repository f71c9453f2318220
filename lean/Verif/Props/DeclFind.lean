import Verif.Spec.DeclFind
import Verif.Props.DeclOutline
/-! # C101: searches at root level in files with `Declare` rows -/
namespace Metatab
open Py _root_.Spec

theorem meets_congr {h h' : Nat → Obj} {t : Nat} (ht : (h' t).pt = (h t).pt ∧ (h' t).rt = (h t).rt ∧ (h' t).value = (h t).value ∧ (h' t).sec = (h t).sec)
    (hx : ∀ x, (h t).sec = some x → (h' x).value = (h x).value) {q : Str × Str} {value : Val} {secs : Option (List Str)} :
    Meets h' q value secs t ↔ Meets h q value secs t := by
  obtain ⟨h1, h2, h3, h4⟩ := ht
  unfold Meets
  rw [h1, h2, h3]
  refine and_congr_right fun _ => and_congr_right fun _ => and_congr_right fun _ => ?_
  cases secs with
  | none => exact Iff.rfl
  | some names =>
    unfold SectionIs
    rw [h4]
    constructor
    · rintro ⟨x, n, e1, e2, e3⟩; exact ⟨x, n, e1, by rw [← hx x e1]; exact e2, e3⟩
    · rintro ⟨x, n, e1, e2, e3⟩; exact ⟨x, n, e1, by rw [hx x e1]; exact e2, e3⟩

open Classical in
/-- What a search at root level finds in a document whose list has the terms `E` besides those of its sections. -/
theorem found_besides {s : St} (w : WF True s) {D : List Part} (hD : Shows s D) {E : List Nat} (hE : E.Nodup) (hl : Listed E s)
    (hout : ∀ t ∈ E, ∀ kv ∈ s.sections, t ∉ (s.heap kv.2).terms) {q : Str × Str} (hr : lower q.1 = py!"root") (value : Val) (secs : Option (List Str)) :
    (∀ t ∈ s.terms, t ∉ E → Searchable s.heap t) ∧
    ∃ m, (m ++ E.filter fun t => Meets s.heap q value secs t).Perm (s.terms.filter fun t => Meets s.heap q value secs t) ∧
      List.Forall₂ (FoundAs s) (outlineFind D q value secs) m := by
  have hsec : ∀ kv ∈ s.sections, ∀ t ∈ (s.heap kv.2).terms, (s.heap t).sec = some kv.2 := by
    intro kv hkv t ht
    obtain ⟨i, hi⟩ := List.getElem?_of_mem hkv
    obtain ⟨d, -, h1⟩ := forall₂_get? hD.parts hi
    obtain ⟨⟨n, v, ks⟩, -, hs⟩ := forall₂_right (showsItems_forall₂ h1.items) t ht
    exact (showsItem_mk.1 hs).2.2.1
  have hpart : ∀ {kv d}, ShowsPart s kv d → List.Forall₂ (Walked s kv.2) (lookedAt q d) (s.heap kv.2).terms := by
    intro kv d h
    unfold lookedAt
    rw [if_pos hr, List.forall₂_map_left_iff]
    exact (forall₂_zip (showsItems_forall₂ h.items) h.rootLevel).imp fun i t ⟨a, b, _⟩ => ⟨a, b⟩
  have hn : (s.sections.map fun kv => (s.heap kv.2).terms).flatten.Nodup := by
    rw [List.nodup_flatten]
    refine ⟨fun l hm => ?_, ?_⟩
    · obtain ⟨kv, -, rfl⟩ := List.mem_map.1 hm
      exact w.secTermsNodup _
    · rw [List.pairwise_map, List.pairwise_iff_getElem]
      intro i j hi hj hij t h1 h2
      have e1 := hsec _ (List.getElem_mem hi) t h1
      have e2 := hsec _ (List.getElem_mem hj) t h2
      rw [e1] at e2
      have := secs_inj w hD (List.getElem?_eq_getElem hi) (List.getElem?_eq_getElem hj) (by injection e2)
      omega
  have hmem : ∀ t, t ∈ (s.sections.map fun kv => (s.heap kv.2).terms).flatten ↔ ∃ kv ∈ s.sections, t ∈ (s.heap kv.2).terms := by
    intro t
    constructor
    · intro h
      obtain ⟨l, h1, ht⟩ := List.mem_flatten.1 h
      obtain ⟨kv, hkv, rfl⟩ := List.mem_map.1 h1
      exact ⟨kv, hkv, ht⟩
    · rintro ⟨kv, hkv, ht⟩
      exact List.mem_flatten.2 ⟨_, List.mem_map.2 ⟨kv, hkv, rfl⟩, ht⟩
  have hp : ((s.sections.map fun kv => (s.heap kv.2).terms).flatten ++ E).Perm s.terms := by
    refine (List.perm_ext_iff_of_nodup ?_ w.termsNodup).2 fun t => ?_
    · rw [List.nodup_append]
      refine ⟨hn, hE, fun a ha b hb e => ?_⟩
      subst e
      obtain ⟨kv, hkv, ht⟩ := (hmem a).1 ha
      exact hout a hb kv hkv ht
    · rw [List.mem_append, hmem, hl t]
      exact or_comm
  refine ⟨fun t ht hte => ?_, _, ?_, parts_found (P := fun t => decide (Meets s.heap q value secs t)) (ls := s.sections.map fun kv => (s.heap kv.2).terms) ?_⟩
  · rcases (hl t).1 ht with h | ⟨kv, hkv, ht⟩
    · exact absurd h hte
    · obtain ⟨i, hi⟩ := List.getElem?_of_mem hkv
      obtain ⟨d, -, h1⟩ := forall₂_get? hD.parts hi
      obtain ⟨i, -, hw⟩ := forall₂_right (hpart h1) t ht
      exact searchable_walked h1 hw
  · rw [← List.filter_append]
    exact hp.filter _
  · rw [List.forall₂_map_right_iff]
    exact hD.parts.flip.imp fun d kv h => ⟨kv.2, [], _, rfl, fun u hu => (by cases hu), hpart h, fun i t hw => meets_walked h hw q value secs⟩

open Classical in
/-- **C101** (`Declare` rows, searches at root level). A search for `Root.B` or `B` finds exactly the items of the outline that are asked for
and the terms of the declare files that are asked for, unless the declare files derive other terms from the name. -/
theorem C101_declared_root {env : Env} {files : Files} {fuel : Nat} {path : Str} {decls : List Str} {s1 : St}
    (h1 : parseRows files (fuel + 1) path (declRows decls) (newDoc env) = .ok () s1) (hq : _root_.Spec.Quiet s1 decls) (hal : AllListed s1)
    (hos : OwnSections s1) {rows : List (List Str)} (h : plainFile rows = true) (ht : treeFile rows = true) (hs : shortHead rows = true) :
    ∃ s, parseRows files (fuel + 1) path (declRows decls ++ rows) (newDoc env) = .ok () s ∧
      ∀ name A B, PlainPart A → PlainPart B → lower A = py!"root" → (name = dotJoin A B ∨ name = B ∧ A = py!"root") →
        s1.derived.get? (lower name) = none → ∀ value secs,
        ∃ l m, find s name value secs = .ok l ∧ (m ++ (fileTerms s1).filter fun t => Meets s1.heap (A, B) value secs t).Perm l ∧
          List.Forall₂ (FoundAs s) (outlineFind (inFront (declItems decls) (fileOutline rows)) (A, B) value secs) m := by
  obtain ⟨s, e1, e2, -, -⟩ := C101_declared h1 hq h ht hs
  obtain ⟨s', ids, f1, f2, f3, f4, -, f5, -, f9, f6, f7, f8⟩ := declared_tracks h1 hq h (tree_kinds ht) (by rw [← shortHead_head]; exact hs)
  rw [e1] at f1
  cases f1
  have w1 : WF True s1 := by
    have hr : Reach Op.noAddChild (after (parseRows files (fuel + 1) path (declRows decls)) (newDoc env)) :=
      Reach.step (.parse files (fuel + 1) path (declRows decls)) (.new env _) trivial trivial
    unfold after at hr
    rw [h1] at hr
    exact hr.wf fun _ op ha => ha
  have w : WF True s := f7.wf fun _ _ ha => ha
  have hl : Listed (fileTerms s1) s := by
    refine f9 _ fun u => ?_
    unfold fileTerms
    rw [hq.only, List.mem_filter, decide_eq_true_iff]
    constructor
    · intro hu
      by_cases hm : u ∈ (s1.heap s1.root).terms
      · exact .inr ⟨_, List.mem_cons_self, hm⟩
      · exact .inl ⟨hu, hm⟩
    · rintro (hu | ⟨kv, hkv, hm⟩)
      · exact hu.1
      · obtain rfl := List.mem_singleton.1 hkv
        exact hal _ (by rw [hq.only]; exact List.mem_cons_self) u hm
  have old : ∀ t ∈ fileTerms s1, t < s1.next ∧ (s1.heap t).cls.isSection = false := fun t hm => w1.termsLt t (List.mem_filter.1 hm).1
  have hout : ∀ t ∈ fileTerms s1, ∀ kv ∈ s.sections, t ∉ (s.heap kv.2).terms := by
    intro t hm kv hkv hin
    obtain ⟨i, hi⟩ := List.getElem?_of_mem hkv
    obtain ⟨d, -, g1⟩ := forall₂_get? e2.parts hi
    obtain ⟨⟨n, v, ks⟩, -, g2⟩ := forall₂_right (showsItems_forall₂ g1.items) t hin
    have g3 := (showsItem_mk.1 g2).2.2.1
    rw [(f6 t (old t hm).1).sec (old t hm).2] at g3
    obtain ⟨x, nm, g4, g5, -⟩ := hos t hm
    rw [g4] at g3
    injection g3 with g3
    rcases f8.fresh kv.1 kv.2 (Dict.get?_of_mem w.secsNodup hkv) with g | g
    · have := Dict.mem_of_get? g
      rw [hq.only] at this
      exact g5 (g3.trans (congrArg Prod.snd (List.mem_singleton.1 this)))
    · have := (w1.secLt t x g4).1
      omega
  have same : ∀ t ∈ fileTerms s1, ∀ q value secs, Meets s.heap q value secs t ↔ Meets s1.heap q value secs t := by
    intro t hm q value secs
    have k := f6 t (old t hm).1
    exact meets_congr ⟨k.pt, k.rt, k.value, k.sec (old t hm).2⟩ fun x hx => (f6 x (w1.secLt t x hx).1).value
  refine ⟨s, e1, fun name A B hA hB hra hname hd value secs => ?_⟩
  obtain ⟨g1, m, g2, g3⟩ := found_besides w e2 (w1.termsNodup.filter _) hl hout (q := (A, B)) hra value secs
  have hsr : ∀ t ∈ s.terms, Searchable s.heap t := by
    intro t hm
    by_cases he : t ∈ fileTerms s1
    · obtain ⟨x, n, k1, -, k2⟩ := hos t he
      have k3 := (f6 t (old t he).1).sec (old t he).2
      rw [k1] at k3
      refine ⟨fun e => (by rw [k3] at e; cases e), fun y hy => ?_⟩
      rw [k3] at hy
      cases hy
      exact ⟨n, by rw [(f6 x (w1.secLt t x k1).1).value]; exact k2⟩
    · exact g1 t hm he
  have hd' : s.derived.get? (lower name) = none := by rw [f5]; exact hd
  refine ⟨s.terms.filter fun t => Meets s.heap (A, B) value secs t, m, ?_, ?_, g3⟩
  · rcases hname with rfl | ⟨rfl, rfl⟩
    · exact C11_qualified (q := (A, B)) hA hB hd' (by unfold searched; rw [if_pos hra]) hsr value secs
    · exact C11_unqualified hB hd' hsr value secs
  · have : ((fileTerms s1).filter fun t => decide (Meets s1.heap (A, B) value secs t)) = (fileTerms s1).filter fun t => decide (Meets s.heap (A, B) value secs t) :=
      List.filter_congr fun t hm => decide_eq_decide.2 (same t hm _ _ _).symm
    rw [this]
    exact g2

theorem quietStart_own : OwnSections quietStart := by
  have h : ∀ t ∈ fileTerms quietStart, (match (quietStart.heap t).sec with
      | none => false
      | some x => x != quietStart.root && (match (quietStart.heap x).value with | .str _ => true | _ => false)) = true := by decide +kernel
  intro t ht
  have := h t ht
  generalize quietStart = s at this ⊢
  cases hs : (s.heap t).sec with
  | none => rw [hs] at this; cases this
  | some x =>
    rw [hs] at this
    obtain ⟨h1, h2⟩ := Bool.and_eq_true_iff.1 this
    cases hv : (s.heap x).value with
    | str n => exact ⟨x, n, rfl, bne_iff_ne.1 h1, hv⟩
    | _ => rw [hv] at h2; cases h2

open Classical in
/-- Searches in the document of `C101_declared`: `Table` is found once; `DeclareTerm`, which the outline does not have, is found in the declare
file. -/
example : fileTerms quietStart ≠ [] ∧
    (outlineFind (inFront (declItems [py!"d.csv"]) (fileOutline doRows)) (py!"root", py!"Table") .fls none).map Item.value = [some (py!"t")] ∧
    outlineFind (inFront (declItems [py!"d.csv"]) (fileOutline doRows)) (py!"root", py!"DeclareTerm") .fls none = [] ∧
    ∃ s, parseRows quietFiles 3 (py!"m.csv") (declRows [py!"d.csv"] ++ doRows) (newDoc exEnv) = .ok () s ∧
      ∃ l m, find s (py!"Table") .fls none = .ok l ∧
        (m ++ (fileTerms quietStart).filter fun t => Meets quietStart.heap (py!"root", py!"Table") .fls none t).Perm l ∧
        List.Forall₂ (FoundAs s) (outlineFind (inFront (declItems [py!"d.csv"]) (fileOutline doRows)) (py!"root", py!"Table") .fls none) m := by
  refine ⟨by decide +kernel, by decide +kernel, by rfl, ?_⟩
  obtain ⟨s, h1, h2⟩ := C101_declared_root quietStart_ok quietStart_quiet quietStart_editable.listed quietStart_own (rows := doRows) (by decide +kernel)
    (by decide +kernel) (by decide +kernel)
  exact ⟨s, h1, h2 _ (py!"root") (py!"Table") ⟨by decide, by decide, by decide⟩ ⟨by decide, by decide, by decide⟩ (by decide) (.inr ⟨rfl, rfl⟩)
    (by decide +kernel) .fls none⟩

/-- Terms of the declare file are found by a search of the document. -/
theorem C101_file_terms_witness :
    (find (after (parseRows quietFiles 3 (py!"m.csv") (declRows [py!"d.csv"] ++ doRows)) exDoc) (py!"DeclareTerm") .fls none).toOption.map List.length = some 2 ∧
    (fileTerms quietStart).length = 2 := by decide +kernel

end Metatab
