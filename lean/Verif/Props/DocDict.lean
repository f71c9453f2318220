import Verif.Props.AsDict
/-! # C10: conversion of documents and sections to nested dicts -/
namespace Metatab
open Py _root_.Spec

/-- The entry under the name `n` in the conversion of the terms `ts`, where `conv` gives the conversion of each of them: what it is when
all terms of that name are of an undeclared type, `scalar`, `sequence`, `sconcat` or `bconcat`. -/
structure _root_.Spec.Entry (s : St) (ts : List Nat) (conv : Nat → DVal) (n : Str) (o : Option DVal) : Prop where
  any : (∀ c ∈ namedIn s ts n, (s.heap c).cpt ∉ specialTypes) → o = entryAny ((namedIn s ts n).map conv)
  scalar : (∀ c ∈ namedIn s ts n, (s.heap c).cpt = py!"scalar") → o = ((namedIn s ts n).map conv).getLast?
  seq : (∀ c ∈ namedIn s ts n, (s.heap c).cpt = py!"sequence") → o = entrySeq ((namedIn s ts n).map conv)
  spaced : (∀ c ∈ namedIn s ts n, (s.heap c).cpt = py!"sconcat") → o = entrySpaced ((namedIn s ts n).map conv)
  joined : (∀ c ∈ namedIn s ts n, (s.heap c).cpt = py!"bconcat") → o = entryJoined ((namedIn s ts n).map conv)

theorem Forest.entry {s : St} {rvn : Bool} {ts : List Nat} {d : Dict DVal} (f : Forest s rvn ts d) {F : Prop} (w : WF F s) (n : Str) :
    Entry s ts (convOf s rvn) n (d.get? n) :=
  ⟨fun h => f.any n fun c hc => ⟨h c hc, (w.low c).2⟩, f.scalar n, f.seq n, fun h => (f.spaced n h).2, fun h => (f.joined n h).2⟩

/-- The terms of all sections in the order of the sections. -/
def _root_.Spec.allSectionTerms (s : St) : List Nat := s.sections.flatMap fun kv => (s.heap kv.2).terms

theorem mapM_congr {α β : Type} {f g : α → Except Err β} {l : List α} (h : ∀ a ∈ l, f a = g a) : l.mapM f = l.mapM g := by
  induction l with
  | nil => rfl
  | cons a l ih =>
    rw [List.mapM_cons, List.mapM_cons, h a List.mem_cons_self, ih fun b hb => h b (List.mem_cons_of_mem _ hb)]

theorem treeF_congr {h h' : Nat → Obj} : ∀ {f t : Nat}, (∀ c, c = t ∨ Hangs h t c → h' c = h c) → treeF h' f t = treeF h f t
  | 0, _, _ => rfl
  | f + 1, t, e => by
    have ht := e t (.inl rfl)
    unfold treeF
    rw [ht, mapM_congr (g := treeF h f)]
    intro c hc
    exact treeF_congr fun d hd => e d (.inr (by
      rcases hd with rfl | hd
      · exact .kid hc
      · exact .deeper hc hd))

/-- The section object while its terms stand in for its children. -/
def swapped (s : St) (x : Nat) : St := s.setObj x { s.heap x with children := (s.heap x).terms }

theorem setObj_setObj (s : St) (i : Nat) (o o' : Obj) : (s.setObj i o).setObj i o' = s.setObj i o' := by
  unfold St.setObj
  congr 1
  funext j
  dsimp only
  split <;> rfl

theorem setObj_self (s : St) (i : Nat) : s.setObj i (s.heap i) = s := by
  unfold St.setObj
  cases s
  congr 1
  funext j
  dsimp only
  split
  · next e => rw [e]
  · rfl

theorem sectionAsDict_run (rvn : Bool) (x : Nat) (s : St) : sectionAsDict rvn x s =
    match termAsDict rvn x (swapped s x) with
    | .ok d _ => .ok d s
    | .err e _ => .err e (swapped s x) := by
  unfold sectionAsDict
  rw [bind_run, obj_run]
  dsimp only
  rw [bind_run, upd_run]
  dsimp only
  rw [bind_run]
  rw [show (s.setObj x { s.heap x with children := (s.heap x).terms }) = swapped s x from rfl]
  cases h : termAsDict rvn x (swapped s x) with
  | ok d s' =>
    obtain ⟨rfl, -⟩ := termAsDict_iff.1 h
    dsimp only
    rw [bind_run, upd_run]
    dsimp only
    rw [pure_run]
    congr 1
    unfold swapped
    rw [setObj_setObj, heap_setObj, if_pos rfl]
    exact setObj_self s x
  | err e s' =>
    dsimp only
    unfold termAsDict at h
    rw [lift_run] at h
    split at h <;> cases h
    rfl

theorem swapped_forest {s : St} {x : Nat} {rvn : Bool} {v : DVal} {s' : St} (h : termAsDict rvn x (swapped s x) = .ok v s') (hne : (s.heap x).terms ≠ [])
    (hx : ∀ t ∈ (s.heap x).terms, t ≠ x ∧ ¬ Hangs s.heap t x) :
    ∃ d, Forest s rvn (s.heap x).terms d ∧ v = .dict (dictValue rvn (s.heap x) d) := by
  obtain ⟨-, tr, ht, hd⟩ := termAsDict_iff.1 h
  obtain ⟨ks, hks, rfl⟩ := tree_kids ht
  have hobj : (swapped s x).heap x = { s.heap x with children := (s.heap x).terms } := by unfold swapped; rw [heap_setObj, if_pos rfl]
  have hch : ((swapped s x).heap x).children = (s.heap x).terms := by rw [hobj]
  rw [hch] at hks
  have hks' : List.Forall₂ (fun c k => tree s c = .ok k) (s.heap x).terms ks := by
    have : ∀ {ts : List Nat}, (∀ t ∈ ts, t ≠ x ∧ ¬ Hangs s.heap t x) → List.Forall₂ (fun c k => tree (swapped s x) c = .ok k) ts ks →
        List.Forall₂ (fun c k => tree s c = .ok k) ts ks := by
      intro ts hts h
      clear * - hts h
      induction h with
      | nil => exact .nil
      | cons hc _ ih =>
        refine .cons ?_ (ih fun t ht => hts t (List.mem_cons_of_mem _ ht))
        obtain ⟨h1, h2⟩ := hts _ List.mem_cons_self
        rw [← hc]
        refine (treeF_congr fun c hb => ?_).symm
        unfold swapped
        rw [heap_setObj, if_neg]
        rintro rfl
        rcases hb with h | h
        · exact h1 h.symm
        · exact h2 h
    exact this hx hks
  have hne' : ks ≠ [] := by rintro rfl; exact hne (List.forall₂_nil_right_iff.1 hks)
  obtain ⟨d, hd, e⟩ := toDict_kids hne' hd
  refine ⟨d, forest_of hks' hd, ?_⟩
  rw [e, hobj]
  rfl

/-- **C10** (sections). When `as_dict` of a section returns, the document is exactly as before. A section without terms gives its value.
Otherwise, unless the section is below one of its own terms, the result is a dict with an entry for each name of its terms, made of the
conversions these terms have in the unchanged document, and one for the value of the section. -/
theorem C10_section_partial {allow : Op → Prop} {s s' : St} (r : Reach allow s) {rvn : Bool} {x : Nat} {v : DVal} (h : sectionAsDict rvn x s = .ok v s') :
    s' = s ∧ ((s.heap x).terms = [] → v = .val (s.heap x).value) ∧
    ((s.heap x).terms ≠ [] → (∀ t ∈ (s.heap x).terms, t ≠ x ∧ ¬ Hangs s.heap t x) → ∃ (conv : Nat → DVal) (d : Dict DVal), v = .dict d ∧
      (∀ c ∈ (s.heap x).terms, termAsDict rvn c s = .ok (conv c) s) ∧
      (∀ n, ¬ ValueAt rvn (s.heap x) n → Entry s (s.heap x).terms conv n (d.get? n)) ∧
      ∀ n, n ∈ d.keys ↔ (∃ c ∈ (s.heap x).terms, lower (s.heap c).rt = n) ∨ ValueAt rvn (s.heap x) n) := by
  have w : WF False s := r.wf fun f => f.elim
  rw [sectionAsDict_run] at h
  cases ht : termAsDict rvn x (swapped s x) with
  | err e s2 => rw [ht] at h; cases h
  | ok d s2 =>
    rw [ht] at h
    cases h
    refine ⟨rfl, ?_, ?_⟩
    · intro he
      have hobj : (swapped s x).heap x = { s.heap x with children := (s.heap x).terms } := by unfold swapped; rw [heap_setObj, if_pos rfl]
      rw [C08_leaf rvn (by rw [hobj]; exact he), hobj] at ht
      cases ht; rfl
    · intro hne hx
      obtain ⟨d, f, rfl⟩ := swapped_forest ht hne hx
      refine ⟨convOf s rvn, _, rfl, f.conv, fun n hn => ?_, fun n => ?_⟩
      · rw [dictValue_get hn]; exact f.entry w n
      · have hf : ∀ l : List Str, n ∈ distinctNames l ↔ n ∈ l := by
          intro l
          induction l with
          | nil => exact Iff.rfl
          | cons a l ih =>
            rw [distinctNames, List.mem_cons, List.mem_filter, ih, List.mem_cons]
            by_cases e : n = a <;> simp [e]
        rw [dictValue_keys, f.keys, List.mem_append, hf]
        unfold ValueAt
        by_cases hn : n ∈ (s.heap x).terms.map fun c => lower (s.heap c).rt
        · exact ⟨fun _ => .inl (by simpa using hn), fun _ => .inl hn⟩
        · constructor
          · rintro (h | h)
            · exact absurd h hn
            · split at h
              · next hc => exact .inr ⟨hc.1, List.mem_singleton.1 h⟩
              · cases h
          · rintro (h | h)
            · exact absurd (by simpa using h) hn
            · right
              have hnk : valueName rvn (s.heap x) ∉ distinctNames ((s.heap x).terms.map fun c => lower (s.heap c).rt) :=
                fun hm => hn ((hf _).1 (by rw [h.2]; exact hm))
              rw [if_pos ⟨h.1, hnk⟩, h.2]
              exact List.mem_singleton.2 rfl

/-! ## Documents -/

/-- The object that stands for the whole document. -/
def docRoot (s : St) (ts : List Nat) : Obj :=
  { Obj.blank with cls := .root, raw := py!"Root.Root", pt := py!"root", rt := py!"root", value := .str (py!"Root"),
                   args := (match s.declSecs.get? (py!"root") with | some d => d.args | none => []).map strip, terms := ts }

/-- The document with that object added. -/
def withRoot (s : St) (ts : List Nat) : St := { s with next := s.next + 1 }.setObj s.next (docRoot s ts)

theorem newRootObj_run (s : St) : newRootObj s = .ok s.next (withRoot s []) := by
  have h1 : splitTermLower (py!"Root.Root") = .ok (py!"root", py!"root") := by decide
  have h2 : lower (py!"Root") = py!"root" := by decide
  unfold newRootObj
  rw [bind_run, lift_run]
  simp only [sectionArgs, h2]
  unfold newTermObj
  simp only [bind_run, lift_run, h1, alloc_run, obj_run]
  rw [assert_run, if_pos]
  · rfl
  · rw [heap_setObj, if_pos rfl]; exact decide_eq_true (.inr (by rfl))

theorem forL_append (r : Nat) : ∀ (ts : List Nat) (s : St), forL (fun t => upd r fun o => { o with terms := o.terms ++ [t] }) ts s =
    .ok () (s.setObj r { s.heap r with terms := (s.heap r).terms ++ ts })
  | [], s => by
    rw [forL, pure_run]
    congr 1
    rw [List.append_nil]
    exact (setObj_self s r).symm
  | t :: ts, s => by
    rw [forL, bind_run, upd_run]
    dsimp only
    rw [forL_append r ts, setObj_setObj, heap_setObj, if_pos rfl]
    dsimp only
    rw [List.append_assoc, List.singleton_append]

theorem docAsDict_lt {s : St} (hlt : ∀ kv ∈ s.sections, kv.2 < s.next) (rvn : Bool) :
    docAsDict rvn s = rootAsDict rvn s.next (withRoot s (allSectionTerms s)) := by
  unfold docAsDict
  rw [bind_run, newRootObj_run]
  dsimp only
  rw [bind_run, get_run]
  dsimp only
  have hts : ((withRoot s []).sections.flatMap fun kv => ((withRoot s []).heap kv.2).terms) = allSectionTerms s := by
    unfold allSectionTerms
    apply List.flatMap_congr
    intro kv hkv
    have : kv.2 ≠ s.next := Nat.ne_of_lt (hlt kv hkv)
    unfold withRoot
    rw [heap_setObj, if_neg this]
  rw [hts, bind_run, forL_append]
  dsimp only
  congr 1
  unfold withRoot
  rw [setObj_setObj, heap_setObj, if_pos rfl]
  rfl

theorem docAsDict_run {F : Prop} {s : St} (w : WF F s) (rvn : Bool) :
    docAsDict rvn s = rootAsDict rvn s.next (withRoot s (allSectionTerms s)) := docAsDict_lt (fun kv hkv => (w.secsLt kv hkv).1) rvn

theorem rootAsDict_ok {rvn : Bool} {x : Nat} {s s' : St} {v : DVal} (h : rootAsDict rvn x s = .ok v s') :
    ∃ v', sectionAsDict rvn x s = .ok v' s' ∧
      ((∃ l, v' = .dict l ∧ v = .dict (if rvn then Dict.del l (py!"@value") else l)) ∨ ((∀ l, v' ≠ .dict l) ∧ v = v')) := by
  unfold rootAsDict at h
  rw [bind_run] at h
  cases hs : sectionAsDict rvn x s with
  | err e s2 => rw [hs] at h; cases h
  | ok d s2 =>
    rw [hs] at h
    cases d with
    | dict l => cases h; exact ⟨_, rfl, .inl ⟨l, rfl, rfl⟩⟩
    | val a => cases h; exact ⟨_, rfl, .inr ⟨(fun l e => by cases e), rfl⟩⟩
    | list a => cases h; exact ⟨_, rfl, .inr ⟨(fun l e => by cases e), rfl⟩⟩

theorem rootAsDict_state (rvn : Bool) (x : Nat) (s : St) :
    (rootAsDict rvn x s).st = (sectionAsDict rvn x s).st := by
  unfold rootAsDict
  rw [bind_run]
  cases hs : sectionAsDict rvn x s with
  | err e s2 => rfl
  | ok d s2 => cases d <;> rfl

/-- **C10** (the document is left alone). Whatever the outcome of `doc.as_dict`, also when it raises, the only difference is one new
object that nothing in the document refers to: every section, every term, the list of terms, the table of sections and the declarations
are as before. -/
theorem C10_unaltered {allow : Op → Prop} {s : St} (r : Reach allow s) (rvn : Bool) :
    ∃ o, (docAsDict rvn s).st = { s with next := s.next + 1 }.setObj s.next o := by
  have w : WF False s := r.wf fun f => f.elim
  rw [docAsDict_run w, rootAsDict_state, sectionAsDict_run]
  cases termAsDict rvn s.next (swapped (withRoot s (allSectionTerms s)) s.next) with
  | ok d _ => exact ⟨_, rfl⟩
  | err e _ =>
    refine ⟨{ docRoot s (allSectionTerms s) with children := allSectionTerms s }, ?_⟩
    show swapped (withRoot s (allSectionTerms s)) s.next = _
    unfold swapped withRoot
    rw [setObj_setObj, heap_setObj, if_pos rfl]
    rfl

/-- **C10** (what it shows). When `doc.as_dict` returns, the result combines the terms of all sections in the order of the sections. A
document without such terms gives the string `Root`. Otherwise there is a dict with an entry for each name, made of the conversions the
terms have in the document. The name `@value` is left out, or holds `Root` when value names are not replaced. -/
theorem C10_combines {allow : Op → Prop} {s s' : St} (r : Reach allow s) {rvn : Bool} {v : DVal} (h : docAsDict rvn s = .ok v s') :
    (allSectionTerms s = [] → v = .val (.str (py!"Root"))) ∧
    (allSectionTerms s ≠ [] → ∃ (conv : Nat → DVal) (d : Dict DVal), v = .dict d ∧
      (∀ c ∈ allSectionTerms s, termAsDict rvn c s = .ok (conv c) s) ∧
      (∀ n, n ≠ py!"@value" → Entry s (allSectionTerms s) conv n (d.get? n)) ∧
      d.get? (py!"@value") = (if rvn then none else some (.val (.str (py!"Root")))) ∧
      d.keys.filter (· ≠ py!"@value") = (distinctNames ((allSectionTerms s).map fun c => lower (s.heap c).rt)).filter (· ≠ py!"@value")) := by
  have w : WF False s := r.wf fun f => f.elim
  rw [docAsDict_run w] at h
  obtain ⟨v', h, hv⟩ := rootAsDict_ok h
  have hroot : (withRoot s (allSectionTerms s)).heap s.next = docRoot s (allSectionTerms s) := by
    unfold withRoot; rw [heap_setObj, if_pos rfl]
  have hold : ∀ i, i < s.next → (withRoot s (allSectionTerms s)).heap i = s.heap i := by
    intro i hi; unfold withRoot; rw [heap_setObj, if_neg (Nat.ne_of_lt hi)]
  rw [sectionAsDict_run] at h
  cases ht : termAsDict rvn s.next (swapped (withRoot s (allSectionTerms s)) s.next) with
  | err e s2 => rw [ht] at h; cases h
  | ok d s2 =>
    rw [ht] at h
    cases h
    have hobj : (swapped (withRoot s (allSectionTerms s)) s.next).heap s.next =
        { docRoot s (allSectionTerms s) with children := allSectionTerms s } := by
      unfold swapped; rw [heap_setObj, if_pos rfl, hroot]; rfl
    refine ⟨?_, ?_⟩
    · intro he
      rw [C08_leaf rvn (by rw [hobj]; exact he), hobj] at ht
      cases ht
      rcases hv with ⟨l, e, -⟩ | ⟨-, rfl⟩
      · cases e
      · rfl
    · intro hne
      obtain ⟨-, tr, ht, hd⟩ := termAsDict_iff.1 ht
      obtain ⟨ks, hks, rfl⟩ := treeF_iff.1 ht
      rw [hobj] at hks hd
      have hlt : ∀ t ∈ allSectionTerms s, t < s.next := by
        intro t ht
        obtain ⟨kv, -, hm⟩ := List.mem_flatMap.1 ht
        exact w.secTermsLt _ t hm
      have hbelow : ∀ {t c}, t < s.next → Hangs s.heap t c → c < s.next := by
        intro t c _ hb
        obtain ⟨p, hp, -⟩ := below_last hb
        exact w.kidLt p c hp
      have hks' : List.Forall₂ (fun c k => tree s c = .ok k) (allSectionTerms s) ks := by
        have : ∀ {ts : List Nat}, (∀ t ∈ ts, t < s.next) →
            List.Forall₂ (fun c k => treeF (swapped (withRoot s (allSectionTerms s)) s.next).heap (s.next + 1) c = .ok k) ts ks →
            List.Forall₂ (fun c k => tree s c = .ok k) ts ks := by
          intro ts hts h
          clear * - hts h hold hbelow
          induction h with
          | nil => exact .nil
          | cons hc _ ih =>
            refine .cons ?_ (ih fun t ht => hts t (List.mem_cons_of_mem _ ht))
            rw [← hc]
            refine (treeF_congr fun c hb => ?_).symm
            have hlt : c < s.next := by
              rcases hb with rfl | hb
              · exact hts _ List.mem_cons_self
              · exact hbelow (hts _ List.mem_cons_self) hb
            unfold swapped
            rw [heap_setObj, if_neg (Nat.ne_of_lt hlt)]
            exact hold c hlt
        exact this hlt hks
      have hne' : ks ≠ [] := by rintro rfl; exact hne (List.forall₂_nil_right_iff.1 hks)
      obtain ⟨d, hd', rfl⟩ := toDict_kids hne' hd
      have f := forest_of hks' hd'
      have hvn : ∀ b : Bool, dictValue b { docRoot s (allSectionTerms s) with children := allSectionTerms s } d =
          d.set (py!"@value") (.val (.str (py!"Root"))) := by
        intro b; cases b <;> rfl
      rw [hvn] at hv
      have hnd : (d.set (py!"@value") (.val (.str (py!"Root")))).keys.Nodup := Dict.nodup_set f.nodup _ _
      rcases hv with ⟨l, e, rfl⟩ | ⟨h, -⟩
      · cases e
        refine ⟨convOf s rvn, _, rfl, f.conv, ?_, ?_, ?_⟩
        · intro n hn
          have : (if rvn then (d.set (py!"@value") (.val (.str (py!"Root")))).del (py!"@value") else d.set (py!"@value") (.val (.str (py!"Root")))).get? n = d.get? n := by
            cases rvn with
            | true => rw [if_pos rfl, Dict.get?_del_other _ (Ne.symm hn), Dict.get?_set, if_neg (Ne.symm hn)]
            | false => rw [if_neg (by decide), Dict.get?_set, if_neg (Ne.symm hn)]
          rw [this]
          exact f.entry w n
        · cases rvn with
          | true => rw [if_pos rfl, if_pos rfl, Dict.get?_del hnd, if_pos rfl]
          | false => rw [if_neg (by decide), if_neg (by decide), Dict.get?_set_self]
        · have hk : (d.set (py!"@value") (.val (.str (py!"Root")))).keys.filter (· ≠ py!"@value") = d.keys.filter (· ≠ py!"@value") := by
            rw [Dict.keys_set]
            split
            · rfl
            · rw [List.filter_append]; simp
          rw [← f.keys, ← hk]
          cases rvn with
          | true => rw [if_pos rfl, Dict.keys_del hnd, List.filter_filter]; simp
          | false => rw [if_neg (by decide)]
      · exact absurd rfl (h _)

/-! Concrete cases -/

/-- A document with two sections that share a name. -/
def secRows : List (List Str) :=
  [[py!"Title", py!"t"], [py!"Section", py!"Data"], [py!"File", py!"a"], [py!".Size", py!"1"], [py!"Section", py!"More"], [py!"Title", py!"u"]]

theorem doc_example : ∃ s', docAsDict true (exParse secRows) = .ok (.dict [(py!"title", .list [.ofStr (py!"t"), .ofStr (py!"u")]),
    (py!"file", .dict [(py!"size", .ofStr (py!"1")), (py!"@value", .ofStr (py!"a"))])]) s' := returns_eq (by decide +kernel)

/-- The hypotheses of `C10_combines` can be met, with terms of one name in two sections. -/
example : ∃ (conv : Nat → DVal) (d : Dict DVal), d.get? (py!"title") = some (.list [conv 1, conv 6]) := by
  obtain ⟨s', h⟩ := doc_example
  obtain ⟨conv, d, -, -, hn, -⟩ := (C10_combines (exParse_reach (allow := fun _ => True) secRows trivial) h).2 (by decide +kernel)
  refine ⟨conv, d, ?_⟩
  rw [(hn (py!"title") (by decide)).any (by decide +kernel)]
  rw [show namedIn (exParse secRows) (allSectionTerms (exParse secRows)) (py!"title") = [1, 6] by decide +kernel]
  rfl

/-- Those of `C10_section_partial` as well. -/
example : ∃ s', sectionAsDict true 2 (exParse secRows) = .ok (.dict
    [(py!"file", .dict [(py!"size", .ofStr (py!"1")), (py!"@value", .ofStr (py!"a"))]), (py!"@value", .ofStr (py!"Data"))]) s' ∧ s' = exParse secRows := by
  obtain ⟨s', h⟩ : ∃ s', sectionAsDict true 2 (exParse secRows) = .ok (.dict
    [(py!"file", .dict [(py!"size", .ofStr (py!"1")), (py!"@value", .ofStr (py!"a"))]), (py!"@value", .ofStr (py!"Data"))]) s' := returns_eq (by decide +kernel)
  exact ⟨s', h, (C10_section_partial (exParse_reach (allow := fun _ => True) secRows trivial) h).1⟩

/-- Declarations of a root-level term that is to be joined to a string. -/
def joinFiles : Files :=
  ⟨fun t => if t = py!"d.csv" then some [[py!"Section", py!"DeclaredTerms", py!"ChildPropertyType"], [py!"DeclareTerm", py!"T", py!"sconcat"]] else none,
   fun _ n => if n = py!"d.csv" then some (py!"d.csv") else none⟩
def joinRows : List (List Str) := [[py!"Declare", py!"d.csv"], [py!"Section", py!"Data"], [py!"T", py!"t"], [py!".A", py!"1"]]
def joinDoc : St := after (parseRows joinFiles 3 (py!"m.csv") joinRows) exDoc

/-- **C10** does not hold for sections when the conversion raises. The term below has a child, so its conversion cannot be joined to a
string. The section keeps its terms as its children: before it had no children, afterwards it has one. -/
theorem C10_exception_witness :
    (parseRows joinFiles 3 (py!"m.csv") joinRows exDoc).val = .ok () ∧ joinDoc.sections.get? (py!"data") = some 5 ∧
    (match sectionAsDict true 5 joinDoc with | .ok _ _ => none | .err e s => some (e, (s.heap 5).children)) = some (.typeError, [6]) ∧
    (joinDoc.heap 5).children = [] := by
  decide +kernel

end Metatab
