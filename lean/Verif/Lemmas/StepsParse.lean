import Verif.Lemmas.StepsDoc
import Verif.Lemmas.Num
/-! Parsing is a sequence of elementary steps. -/
namespace Metatab
open Py

/-- Only the parser's declaration tables differ. -/
def DeclOnly (s s' : St) : Prop := ∃ dt ds, s' = { s with p := { s.p with declTerms := dt, declSecs := ds } }
instance : Pre DeclOnly where
  refl s := ⟨s.p.declTerms, s.p.declSecs, rfl⟩
  trans := by rintro a b c ⟨d1, e1, rfl⟩ ⟨d2, e2, rfl⟩; exact ⟨d2, e2, rfl⟩

theorem pres_addTermToSection (loop : Bool) (td : DTerm) : Pres DeclOnly (addTermToSection loop td) := by
  unfold addTermToSection
  refine Pres.bind Pres.get fun s => ?_
  dsimp only
  split
  · exact Pres.raise _
  · split
    · exact Pres.ite (fun s => ⟨_, _, rfl⟩) (Pres.pure _)
    · exact Pres.raise _

theorem pres_inheritLoop (sec tR ihR : Str) : ∀ f i, Pres DeclOnly (inheritLoop sec tR ihR f i)
  | 0, _ => Pres.raise _
  | f + 1, i => by
    unfold inheritLoop
    refine Pres.bind Pres.get fun s => ?_
    dsimp only
    split
    · exact Pres.raise _
    · split
      · exact Pres.pure _
      · refine Pres.bind (Pres.lift _) fun e => ?_
        cases e with
        | none => exact pres_inheritLoop sec tR ihR f (i + 1)
        | some e =>
          refine Pres.bind (Pres.lift _) fun n => Pres.bind (fun s => ⟨_, _, rfl⟩) fun _ => ?_
          exact Pres.bind (pres_addTermToSection _ e) fun _ => pres_inheritLoop sec tR ihR f (i + 1)

theorem pres_addInherited (td : DTerm) : Pres DeclOnly (addInherited td) := by
  unfold addInherited
  split
  · refine Pres.ite (Pres.pure _) ?_
    split
    · exact Pres.raise _
    · refine Pres.bind (Pres.lift _) fun ⟨_, _⟩ => Pres.bind (Pres.lift _) fun ⟨_, _⟩ => Pres.bind Pres.get fun s => ?_
      split
      · exact Pres.raise _
      · exact pres_inheritLoop _ _ _ _ _
  · exact Pres.pure _

theorem pres_addDeclaredTerm (t : Nat) : Pres DeclOnly (addDeclaredTerm t) := by
  unfold addDeclaredTerm
  refine Pres.bind (Pres.obj t) fun o => ?_
  split
  · exact Pres.raise _
  · refine Pres.bind (Pres.lift _) fun n => Pres.bind (Pres.lift _) fun ap => Pres.bind (Pres.lift _) fun td => ?_
    refine Pres.bind (fun s => ⟨_, _, rfl⟩) fun _ => ?_
    dsimp only
    split
    · exact Pres.bind (pres_addTermToSection _ td) fun _ => pres_addInherited td
    · exact pres_addInherited td
  · exact Pres.raise _

theorem pres_addDeclaredSection (t : Nat) : Pres DeclOnly (addDeclaredSection t) := by
  unfold addDeclaredSection
  refine Pres.bind (Pres.obj t) fun o => ?_
  split
  · exact fun s => ⟨_, _, rfl⟩
  · exact Pres.raise _

theorem pres_addValueSetValue (t : Nat) : Pres DeclOnly (addValueSetValue t) := by
  unfold addValueSetValue
  refine Pres.bind Pres.get fun s => ?_
  split
  · exact Pres.raise _
  · exact Pres.bind (Pres.lift _) fun ap => fun s => ⟨_, _, rfl⟩

theorem pres_manageDeclare (t : Nat) : Pres DeclOnly (manageDeclare t) := by
  unfold manageDeclare
  refine Pres.bind (Pres.obj t) fun o => ?_
  refine Pres.ite (pres_addDeclaredSection t) (Pres.ite (pres_addDeclaredTerm t) (Pres.ite (pres_addValueSetValue t) (Pres.pure _)))

variable {C : Cap} {s : St}

theorem tri_manageDeclare {t : Nat} (hC : C.par) : Tri C (manageDeclare t) (fun _ _ => True) s := by
  intro w
  have key : ∀ s', DeclOnly s s' → Steps C s s' := by
    rintro s' ⟨dt, ds, rfl⟩
    exact .single (.parser _ hC w.pSec w.pMap w.pLow)
  exact wp_mono ((pres_manageDeclare t).wp s) (fun _ s' h => ⟨key s' h, trivial⟩) fun _ s' h => key s' h

/-- Permissions of term operations inside the parser: only objects from `n` on are attached and the parser state is left alone. -/
def Cap.calm (F : Prop) (n : Nat) : Cap := ⟨F, fun t c => ¬ F ∨ (n ≤ c ∧ t < c), False, False, False⟩
theorem Cap.calm_good (F : Prop) {n m : Nat} (h : n ≤ m) : (Cap.calm F n).Good m :=
  ⟨fun _ _ a b => .inr ⟨Nat.le_trans h a, b⟩, fun hs _ _ => .inl hs⟩
/-- All permissions, apart from taking away the section of a listed term, which `U` decides. -/
def Cap.any (F U : Prop) : Cap := ⟨F, fun _ _ => True, True, True, U⟩
theorem Cap.any_good (F U : Prop) (n : Nat) : (Cap.any F U).Good n := ⟨fun _ _ _ _ => trivial, fun _ _ _ => trivial⟩
/-- All permissions. -/
abbrev Cap.all (F : Prop) : Cap := Cap.any F True
theorem Cap.all_good (F : Prop) (n : Nat) : (Cap.all F).Good n := Cap.any_good F True n

variable {F U : Prop}

theorem tri_calm {α : Type} {m : M α} {Q : α → St → Prop} {n : Nat} (h : Tri (Cap.calm F n) m Q s) :
    Tri (Cap.any F U) m (fun a s' => Steps (Cap.calm F n) s s' ∧ Q a s') s := by
  intro w
  have up : ∀ s', Steps (Cap.calm F n) s s' → Steps (Cap.any F U) s s' :=
    fun s' h => h.mono id (fun _ _ _ => trivial) False.elim False.elim False.elim
  exact wp_mono (h w) (fun _ s' ⟨a, b⟩ => ⟨up s' a, a, b⟩) fun _ s' a => up s' a

theorem calm_p {n : Nat} {s' : St} (h : Steps (Cap.calm F n) s s') : s'.p = s.p := (Steps.ext h).par id
theorem calm_free {n : Nat} {s' : St} (h : Steps (Cap.calm F n) s s') (hF : F) {c : Nat} (hc : c < n) (hf : Free s c) : Free s' c :=
  fun i hi => hf i (Steps.oldKids (C := Cap.calm F n) (n := n) (fun _ _ a => (a.resolve_left fun k => k hF).1) h hc hi)

theorem tri_all {α : Type} {m : M α} {Q : α → St → Prop} (h : Tri C m Q s) (hs : C.strict = F) : Tri (Cap.all F) m Q s :=
  tri_cap h hs (fun _ _ _ => trivial) (fun _ => trivial) (fun _ => trivial) (fun _ => trivial)

/-- An object the parser may handle: a section, or a term no one lists yet that is newer than every term named before. -/
def Ready (F : Prop) (s : St) (t : Nat) : Prop :=
  t < s.next ∧ ((s.heap t).cls.isSection = true ∨ (t ∉ s.terms ∧ (F → Free s t ∧ ∀ kv ∈ s.p.lastMap, kv.2 < t)))

theorem Ready.unlisted {t : Nat} (h : Ready F s t) (w : WF F s) : t ∉ s.terms := by
  intro hm
  rcases h.2 with hs | ⟨hn, _⟩
  · have := (w.termsLt t hm).2
    rw [hs] at this; cases this
  · exact hn hm

theorem elided_joinLc (o : Obj) (h : o.pt = ELIDED) : o.joinLc ≠ py!"root.root" := by
  unfold Obj.joinLc dotJoin
  rw [h, show lower ELIDED = '<' :: py!"elided_term>" by decide]
  intro e; injection e with e; cases e

theorem tri_applyDecl {t : Nat} (ht : t < s.next) :
    Tri C (applyDecl t) (fun _ s' => s'.next = s.next ∧ s'.p = s.p ∧ (∀ i, (s'.heap i).children = (s.heap i).children) ∧
      ∀ i, (s'.heap i).cls = (s.heap i).cls) s := by
  unfold applyDecl
  refine tri_get ?_
  dsimp only
  refine tri_upd (step_attrs ht ⟨rfl, rfl, rfl, rfl, rfl, rfl, rfl⟩) ?_
  refine tri_bind (tri_setTvn ht) fun _ s1 _ e1 => ?_
  subst e1
  refine tri_upd' (step_attrs ht ⟨rfl, rfl, rfl, rfl, rfl, rfl, rfl⟩) ⟨rfl, rfl, ?_, ?_⟩
  · intro i
    simp only [heap_setObj]; split
    · next e => subst e; rfl
    · rfl
  · intro i
    simp only [heap_setObj]; split
    · next e => subst e; rfl
    · rfl

/-- Attaching a parsed term. -/
theorem tri_addChildP {q t : Nat} (hq : q < s.next) (ht : t < s.next)
    (h : F → (q < t ∨ (q = t ∧ (s.heap t).pt = (s.heap t).rt)) ∧ (s.heap t).cls.isSection = false ∧ Free s t) :
    Tri (Cap.any F U) (addChild q t) (fun _ _ => True) s := by
  have hs1 : Step (Cap.any F U) s (s.setObj t { s.heap t with parent := some q }) := .setParent t q ht hq trivial fun f => (h f).2.2
  have kids : ∀ i, ((s.setObj t { s.heap t with parent := some q }).heap i).children = (s.heap i).children := by
    intro i; rw [heap_setObj]; split
    · next e => rw [e]
    · rfl
  have hs2 : Step (Cap.any F U) (s.setObj t { s.heap t with parent := some q })
      ((s.setObj t { s.heap t with parent := some q }).setObj q
        { (s.setObj t { s.heap t with parent := some q }).heap q with
            children := ((s.setObj t { s.heap t with parent := some q }).heap q).children ++ [t] }) := by
    refine .attach q t hq ht trivial fun f => ?_
    obtain ⟨h1, h2, h3⟩ := h f
    refine ⟨?_, ?_, ?_, ?_⟩
    · rw [heap_setObj, if_pos rfl]; exact h1
    · rw [heap_setObj, if_pos rfl]; exact h2
    · rw [heap_setObj, if_pos rfl]
    · intro i; rw [kids]; exact h3 i
  have e : ((s.setObj t { s.heap t with parent := some q }).setObj q
        { (s.setObj t { s.heap t with parent := some q }).heap q with
            children := ((s.setObj t { s.heap t with parent := some q }).heap q).children ++ [t] }) =
      ((s.setObj q { s.heap q with children := (s.heap q).children ++ [t] }).setObj t
        { (s.setObj q { s.heap q with children := (s.heap q).children ++ [t] }).heap t with parent := some q }) := by
    unfold St.setObj
    congr 1
    funext j
    by_cases h1 : j = q <;> by_cases h2 : j = t <;> by_cases h3 : q = t <;> simp_all
  rw [e] at hs2
  have hst : Steps (Cap.any F U) s _ := (Steps.one hs1).tail hs2
  intro w
  unfold addChild
  rw [wp_bind, wp_upd, wp_bind, wp_upd, wp_bind, wp_obj, wp_assert]
  exact ⟨fun _ => ⟨hst, trivial⟩, fun _ => hst⟩

theorem mungeParamMap_low (args : List Str) : ∀ n ∈ mungeParamMap args, Low n := by
  intro n hn
  unfold mungeParamMap at hn
  obtain ⟨a, -, rfl⟩ := List.mem_map.1 hn
  split
  · exact lower_natStr _
  · exact lower_lower _

theorem remapRecord_low {l : List Str} {r : Str} (hl : ∀ n ∈ l, Low n) (hr : Low r) : Low (remapRecord l r) := by
  unfold remapRecord
  split
  · exact hr
  · next i _ =>
    cases h : pyIndex l i with
    | none => exact hr
    | some n =>
      refine hl n ?_
      unfold pyIndex at h
      split at h
      · exact List.mem_of_getElem? h
      · split at h
        · exact List.mem_of_getElem? h
        · cases h

theorem substSynonym_low {d : Dict DTerm} {pt rt p r : Str} (hl : Low pt ∧ Low rt) (h : substSynonym d pt rt = .ok (p, r)) : Low p ∧ Low r := by
  unfold substSynonym at h
  split at h
  · exact splitTermLower_low h
  · cases h; exact hl

theorem initP_low {n : Nat} : (∀ m ∈ (initP n).paramMap, Low m) ∧ Low (initP n).lastParent :=
  ⟨(by intro m h; cases h), (show lower ROOT = ROOT by decide)⟩

theorem elided_ne_root : ELIDED ≠ ROOT := by decide

theorem tri_placeTerm {t : Nat} (ht : t < s.next) (hsec : (s.heap t).cls.isSection = false)
    (hr : F → Free s t ∧ ∀ kv ∈ s.p.lastMap, kv.2 < t) : Tri (Cap.any F U) (placeTerm t) (fun _ _ => True) s := by
  unfold placeTerm
  refine tri_wf fun w => tri_get ?_
  dsimp only
  refine tri_ite (fun he => ?_) fun hne => tri_ite (fun _ => ?_) fun _ => ?_
  · refine tri_upd (.rename t s.p.lastParent (s.heap t).rt ht (fun f => (hr f).1 t) ⟨w.pLow.2, (w.low t).2⟩ fun _ => elided_joinLc _ he) ?_
    unfold attach
    refine tri_get ?_
    have kids : ∀ i, ((s.setObj t { s.heap t with pt := s.p.lastParent, rt := (s.heap t).rt }).heap i).children = (s.heap i).children := by
      intro i; rw [heap_setObj]; split
      · next e => rw [e]
      · rfl
    split
    · next q hq =>
      have hm := Dict.mem_of_get? hq
      refine tri_addChildP (w.pMap _ hm) ht fun f => ⟨.inl ((hr f).2 _ hm), ?_, fun i => ?_⟩
      · rw [heap_setObj, if_pos rfl]; exact hsec
      · have := kids i
        rw [this]; exact (hr f).1 i
    · exact tri_raise
  · unfold attach
    refine tri_get ?_
    split
    · next q hq =>
      have hm := Dict.mem_of_get? hq
      exact tri_addChildP (w.pMap _ hm) ht fun f => ⟨.inl ((hr f).2 _ hm), hsec, (hr f).1⟩
    · exact tri_raise
  · have hmem : ∀ kv ∈ ((s.p.lastMap.set ELIDED t).set (s.heap t).rt t), kv ∈ s.p.lastMap ∨ kv.2 = t := by
      have one : ∀ (d : Dict Nat) k, ∀ kv ∈ d.set k t, kv ∈ d ∨ kv.2 = t := by
        intro d k kv
        induction d with
        | nil => intro h; simp [Dict.set] at h; rw [h]; exact .inr rfl
        | cons a d ih =>
          obtain ⟨a1, a2⟩ := a
          unfold Dict.set
          split
          · intro h
            rcases List.mem_cons.1 h with rfl | h
            · exact .inr rfl
            · exact .inl (List.mem_cons_of_mem _ h)
          · intro h
            rcases List.mem_cons.1 h with rfl | h
            · exact .inl List.mem_cons_self
            · rcases ih h with h | h
              · exact .inl (List.mem_cons_of_mem _ h)
              · exact .inr h
      intro kv h
      rcases one _ _ kv h with h | h
      · exact one _ _ kv h
      · exact .inr h
    refine tri_modify (.parser _ trivial w.pSec ?_ ⟨w.pLow.1, (w.low t).2⟩) ?_
    · intro kv h
      rcases hmem kv h with h | h
      · exact w.pMap kv h
      · rw [h]; exact ht
    · unfold attach
      refine tri_get ?_
      dsimp only
      split
      · next q hq =>
        have hm := hmem _ (Dict.mem_of_get? hq)
        have hlt : q < s.next := by
          rcases hm with h | h
          · exact w.pMap _ h
          · rw [show q = t from h]; exact ht
        refine tri_addChildP (s := { s with p := _ }) hlt ht fun f => ⟨?_, hsec, (hr f).1⟩
        rcases hm with h | h
        · exact .inl ((hr f).2 _ h)
        · have e : q = t := h
          by_cases hn : (s.heap t).pt = (s.heap t).rt
          · exact .inr ⟨e, hn⟩
          · -- the name is neither of the two just entered, so the entry is an old one
            rw [Dict.get?_set, if_neg (fun e => hn e.symm), Dict.get?_set, if_neg (fun e => hne e.symm)] at hq
            exact .inl ((hr f).2 _ (Dict.mem_of_get? hq))
      · exact tri_raise

theorem tri_iterBody {t : Nat} (hr : Ready F s t) : Tri (Cap.any F U) (iterBody t) (fun _ _ => True) s := by
  unfold iterBody
  refine tri_wf fun w => ?_
  have hul := hr.unlisted w
  obtain ⟨ht, hr⟩ := hr
  refine tri_get (tri_lift fun ⟨p, r⟩ hpr => ?_)
  dsimp only
  have hself : F → t ∉ (s.heap t).children := by
    intro f hm
    rcases hr with hsec | ⟨_, hr⟩
    · have := w.kidSec f t t hm
      rw [hsec] at this; cases this
    · exact (hr f).1 t hm
  have hlow : Low p ∧ Low (remapRecord s.p.paramMap r) :=
    ⟨(substSynonym_low (w.low t) hpr).1, remapRecord_low w.pLow.1 (substSynonym_low (w.low t) hpr).2⟩
  refine tri_upd (.rename t p (remapRecord s.p.paramMap r) ht hself hlow fun h => absurd h hul) ?_
  have hs1 : Step (Cap.any F U) s (s.setObj t { s.heap t with pt := p, rt := remapRecord s.p.paramMap r }) :=
    .rename t p (remapRecord s.p.paramMap r) ht hself hlow fun h => absurd h hul
  generalize hg1 : s.setObj t { s.heap t with pt := p, rt := remapRecord s.p.paramMap r } = s1 at hs1 ⊢
  have st1 := Steps.one hs1
  have p1 : s1.p = s.p := by rw [← hg1]; rfl
  have n1 : s1.next = s.next := by rw [← hg1]; rfl
  have kids1 : ∀ i, (s1.heap i).children = (s.heap i).children := by
    intro i; rw [← hg1, heap_setObj]; split
    · next e => rw [e]
    · rfl
  have hls := st1.isSec w.pSec
  have ht1 := st1.lt ht
  refine tri_bind (tri_calm (n := s1.next) (tri_setSection ht1 (fun x e => by cases e; exact hls) (fun e => by cases e) (Cap.calm_good F (Nat.le_refl _))))
    fun _ s2 st2 ⟨st2c, _⟩ => ?_
  have p2 : s2.p = s.p := (calm_p st2c).trans p1
  have ht2 := st2.lt ht1
  have hls2 := st2.isSec hls
  have cls2 : (s2.heap t).cls = (s.heap t).cls := (st2.cls ht1).trans (st1.cls ht)
  have free2 : F → (s.heap t).cls.isSection = false → Free s2 t ∧ ∀ kv ∈ s2.p.lastMap, kv.2 < t := by
    intro f hns
    rcases hr with h | ⟨_, h⟩
    · rw [hns] at h; cases h
    · refine ⟨calm_free st2c f ht1 fun i => ?_, ?_⟩
      · rw [kids1]; exact (h f).1 i
      · rw [p2]; exact (h f).2
  refine tri_wf fun w2 => tri_obj ?_
  refine tri_ite (fun _ => ?_) fun _ => ?_
  · refine tri_modify (.parser _ trivial w2.pSec w2.pMap ⟨mungeParamMap_low _, w2.pLow.2⟩) ?_
    split
    · refine tri_modify (.parser _ trivial w2.pSec w2.pMap ⟨mungeParamMap_low _, w2.pLow.2⟩) ?_
      refine tri_upd (step_attrs hls2.1 ⟨rfl, rfl, rfl, rfl, rfl, rfl, rfl⟩) ?_
      exact tri_pure trivial
    · exact tri_raise
  · have fin : ∀ s', Tri (Cap.any F U) (if (s2.heap t).isDecl = true then do
          manageDeclare t
          return false
        else return true) (fun _ _ => True) s' := by
      intro s'
      refine tri_ite (fun _ => ?_) fun _ => tri_pure trivial
      exact tri_bind (tri_manageDeclare trivial) fun _ _ _ _ => tri_pure trivial
    refine tri_ite (fun _ => ?_) fun _ => tri_ite (fun _ => ?_) fun _ => ?_
    · refine tri_ite (fun _ => tri_bind (Q := fun _ _ => False) tri_raise fun _ _ _ h => h.elim) fun hsec => ?_
      have hsec' : (s2.heap t).cls.isSection = true := by simpa using hsec
      refine tri_modify (.parser _ trivial ⟨ht2, hsec'⟩ w2.pMap (by first | exact w2.pLow | exact ⟨mungeParamMap_low _, (w.low s.root).2⟩)) ?_
      exact tri_bind (tri_setSection (s := { s2 with p := _ }) ht2 (fun x e => by cases e) (fun _ h => by have := (w2.termsLt t h).2; rw [hsec'] at this; cases this) (Cap.any_good F U _)) fun _ s3 _ _ => fin s3
    · refine tri_ite (fun _ => tri_bind (Q := fun _ _ => False) tri_raise fun _ _ _ h => h.elim) fun hsec => ?_
      have hsec' : (s2.heap t).cls.isSection = true := by simpa using hsec
      refine tri_modify (.parser _ trivial ⟨ht2, hsec'⟩ w2.pMap (by first | exact w2.pLow | exact ⟨mungeParamMap_low _, (w.low s.root).2⟩)) ?_
      exact tri_bind (tri_setSection (s := { s2 with p := _ }) ht2 (fun x e => by cases e) (fun _ h => by have := (w2.termsLt t h).2; rw [hsec'] at this; cases this) (Cap.any_good F U _)) fun _ s3 _ _ => fin s3
    · refine tri_ite (fun _ => tri_bind (Q := fun _ _ => False) tri_raise fun _ _ _ h => h.elim) fun hsec => ?_
      have hsec' : (s2.heap t).cls.isSection = false := by simpa using hsec
      refine tri_bind (tri_applyDecl ht2) fun _ s3 st3 ⟨n3, p3, k3, c3⟩ => ?_
      have hns : (s.heap t).cls.isSection = false := by rw [← cls2]; exact hsec'
      have hfree : F → Free s3 t ∧ ∀ kv ∈ s3.p.lastMap, kv.2 < t := by
        intro f
        obtain ⟨a, b⟩ := free2 f hns
        exact ⟨fun i => by rw [k3]; exact a i, by rw [p3]; exact b⟩
      refine tri_bind (tri_placeTerm (st3.lt ht2) (by rw [c3]; exact hsec') hfree) fun _ s4 st4 _ => ?_
      refine tri_obj (tri_ite (fun _ => ?_) fun _ => fin s4)
      refine tri_bind (tri_sectionAddTerm ?_ (st4.lt (st3.lt ht2)) (Cap.any_good F U _)) fun _ s5 _ _ => fin s5
      exact st4.lt (st3.lt hls2.1)

theorem tri_loadBody {t : Nat} (ht : t < s.next) : Tri (Cap.any F U) (loadBody t) (fun _ _ => True) s := by
  unfold loadBody
  refine tri_obj (tri_ite (fun _ => tri_pure trivial) fun _ => tri_ite (fun _ => ?_) fun _ => tri_ite (fun _ => ?_) fun _ => ?_)
  · exact tri_bind (tri_addSection ht) fun _ _ _ _ => tri_pure trivial
  · exact tri_docAddTerm ht (Cap.any_good F U _)
  · exact tri_assert' fun _ => trivial

theorem tri_consume {load : Bool} {t : Nat} (hr : Ready F s t) : Tri (Cap.any F U) (consume load t) (fun _ _ => True) s := by
  unfold consume
  refine tri_bind (tri_iterBody hr) fun y s1 st1 _ => ?_
  exact tri_ite (fun _ => tri_loadBody (st1.lt hr.1)) fun _ => tri_pure trivial

theorem FreshObj.ready {s s' : St} {i : Nat} {cls : Cls} {parent sec : Option Nat} (f : FreshObj s s' i cls parent sec) (w : WF F s) :
    Ready F s' i := by
  refine ⟨f.lt, .inr ⟨?_, fun _ => ⟨f.free w, ?_⟩⟩⟩
  · intro hm
    obtain ⟨o, e, _⟩ := f.obj
    rw [e] at hm
    have := (w.termsLt i hm).1
    rw [f.eq] at this
    exact Nat.lt_irrefl _ this
  intro kv h
  rw [f.sections.2.2.1] at h
  rw [f.eq]; exact w.pMap kv h

theorem tri_rowTerm {isDecl : Bool} {row : List Str} :
    Tri C (rowTerm isDecl row) (fun t s' => ∃ c, FreshObj s s' t c none none) s := by
  unfold rowTerm
  refine tri_lift fun n _ => tri_get ?_
  dsimp only
  split
  · exact tri_mono tri_newSectionObj fun _ _ _ f => ⟨_, f⟩
  · exact tri_raise
  · exact tri_mono (tri_newTermObj (fun q h => by cases h) (fun q h => by cases h)) fun _ _ _ f => ⟨_, f⟩

theorem tri_argTerm {isDecl : Bool} {t col : Nat} {v : Str} (ht : t < s.next) :
    Tri C (argTerm isDecl t col v) (fun i s' => ∃ c, FreshObj s s' i c (some t) none) s := by
  unfold argTerm
  refine tri_get ?_
  dsimp only
  split
  · exact tri_raise
  · exact tri_raise
  · exact tri_mono (tri_newTermObj (fun q h => by cases h; exact ht) (fun q h => by cases h)) fun _ _ _ f => ⟨_, f⟩

theorem tri_argLoop {load isDecl : Bool} {t : Nat} : ∀ {vs : List Str} {col : Nat} {s : St}, t < s.next →
    Tri (Cap.any F U) (argLoop load isDecl t col vs) (fun _ _ => True) s
  | [], _, _, _ => tri_pure trivial
  | v :: vs, col, s, ht => by
    unfold argLoop
    refine tri_ite (fun _ => ?_) fun _ => tri_argLoop ht
    refine tri_wf fun w => tri_bind (tri_argTerm ht) fun c s1 st1 ⟨_, f⟩ => ?_
    exact tri_bind (tri_consume (f.ready w)) fun _ s2 st2 _ => tri_argLoop ((st1.trans st2).lt ht)

theorem tri_yieldWithArgs {load isDecl : Bool} {t : Nat} (hr : Ready F s t) :
    Tri (Cap.any F U) (yieldWithArgs load isDecl t) (fun _ _ => True) s := by
  unfold yieldWithArgs
  refine tri_bind (tri_consume hr) fun _ s1 st1 _ => tri_obj ?_
  exact tri_ite (fun _ => tri_pure trivial) fun _ => tri_argLoop (st1.lt hr.1)

theorem tri_genRows {files : Files} {sub : Str → Bool → M Unit} {load isDecl : Bool} {dir ref : Str}
    (hsub : ∀ t d s', Tri (Cap.any F U) (sub t d) (fun _ _ => True) s') : ∀ {rows : List (List Str)} {ls : Nat} {s : St},
    (ls < s.next ∧ (s.heap ls).cls.isSection = true) → Tri (Cap.any F U) (genRows files sub load isDecl dir ref ls rows)
      (fun x s' => x < s'.next ∧ (s'.heap x).cls.isSection = true) s
  | [], _, _, hls => tri_pure hls
  | row :: rows, ls, s, hls => by
    unfold genRows
    refine tri_ite (fun _ => tri_genRows hsub hls) fun _ => ?_
    refine tri_wf fun w => tri_bind tri_rowTerm fun t s1 st1 ⟨_, f⟩ => tri_obj ?_
    have hls1 := st1.isSec hls
    refine tri_ite (fun _ => ?_) fun _ => tri_ite (fun _ => ?_) fun _ => ?_
    · refine tri_lift fun target _ => tri_ite (fun _ => tri_raise) fun _ => ?_
      refine tri_bind (tri_consume (f.ready w)) fun _ s2 st2 _ => tri_obj ?_
      refine tri_bind (hsub _ _ s2) fun _ s3 st3 _ => ?_
      have hls3 := st3.isSec (st2.isSec hls1)
      refine tri_bind (tri_consume ⟨hls3.1, .inl hls3.2⟩) fun _ s4 st4 _ => ?_
      exact tri_genRows hsub (st4.isSec hls3)
    · refine tri_wf fun w1 => tri_lift fun x hx => ?_
      have hxs : x < s1.next ∧ (s1.heap x).cls.isSection = true := by
        unfold resolveSection at hx
        split at hx
        · next n hc hv =>
          cases hx
          cases hg : s1.sections.get? (lower n) with
          | none => exact ⟨f.lt, hc⟩
          | some y =>
            have := w1.secsLt _ (Dict.mem_of_get? hg)
            exact ⟨this.1, this.2.1⟩
        · cases hx
      refine tri_bind (tri_yieldWithArgs ⟨hxs.1, .inl hxs.2⟩) fun _ s2 st2 _ => ?_
      exact tri_genRows hsub (st2.isSec hxs)
    · refine tri_bind (tri_yieldWithArgs (f.ready w)) fun _ s2 st2 _ => ?_
      exact tri_genRows hsub (st2.isSec hls1)

theorem tri_gen {files : Files} {load : Bool} : ∀ {f : Nat} {isDecl : Bool} {dir ref : Str} {rows : List (List Str)} {s : St},
    Tri (Cap.any F U) (gen files load f isDecl dir ref rows) (fun _ _ => True) s
  | 0, _, _, _, _, _ => tri_raise
  | f + 1, isDecl, dir, ref, rows, s => by
    unfold gen
    refine tri_wf fun w => tri_get (tri_bind (tri_genRows (fun target d s' => ?_) ⟨w.rootLt, w.rootSec⟩) fun _ _ _ _ => tri_pure trivial)
    split
    · exact tri_raise
    · exact tri_gen

theorem tri_parseRows {files : Files} {fuel : Nat} {path : Str} {rows : List (List Str)} : Tri (Cap.any F U) (parseRows files fuel path rows) (fun _ _ => True) s := by
  unfold parseRows
  refine tri_wf fun w => tri_modify (.parser (initP s.root) trivial ⟨w.rootLt, w.rootSec⟩ ?_ initP_low) ?_
  · intro kv h
    simp only [initP, List.mem_cons, List.not_mem_nil, or_false] at h
    rcases h with rfl | rfl <;> exact w.rootLt
  · refine tri_bind tri_gen fun _ s1 _ _ => ?_
    exact tri_modify' (.tables _ _ _ _ _ trivial) trivial

theorem tri_loadDeclarations {files : Files} {fuel : Nat} {decls : List Str} : Tri (Cap.any F U) (loadDeclarations files fuel decls) (fun _ _ => True) s := by
  unfold loadDeclarations
  refine tri_ite (fun _ => tri_pure trivial) fun _ => tri_wf fun w => tri_get (tri_lift fun ts _ => ?_)
  dsimp only
  refine tri_modify (.parser (initP s.root) trivial ⟨w.rootLt, w.rootSec⟩ ?_ initP_low) ?_
  · intro kv h
    simp only [initP, List.mem_cons, List.not_mem_nil, or_false] at h
    rcases h with rfl | rfl <;> exact w.rootLt
  · refine tri_bind tri_gen fun _ s1 _ _ => ?_
    exact tri_modify' (.tables _ _ _ _ _ trivial) trivial

end Metatab
