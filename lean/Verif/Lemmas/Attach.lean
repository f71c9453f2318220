import Verif.Lemmas.Grow
/-! After parsing, every new term is attached. -/
namespace Metatab
open Py
variable {F : Prop} {s : St} {m : Nat}

theorem wp_and {α : Type} {c : M α} {Q Q' : α → St → Prop} {E E' : Err → St → Prop} (h : wp c Q E s) (k : wp c Q' E' s) :
    wp c (fun a s' => Q a s' ∧ Q' a s') E s := by
  unfold wp at *; cases hm : c s <;> rw [hm] at h k
  · exact ⟨h, k⟩
  · exact h

theorem tri_and {α : Type} {C : Cap} {c : M α} {Q Q' : α → St → Prop} {E : Err → St → Prop} (h : Tri C c Q s) (k : wp c Q' E s) :
    Tri C c (fun a s' => Q a s' ∧ Q' a s') s := fun w =>
  wp_mono (wp_and (h w) k) (fun _ _ ⟨⟨a, b⟩, c⟩ => ⟨a, b, c⟩) fun _ _ h => h

theorem tri_gr {α : Type} {C : Cap} {c : M α} {Q : α → St → Prop} (h : Tri C c Q s) (k : Gr s.next c) :
    Tri C c (fun a s' => Q a s' ∧ Grow s s') s := tri_and h (k s (Nat.le_refl _))

/-- Objects handled by the parser: a section with everything attached, or a new object that alone is not. -/
def AReady (F : Prop) (m : Nat) (s : St) (t : Nat) : Prop := Ready F s t ∧ AttBut m (some t) s

theorem att_iterBody {t : Nat} (hr : AReady F m s t) : Tri (Cap.all F) (iterBody t) (fun _ s' => AttBut m none s' ∧ True) s := by
  unfold iterBody
  refine tri_wf fun w => ?_
  have hul := hr.1.unlisted w
  obtain ⟨⟨ht, hr⟩, ha⟩ := hr
  refine tri_get (tri_lift fun ⟨p, r⟩ hpr => ?_)
  dsimp only
  have hself : F → t ∉ (s.heap t).children := by
    intro f hm
    rcases hr with hsec | ⟨_, hr⟩
    · have := w.kidSec f t t hm
      rw [hsec] at this; cases this
    · exact (hr f).1 t hm
  have hlow : Low p ∧ Low (remapRecord s.p.paramMap r) :=
    ⟨(substSynonym_low (w.low t) hpr).1, remapRecord_low w.pLow.1 (substSynonym_low (w.low t) hpr).2⟩
  refine tri_upd (.rename t p (remapRecord s.p.paramMap r) ht hself hlow fun h => absurd h hul) ?_
  have ha1 := ha.rename (p := p) (r := remapRecord s.p.paramMap r)
  have hs1 : Step (Cap.all F) s (s.setObj t { s.heap t with pt := p, rt := remapRecord s.p.paramMap r }) :=
    .rename t p (remapRecord s.p.paramMap r) ht hself hlow fun h => absurd h hul
  generalize hg1 : s.setObj t { s.heap t with pt := p, rt := remapRecord s.p.paramMap r } = s1 at hs1 ha1 ⊢
  have st1 := Steps.one hs1
  have p1 : s1.p = s.p := by rw [← hg1]; rfl
  have kids1 : ∀ i, (s1.heap i).children = (s.heap i).children := by
    intro i; rw [← hg1, heap_setObj]; split
    · next e => rw [e]
    · rfl
  have hls := st1.isSec w.pSec
  have ht1 := st1.lt ht
  refine tri_bind (tri_gr (tri_calm (n := s1.next) (tri_setSection ht1 (fun x e => by cases e; exact hls) (fun e => by cases e) (Cap.calm_good F (Nat.le_refl _))))
    (gr_setSection_some ht1 _)) fun _ s2 st2 ⟨⟨st2c, _⟩, g2⟩ => ?_
  have ha2 := ha1.grow g2
  have p2 : s2.p = s.p := (calm_p st2c).trans p1
  have ht2 := st2.lt ht1
  have hls2 := st2.isSec hls
  have cls2 : (s2.heap t).cls = (s.heap t).cls := (st2.cls ht1).trans (st1.cls ht)
  have free2 : F → (s.heap t).cls.isSection = false → Free s2 t ∧ ∀ kv ∈ s2.p.lastMap, kv.2 < t := by
    intro f hns
    rcases hr with h | ⟨_, h⟩
    · rw [hns] at h; cases h
    · refine ⟨calm_free st2c f ht1 fun i => ?_, ?_⟩
      · rw [kids1]; exact (h f).1 i
      · rw [p2]; exact (h f).2
  refine tri_wf fun w2 => tri_obj ?_
  refine tri_ite (fun hh => ?_) fun _ => ?_
  · have ha3 : AttBut m none s2 := ha2.full (.inl (.inr (.inl hh)))
    refine tri_modify (.parser _ trivial w2.pSec w2.pMap ⟨mungeParamMap_low _, w2.pLow.2⟩) ?_
    split
    · refine tri_modify (.parser _ trivial w2.pSec w2.pMap ⟨mungeParamMap_low _, w2.pLow.2⟩) ?_
      refine tri_upd (step_attrs hls2.1 ⟨rfl, rfl, rfl, rfl, rfl, rfl, rfl⟩) ?_
      refine tri_pure ⟨AttBut.grow (s := s2) ha3 (.same rfl fun i => ?_), trivial⟩
      rw [heap_setObj]; split
      · next e => subst e; exact ⟨rfl, rfl, rfl, rfl⟩
      · exact ⟨rfl, rfl, rfl, rfl⟩
    · exact tri_raise
  · have fin : ∀ s', AttBut m none s' → Tri (Cap.all F) (if (s2.heap t).isDecl = true then do
          manageDeclare t
          return false
        else return true) (fun _ s' => AttBut m none s' ∧ True) s' := by
      intro s' ha
      refine tri_ite (fun _ => ?_) fun _ => tri_pure ⟨ha, trivial⟩
      exact tri_bind (tri_gr (tri_manageDeclare trivial) (gr_manageDeclare t)) fun _ _ _ h => tri_pure ⟨ha.grow h.2, trivial⟩
    have secCase : (s2.heap t).cls.isSection = true → ∀ p : PSt, p.lastMap = s2.p.lastMap → p.lastSec = t →
        Tri (Cap.all F) (do
          setSection t none
          if (s2.heap t).isDecl = true then do
            manageDeclare t
            return false
          else return true) (fun _ s' => AttBut m none s' ∧ True) { s2 with p := p } := by
      intro hsec' p hp hl
      have ha3 : AttBut m none s2 := ha2.full (.inl (.inl hsec'))
      have ha4 : AttBut m none { s2 with p := p } := AttBut.grow (s := s2) ha3 (.same rfl fun _ => ⟨rfl, rfl, rfl, rfl⟩)
      exact tri_bind (tri_and (tri_setSection (s := { s2 with p := p }) ht2 (fun x e => by cases e) (fun _ _ => trivial) (Cap.all_good F _))
        (gr_setSection_none { s2 with p := p } hsec')) fun _ s3 _ g3 => fin s3 (ha4.grow g3.2)
    refine tri_ite (fun _ => ?_) fun _ => tri_ite (fun _ => ?_) fun _ => ?_
    · refine tri_ite (fun _ => tri_bind (Q := fun _ _ => False) tri_raise fun _ _ _ h => h.elim) fun hsec => ?_
      have hsec' : (s2.heap t).cls.isSection = true := by simpa using hsec
      refine tri_modify (.parser _ trivial ⟨ht2, hsec'⟩ w2.pMap (by first | exact w2.pLow | exact ⟨mungeParamMap_low _, (w.low s.root).2⟩)) ?_
      exact secCase hsec' _ rfl rfl
    · refine tri_ite (fun _ => tri_bind (Q := fun _ _ => False) tri_raise fun _ _ _ h => h.elim) fun hsec => ?_
      have hsec' : (s2.heap t).cls.isSection = true := by simpa using hsec
      refine tri_modify (.parser _ trivial ⟨ht2, hsec'⟩ w2.pMap (by first | exact w2.pLow | exact ⟨mungeParamMap_low _, (w.low s.root).2⟩)) ?_
      exact secCase hsec' _ rfl rfl
    · refine tri_ite (fun _ => tri_bind (Q := fun _ _ => False) tri_raise fun _ _ _ h => h.elim) fun hsec => ?_
      have hsec' : (s2.heap t).cls.isSection = false := by simpa using hsec
      refine tri_bind (tri_gr (tri_applyDecl ht2) (gr_applyDecl t)) fun _ s3 st3 ⟨⟨n3, p3, k3, c3⟩, g3⟩ => ?_
      have hns : (s.heap t).cls.isSection = false := by rw [← cls2]; exact hsec'
      have hfree : F → Free s3 t ∧ ∀ kv ∈ s3.p.lastMap, kv.2 < t := by
        intro f
        obtain ⟨a, b⟩ := free2 f hns
        exact ⟨fun i => by rw [k3]; exact a i, by rw [p3]; exact b⟩
      refine tri_wf fun w3 => ?_
      have w3' : WF False s3 := { w3 with edge := False.elim, kidSec := False.elim, kidPar := False.elim, kidNodup := False.elim }
      refine tri_bind (tri_and (tri_placeTerm (st3.lt ht2) (by rw [c3]; exact hsec') hfree)
        (wp_placeTerm w3' (st3.lt ht2) (ha2.grow g3))) fun _ s4 st4 h4 => ?_
      refine tri_obj (tri_ite (fun _ => ?_) fun _ => fin s4 h4.2.1)
      refine tri_bind (tri_gr (tri_sectionAddTerm ?_ (st4.lt (st3.lt ht2)) (Cap.all_good F _)) (gr_sectionAddTerm _ _))
        fun _ s5 _ g5 => fin s5 (h4.2.1.grow g5.2)
      exact st4.lt (st3.lt hls2.1)

theorem gr_loadBody {t n : Nat} (ht : t < n) : Gr n (loadBody t) := by
  unfold loadBody
  exact .obj fun o => .ite (.pure _) (.ite (.bind (gr_addSection t) fun _ => .pure _) (.ite (gr_docAddTerm ht) (.assert _)))

theorem att_consume {load : Bool} {t : Nat} (hr : AReady F m s t) : Tri (Cap.all F) (consume load t) (fun _ s' => AttBut m none s') s := by
  unfold consume
  refine tri_bind (att_iterBody hr) fun y s1 st1 h1 => ?_
  refine tri_ite (fun _ => ?_) fun _ => tri_pure h1.1
  have ht := st1.lt hr.1.1
  exact tri_mono (tri_gr (tri_loadBody ht) (gr_loadBody ht)) fun _ _ _ h => h1.1.grow h.2

theorem FreshObj.aready {s s' : St} {i : Nat} {cls : Cls} {parent sec : Option Nat} (f : FreshObj s s' i cls parent sec) (w : WF F s)
    (h : AttBut m none s) : AReady F m s' i := by
  refine ⟨f.ready w, ?_⟩
  intro j hm hj hne
  have hji : j ≠ i := fun e => hne (by rw [e])
  have hlt : j < s.next := by
    have := f.next; have := f.eq; omega
  have old : ∀ k, k ≠ i → s'.heap k = s.heap k := fun k hk => f.heap hk
  rcases h j hm hlt (fun e => by cases e) with h | ⟨q, hq, h⟩
  · left; rw [old j hji]; exact h
  · refine .inr ⟨q, Nat.lt_of_lt_of_le hq (by rw [f.next]; exact Nat.le_succ _), ?_⟩
    rw [old q fun e => by rw [e, f.eq] at hq; exact Nat.lt_irrefl _ hq]; exact h

theorem att_argLoop {load isDecl : Bool} {t : Nat} : ∀ {vs : List Str} {col : Nat} {s : St}, t < s.next → AttBut m none s →
    Tri (Cap.all F) (argLoop load isDecl t col vs) (fun _ s' => AttBut m none s') s
  | [], _, _, _, h => tri_pure h
  | v :: vs, col, s, ht, h => by
    unfold argLoop
    refine tri_ite (fun _ => ?_) fun _ => att_argLoop ht h
    refine tri_wf fun w => tri_bind (tri_argTerm ht) fun c s1 st1 ⟨_, f⟩ => ?_
    exact tri_bind (att_consume (f.aready w h)) fun _ s2 st2 h2 => att_argLoop ((st1.trans st2).lt ht) h2

theorem att_yieldWithArgs {load isDecl : Bool} {t : Nat} (hr : AReady F m s t) :
    Tri (Cap.all F) (yieldWithArgs load isDecl t) (fun _ s' => AttBut m none s') s := by
  unfold yieldWithArgs
  refine tri_bind (att_consume hr) fun _ s1 st1 h1 => tri_obj ?_
  exact tri_ite (fun _ => tri_pure h1) fun _ => att_argLoop (st1.lt hr.1.1) h1

theorem AttBut.weak {t : Nat} (h : AttBut m none s) : AttBut m (some t) s := fun i a b _ => h i a b fun e => by cases e

theorem att_genRows {files : Files} {sub : Str → Bool → M Unit} {load isDecl : Bool} {dir ref : Str}
    (hsub : ∀ t d s', AttBut m none s' → Tri (Cap.all F) (sub t d) (fun _ s' => AttBut m none s') s') :
    ∀ {rows : List (List Str)} {ls : Nat} {s : St}, (ls < s.next ∧ (s.heap ls).cls.isSection = true) → AttBut m none s →
    Tri (Cap.all F) (genRows files sub load isDecl dir ref ls rows) (fun _ s' => AttBut m none s') s
  | [], _, _, _, h => tri_pure h
  | row :: rows, ls, s, hls, h => by
    unfold genRows
    refine tri_ite (fun _ => att_genRows hsub hls h) fun _ => ?_
    refine tri_wf fun w => tri_bind tri_rowTerm fun t s1 st1 ⟨_, f⟩ => tri_obj ?_
    have hls1 := st1.isSec hls
    have h1 := f.aready w h
    refine tri_ite (fun _ => ?_) fun _ => tri_ite (fun _ => ?_) fun _ => ?_
    · refine tri_lift fun target _ => tri_ite (fun _ => tri_raise) fun _ => ?_
      refine tri_bind (att_consume h1) fun _ s2 st2 h2 => tri_obj ?_
      refine tri_bind (hsub _ _ s2 h2) fun _ s3 st3 h3 => ?_
      have hls3 := st3.isSec (st2.isSec hls1)
      refine tri_bind (att_consume ⟨⟨hls3.1, .inl hls3.2⟩, h3.weak⟩) fun _ s4 st4 h4 => ?_
      exact att_genRows hsub (st4.isSec hls3) h4
    · refine tri_wf fun w1 => tri_lift fun x hx => ?_
      unfold resolveSection at hx
      split at hx
      · next n hc hv =>
        have h1' : AttBut m none s1 := h1.2.full (.inl (.inl hc))
        have hxs : x < s1.next ∧ (s1.heap x).cls.isSection = true := by
          cases hx
          cases hg : s1.sections.get? (lower n) with
          | none => exact ⟨f.lt, hc⟩
          | some y =>
            have := w1.secsLt _ (Dict.mem_of_get? hg)
            exact ⟨this.1, this.2.1⟩
        refine tri_bind (att_yieldWithArgs ⟨⟨hxs.1, .inl hxs.2⟩, h1'.weak⟩) fun _ s2 st2 h2 => ?_
        exact att_genRows hsub (st2.isSec hxs) h2
      · cases hx
    · refine tri_bind (att_yieldWithArgs h1) fun _ s2 st2 h2 => ?_
      exact att_genRows hsub (st2.isSec hls1) h2

theorem att_gen {files : Files} {load : Bool} : ∀ {f : Nat} {isDecl : Bool} {dir ref : Str} {rows : List (List Str)} {s : St}, AttBut m none s →
    Tri (Cap.all F) (gen files load f isDecl dir ref rows) (fun _ s' => AttBut m none s') s
  | 0, _, _, _, _, _, _ => tri_raise
  | f + 1, isDecl, dir, ref, rows, s, h => by
    unfold gen
    refine tri_wf fun w => tri_get (tri_bind (att_genRows (fun target d s' h' => ?_) ⟨w.rootLt, w.rootSec⟩ h) fun _ _ _ h => tri_pure h)
    split
    · exact tri_raise
    · exact att_gen h'

theorem att_parseRows {files : Files} {fuel : Nat} {path : Str} {rows : List (List Str)} (h : AttBut m none s) :
    Tri (Cap.all F) (parseRows files fuel path rows) (fun _ s' => AttBut m none s') s := by
  unfold parseRows
  refine tri_wf fun w => tri_modify (.parser (initP s.root) trivial ⟨w.rootLt, w.rootSec⟩ ?_ initP_low) ?_
  · intro kv h
    simp only [initP, List.mem_cons, List.not_mem_nil, or_false] at h
    rcases h with rfl | rfl <;> exact w.rootLt
  · refine tri_bind (att_gen (s := { s with p := _ }) h) fun _ s1 _ h1 => ?_
    exact tri_modify' (.tables _ _ _ _ _ trivial) h1

end Metatab
