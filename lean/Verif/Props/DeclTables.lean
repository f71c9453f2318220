import Verif.Lemmas.Undecl
import Verif.Props.Declared
import Verif.Props.IncludeErrors
/-! # C70: declarations accumulate, and only declare files add to them -/
namespace Metatab
open Py _root_.Spec

/-! ## The document's tables while the parser runs -/

instance : TabRel DocTab where
  refl _ := .rfl'
  trans := DocTab.trans
  same h := h.doc

theorem doc_updP (f : PSt → PSt) : Pres DocTab (updP f) := fun _ => ⟨rfl, rfl, rfl, rfl, rfl⟩

theorem doc_addTermToSection (loop : Bool) (td : DTerm) : Pres DocTab (addTermToSection loop td) := by
  unfold addTermToSection; pres [doc_updP _]
theorem doc_inheritLoop (sec tR ihR : Str) (f i : Nat) : Pres DocTab (inheritLoop sec tR ihR f i) := by
  induction f generalizing i with
  | zero => exact Pres.raise _
  | succ f ih => unfold inheritLoop; pres [doc_updP _, doc_addTermToSection _ _, ih _]
theorem doc_addInherited (td : DTerm) : Pres DocTab (addInherited td) := by
  unfold addInherited; pres [doc_inheritLoop _ _ _ _ _]
theorem doc_manageDeclare (t : Nat) : Pres DocTab (manageDeclare t) := by
  unfold manageDeclare addDeclaredSection addDeclaredTerm addValueSetValue
  pres [doc_updP _, doc_addTermToSection _ _, doc_addInherited _]

/-- The names of the declared sections stay distinct. -/
def KeepSecs (s s' : St) : Prop := s.p.declSecs.keys.Nodup → s'.p.declSecs.keys.Nodup

instance : TabRel KeepSecs where
  refl _ := id
  trans h1 h2 := h2 ∘ h1
  same h := fun hn => by rw [h.secs]; exact hn

theorem secs_set (k : PSt → Str) (v : PSt → DSec) : Pres KeepSecs (updP fun p => { p with declSecs := p.declSecs.set (k p) (v p) }) :=
  fun _ h => Dict.nodup_set h _ _
theorem secs_updP (f : PSt → PSt) (h : ∀ p, (f p).declSecs = p.declSecs) : Pres KeepSecs (updP f) := fun s hn => by
  show (f s.p).declSecs.keys.Nodup; rw [h]; exact hn
theorem secs_addTermToSection (loop : Bool) (td : DTerm) : Pres KeepSecs (addTermToSection loop td) := by
  unfold addTermToSection; pres [secs_set (fun _ => _) (fun _ => _)]
theorem secs_inheritLoop (sec tR ihR : Str) (f i : Nat) : Pres KeepSecs (inheritLoop sec tR ihR f i) := by
  induction f generalizing i with
  | zero => exact Pres.raise _
  | succ f ih => unfold inheritLoop; pres [secs_updP _ fun _ => rfl, secs_addTermToSection _ _, ih _]
theorem secs_addInherited (td : DTerm) : Pres KeepSecs (addInherited td) := by
  unfold addInherited; pres [secs_inheritLoop _ _ _ _ _]
theorem secs_manageDeclare (t : Nat) : Pres KeepSecs (manageDeclare t) := by
  unfold manageDeclare addDeclaredSection addDeclaredTerm addValueSetValue
  pres [secs_set (fun _ => _) (fun _ => _), secs_updP _ fun _ => rfl, secs_addTermToSection _ _, secs_addInherited _]

theorem get?_reverse {α : Type} {d : Dict α} (h : d.keys.Nodup) (k : Str) : Dict.get? d.reverse k = d.get? k := by
  have e := Dict.get?_update ([] : Dict α) d k
  have : ∀ (d c : Dict α), (d.keys).Nodup → Dict.get? (Dict.update c d) k = (d.get? k).or (c.get? k) := by
    intro d
    induction d with
    | nil => intro c _; rfl
    | cons kv d ih =>
      intro c hn
      obtain ⟨a, v⟩ := kv
      have hn' : a ∉ Dict.keys d ∧ (Dict.keys d).Nodup := by simpa [Dict.keys] using hn
      rw [Dict.update_cons, ih _ hn'.2, Dict.get?_cons, Dict.get?_set]
      by_cases hak : a = k
      · subst hak
        have : Dict.get? d a = none := by
          cases hg : Dict.get? d a with
          | none => rfl
          | some w => exact absurd (List.mem_map_of_mem (f := Prod.fst) (Dict.mem_of_get? hg)) hn'.1
        simp [this]
      · simp [hak]
  rw [this d [] h] at e
  cases h1 : d.get? k <;> cases h2 : Dict.get? d.reverse k <;> rw [h1, h2] at e <;> simp [Dict.get?] at e ⊢ <;> exact e.symm

/-! ## Nothing is forgotten -/

/-- The tables a table update leaves: what the file declares, and for the other names what was there. -/
def _root_.Spec.Added {α : Type} (old new all : Dict α) : Prop := ∀ k, all.get? k = (new.get? k).or (old.get? k)

/-- **C70**, accumulation: after reading rows the document's declarations are those the parser found and, for all other names, those it
had before. If reading fails, the document's tables of declarations and of super-terms are as before. -/
theorem C70_parse {files : Files} {fuel : Nat} {path : Str} {rows : List (List Str)} {s : St} :
    match parseRows files fuel path rows s with
    | .ok _ s' => Added s.declTerms s'.p.declTerms s'.declTerms ∧ Added s.declSecs s'.p.declSecs s'.declSecs
    | .err _ s' => DocTab s s' := by
  obtain ⟨s1, hs1⟩ : ∃ s1 : St, s1 = { s with p := initP s.root } := ⟨_, rfl⟩
  have hd : DocTab s (gen files true fuel false (dirname path) path rows s1).st := by
    have := tabR_gen doc_manageDeclare files true fuel false (dirname path) path rows s1
    exact DocTab.trans (by rw [hs1]; exact ⟨rfl, rfl, rfl, rfl, rfl⟩) this
  have hn := normKeys_gen files true fuel false (dirname path) path rows (s := s1) (by rw [hs1]; exact normKeys_init)
  have hk := tabR_gen secs_manageDeclare files true fuel false (dirname path) path rows s1 (by rw [hs1]; exact (by decide : (Dict.keys initDeclSecs).Nodup))
  have hrun : parseRows files fuel path rows s = (gen files true fuel false (dirname path) path rows >>= fun _ => finishLoad) s1 := by
    unfold parseRows; rw [bind_run, modify_run, ← hs1]
  rw [hrun, bind_run]
  cases hg : gen files true fuel false (dirname path) path rows s1 with
  | err e s2 => rw [hg] at hd; exact hd
  | ok u s2 =>
    rw [hg] at hd hn hk
    have hd : DocTab s s2 := hd
    have hn : NormKeys s2.p.declTerms := hn
    have hk : s2.p.declSecs.keys.Nodup := hk
    refine ⟨fun k => ?_, fun k => ?_⟩
    · show Dict.get? (s2.declTerms.update s2.p.declTerms) k = (s2.p.declTerms.get? k).or (s.declTerms.get? k)
      rw [Dict.get?_update, get?_reverse hn.nodup, hd.terms]
    · show Dict.get? (s2.declSecs.update s2.p.declSecs) k = (s2.p.declSecs.get? k).or (s.declSecs.get? k)
      rw [Dict.get?_update, get?_reverse hk, hd.secs]

/-- **C70**, accumulation, for `load_declarations`. -/
theorem C70_load {files : Files} {fuel : Nat} {decls : List Str} {s : St} (hne : decls ≠ []) :
    match loadDeclarations files fuel decls s with
    | .ok _ s' => Added s.declTerms s'.p.declTerms s'.declTerms ∧ Added s.declSecs s'.p.declSecs s'.declSecs ∧
        s'.superTerms = s.superTerms ∧ s'.derived = s.derived
    | .err _ s' => DocTab s s' := by
  obtain ⟨s1, hs1⟩ : ∃ s1 : St, s1 = { s with p := initP s.root } := ⟨_, rfl⟩
  unfold loadDeclarations
  rw [if_neg hne]
  simp only [bind_run, get_run, lift_run]
  cases hf : find s (py!"Root.Declare") with
  | error e => exact .rfl'
  | ok ts =>
    simp only [modify_run]
    rw [← hs1]
    obtain ⟨rows, hrows⟩ : ∃ rows, rows = (decls.filter fun d => ¬ ts.any fun t => (s.heap t).value == .str d).map fun d => [py!"Declare", d] :=
      ⟨_, rfl⟩
    rw [← hrows]
    have hd : DocTab s (gen files false fuel false [] [] rows s1).st := by
      have := tabR_gen doc_manageDeclare files false fuel false [] [] rows s1
      exact DocTab.trans (by rw [hs1]; exact ⟨rfl, rfl, rfl, rfl, rfl⟩) this
    have hn := normKeys_gen files false fuel false [] [] rows (s := s1) (by rw [hs1]; exact normKeys_init)
    have hk := tabR_gen secs_manageDeclare files false fuel false [] [] rows s1 (by rw [hs1]; exact (by decide : (Dict.keys initDeclSecs).Nodup))
    cases hg : gen files false fuel false [] [] rows s1 with
    | err e s2 => rw [hg] at hd; exact hd
    | ok u s2 =>
      rw [hg] at hd hn hk
      have hd : DocTab s s2 := hd
      have hn : NormKeys s2.p.declTerms := hn
      have hk : s2.p.declSecs.keys.Nodup := hk
      refine ⟨fun k => ?_, fun k => ?_, hd.sup, hd.der⟩
      · show Dict.get? (s2.declTerms.update s2.p.declTerms) k = (s2.p.declTerms.get? k).or (s.declTerms.get? k)
        rw [Dict.get?_update, get?_reverse hn.nodup, hd.terms]
      · show Dict.get? (s2.declSecs.update s2.p.declSecs) k = (s2.p.declSecs.get? k).or (s.declSecs.get? k)
        rw [Dict.get?_update, get?_reverse hk, hd.secs]

/-! ## Files without `Declare` rows -/

/-- While no object is marked as a declaration, none gets the mark and the parser's tables stay. -/
def Plainly (s s' : St) : Prop := (∀ i, (s.heap i).isDecl = false) →
  (∀ i, (s'.heap i).isDecl = false) ∧ s'.p.declTerms = s.p.declTerms ∧ s'.p.declSecs = s.p.declSecs

instance : Pre Plainly where
  refl _ := fun h => ⟨h, rfl, rfl⟩
  trans h1 h2 := fun h => ⟨(h2 (h1 h).1).1, (h2 (h1 h).1).2.1.trans (h1 h).2.1, (h2 (h1 h).1).2.2.trans (h1 h).2.2⟩

theorem plainly {α : Type} {m : M α} (h1 : Pres SameTab m) (h2 : Pres Undecl m) : Pres Plainly m := fun s h =>
  ⟨fun i => by
    cases hb : ((m s).st.heap i).isDecl with
    | false => rfl
    | true => have := h2 s i hb; rw [h i] at this; exact absurd this (by decide), (h1 s).terms, (h1 s).secs⟩

theorem plainly_obj {β : Type} {k : Obj → M β} (t : Nat) (h : ∀ o, o.isDecl = false → Pres Plainly (k o)) : Pres Plainly (obj t >>= k) :=
  fun s hs => h _ (hs t) s hs

theorem plainly_iterBody (t : Nat) : Pres Plainly (iterBody t) := by
  unfold iterBody
  refine Pres.bind Pres.get fun s => Pres.bind (Pres.lift _) fun pr => Pres.bind (plainly (tab_upd _ _) (und_upd _ fun _ => rfl)) fun _ =>
    Pres.bind (plainly (tab_setSection _ _) (und_setSection _ _)) fun _ => plainly_obj t fun o ho => ?_
  rw [ho]
  pres [plainly (tab_setSection _ _) (und_setSection _ _), plainly (tab_upd _ _) (und_upd _ fun _ => rfl),
    plainly (tab_applyDecl _) (und_applyDecl _), plainly (tab_placeTerm _) (und_placeTerm _),
    plainly (tab_sectionAddTerm _ _) (und_sectionAddTerm _ _), plainly (tab_updP fun _ => ⟨rfl, rfl⟩) (und_updP _)]

theorem plainly_consume (load : Bool) (t : Nat) : Pres Plainly (consume load t) := by
  unfold consume; pres [plainly_iterBody _, plainly (tab_loadBody _) (und_loadBody _)]
theorem plainly_argLoop (load : Bool) (t col : Nat) (vs : List Str) : Pres Plainly (argLoop load false t col vs) := by
  induction vs generalizing col with
  | nil => exact Pres.pure _
  | cons v vs ih => unfold argLoop; pres [plainly (tab_argTerm _ _ _ _) (und_argTerm _ _ _), plainly_consume _ _, ih _]
theorem plainly_yield (load : Bool) (t : Nat) : Pres Plainly (yieldWithArgs load false t) := by
  unfold yieldWithArgs; pres [plainly_consume _ _, plainly_argLoop _ _ _ _]

/-- The states of a parser that has met no declaration. -/
structure Undeclared (s : St) : Prop where
  wf : WF False s
  objs : ∀ i, (s.heap i).isDecl = false
  terms : s.p.declTerms = initDeclTerms
  secs : s.p.declSecs = initDeclSecs

/-- Running `m` from `s` keeps the parser without declarations. -/
def Kept {α : Type} (m : M α) (Q : α → St → Prop) (s : St) : Prop :=
  Undeclared s → wp m (fun a s' => Steps (Cap.all False) s s' ∧ Undeclared s' ∧ Q a s') (fun _ s' => Undeclared s') s

section
variable {α β : Type} {s : St}

theorem kept_of {m : M α} {Q : α → St → Prop} (h : Tri (Cap.all False) m Q s) (hp : Pres Plainly m) : Kept m Q s := by
  intro u
  have h1 := h u.wf
  have h2 := hp s u.objs
  unfold wp at h1 ⊢
  cases hm : m s with
  | ok a s' =>
    rw [hm] at h1 h2
    exact ⟨h1.1, ⟨h1.1.wf u.wf, h2.1, h2.2.1.trans u.terms, h2.2.2.trans u.secs⟩, h1.2⟩
  | err e s' =>
    rw [hm] at h1 h2
    exact ⟨Steps.wf h1 u.wf, h2.1, h2.2.1.trans u.terms, h2.2.2.trans u.secs⟩

theorem kept_bind {m : M α} {f : α → M β} {Q : α → St → Prop} {R : β → St → Prop} (hm : Kept m Q s)
    (hf : ∀ a s', m s = .ok a s' → Steps (Cap.all False) s s' → Undeclared s' → Q a s' → Kept (f a) R s') : Kept (m >>= f) R s := by
  intro u
  have h1 := hm u
  unfold wp at h1 ⊢
  rw [bind_run]
  cases hr : m s with
  | err e s' => rw [hr] at h1; exact h1
  | ok a s' =>
    rw [hr] at h1
    have h2 := hf a s' hr h1.1 h1.2.1 h1.2.2 h1.2.1
    unfold wp at h2
    dsimp only
    cases hr2 : f a s' with
    | ok b s2 => rw [hr2] at h2; exact ⟨h1.1.trans h2.1, h2.2⟩
    | err e s2 => rw [hr2] at h2; exact h2

theorem kept_ite {c : Prop} [Decidable c] {m n : M α} {Q : α → St → Prop} (hm : c → Kept m Q s) (hn : ¬ c → Kept n Q s) :
    Kept (if c then m else n) Q s := by
  split
  · exact hm ‹_›
  · exact hn ‹_›
theorem kept_obj {i : Nat} {f : Obj → M β} {Q : β → St → Prop} (h : Kept (f (s.heap i)) Q s) : Kept (obj i >>= f) Q s := h
theorem kept_lift {g : St → Except Err α} {f : α → M β} {Q : β → St → Prop} (h : ∀ a, g s = .ok a → Kept (f a) Q s) :
    Kept (M.lift g >>= f) Q s := by
  intro u
  unfold wp
  rw [bind_run, lift_run]
  cases hg : g s with
  | ok a => exact h a hg u
  | error e => exact u
theorem kept_raise {e : Err} {Q : α → St → Prop} : Kept (M.raise e) Q s := fun u => u
theorem kept_with {m : M α} {Q : α → St → Prop} (h : Undeclared s → Kept m Q s) : Kept m Q s := fun u => h u u
end

theorem plainly_rowTerm (row : List Str) : Pres Plainly (rowTerm false row) := plainly (tab_rowTerm _ _) (und_rowTerm _)

theorem dotJoin_parts {p r a b : Str} (h : dotJoin p r = dotJoin a b) (hp : '.' ∉ p) (ha : '.' ∉ a) : p = a ∧ r = b := by
  unfold dotJoin at h
  induction p generalizing a with
  | nil =>
    cases a with
    | nil => simpa using h
    | cons x a => simp at h; simp [← h.1] at ha
  | cons y p ih =>
    cases a with
    | nil => simp at h; simp [h.1] at hp
    | cons x a =>
      simp only [List.cons_append, List.cons.injEq] at h
      obtain ⟨e1, e2⟩ := ih h.2 (by simp at hp; exact hp.2) (by simp at ha; exact ha.2)
      exact ⟨by rw [h.1, e1], e2⟩

/-- No row of the list declares: its first cell is not a name of `Root.Declare`. -/
def _root_.Spec.NoDeclares (rows : List (List Str)) : Prop := ∀ row ∈ rows, normalizeTerm (row.headD []) ≠ .ok (py!"root.declare")

theorem kept_genRows {files : Files} {sub : Str → Bool → M Unit} {load : Bool} {dir ref : Str}
    (hsub : ∀ t s', Kept (sub t false) (fun _ _ => True) s') : ∀ {rows : List (List Str)} {ls : Nat} {s : St}, NoDeclares rows →
    (ls < s.next ∧ (s.heap ls).cls.isSection = true) → Kept (genRows files sub load false dir ref ls rows)
      (fun x s' => x < s'.next ∧ (s'.heap x).cls.isSection = true) s
  | [], _, _, _, hls => kept_of (tri_pure hls) (Pres.pure _)
  | row :: rows, ls, s, hnd, hls => by
    have hnd' : NoDeclares rows := fun r hr => hnd r (List.mem_cons_of_mem _ hr)
    unfold genRows
    refine kept_ite (fun _ => kept_genRows hsub hnd' hls) fun hskip => ?_
    refine kept_with fun u0 => kept_bind (kept_of tri_rowTerm (plainly_rowTerm _)) fun t s1 hrow st1 u1 ⟨_, f⟩ => kept_obj ?_
    have w := u0.wf
    have hls1 := st1.isSec hls
    refine kept_ite (fun hj => ?_) fun _ => kept_ite (fun _ => ?_) fun _ => ?_
    · refine kept_lift fun target _ => kept_ite (fun _ => kept_raise) fun _ => ?_
      refine kept_bind (kept_of (tri_consume (f.ready w)) (plainly_consume _ _)) fun _ s2 hcons st2 u2 _ => kept_obj ?_
      have hflag : decide (lower (s2.heap t).rt = py!"declare") = false := by
        obtain ⟨p, r, hsp, hp, hr, -⟩ := rowTerm_ok hrow
        obtain ⟨q1, q2, q3, q4, q5, q6, q7⟩ := splitTermLower_cases hsp
        unfold Obj.joinLc at hj
        rw [hp, hr, q6, q7] at hj
        have hne : dotJoin p r ≠ py!"root.declare" := by
          intro e
          refine hnd row (List.mem_cons_self ..) ?_
          unfold normalizeTerm; rw [hsp]; exact congrArg _ e
        have hinc : dotJoin p r = dotJoin (py!"root") (py!"include") := hj.resolve_right hne
        obtain ⟨rfl, rfl⟩ := dotJoin_parts hinc q4 (by decide)
        cases row with
        | nil => exact absurd rfl hskip
        | cons c rest =>
          obtain ⟨m1, m2, m3, m4, m5, m6⟩ := rowTerm_made w hrow hsp (by unfold ValueName; decide)
          have hsub : substSynonym s1.p.declTerms (s1.heap t).pt (s1.heap t).rt = .ok (py!"root", py!"include") := by
            rw [u1.terms, m5, m6]; decide +kernel
          have hrm : remapRecord s1.p.paramMap (py!"include") = py!"include" := by unfold remapRecord; rfl
          obtain ⟨-, -, -, a4⟩ := consume_dress m1 hsub (by rw [hrm]; unfold ValueName; decide) (by decide) hcons rfl rfl
          rw [a4, hrm]; decide
      rw [hflag]
      refine kept_bind (hsub _ s2) fun _ s3 _ st3 u3 _ => ?_
      have hls3 := st3.isSec (st2.isSec hls1)
      refine kept_bind (kept_of (tri_consume ⟨hls3.1, .inl hls3.2⟩) (plainly_consume _ _)) fun _ s4 _ st4 u4 _ => ?_
      exact kept_genRows hsub hnd' (st4.isSec hls3)
    · refine kept_lift fun x hx => ?_
      have w1 := u1.wf
      have hxs : x < s1.next ∧ (s1.heap x).cls.isSection = true := by
        unfold resolveSection at hx
        split at hx
        · next n hc hv =>
          cases hx
          cases hg : s1.sections.get? (lower n) with
          | none => exact ⟨f.lt, hc⟩
          | some y =>
            have := w1.secsLt _ (Dict.mem_of_get? hg)
            exact ⟨this.1, this.2.1⟩
        · cases hx
      refine kept_bind (kept_of (tri_yieldWithArgs ⟨hxs.1, .inl hxs.2⟩) (plainly_yield _ _)) fun _ s2 _ st2 _ _ => ?_
      exact kept_genRows hsub hnd' (st2.isSec hxs)
    · refine kept_bind (kept_of (tri_yieldWithArgs (f.ready w)) (plainly_yield _ _)) fun _ s2 _ st2 _ _ => ?_
      exact kept_genRows hsub hnd' (st2.isSec hls1)

theorem kept_gen {files : Files} {load : Bool} (hf : ∀ ref rows, files.rows ref = some rows → NoDeclares rows) :
    ∀ {f : Nat} {dir ref : Str} {rows : List (List Str)} {s : St}, NoDeclares rows →
      Kept (gen files load f false dir ref rows) (fun _ _ => True) s
  | 0, _, _, _, _, _ => kept_raise
  | f + 1, dir, ref, rows, s, hnd => by
    unfold gen
    refine kept_with fun u => ?_
    refine kept_bind (Q := fun a s' => a = s' ∧ s' = s) (kept_of (fun _ => ⟨.refl, rfl, rfl⟩) Pres.get) fun a s' _ _ _ ⟨e1, e2⟩ => ?_
    subst e1; subst e2
    refine kept_bind (kept_genRows (fun target s' => ?_) hnd ⟨u.wf.rootLt, u.wf.rootSec⟩) fun _ _ _ _ _ _ => kept_of (tri_pure trivial) (Pres.pure _)
    split
    · exact kept_raise
    · next rows' hr => exact kept_gen hf (hf _ _ hr)

theorem super_init {s : St} (h : s.p.declTerms = initDeclTerms) (h0 : s.superTerms = []) : parserSuperTerms s = [] := by
  unfold parserSuperTerms
  rw [h, if_neg (by rw [h0]; exact fun h => h rfl)]
  decide

/-- **C70**, only declare files declare: reading rows none of which is a `Declare` row, including any number of files without `Declare`
rows, adds nothing to the document's declarations but the names every parser knows, whatever the rows are called: also a
`DeclareTerm` row declares nothing there. -/
theorem C70_plain {files : Files} {fuel : Nat} {path : Str} {rows : List (List Str)} {s s' : St} (w : WF False s)
    (ho : ∀ i, (s.heap i).isDecl = false) (hrows : NoDeclares rows) (hf : ∀ ref rows, files.rows ref = some rows → NoDeclares rows)
    (h : parseRows files fuel path rows s = .ok () s') :
    Added s.declTerms initDeclTerms s'.declTerms ∧ Added s.declSecs initDeclSecs s'.declSecs ∧
      (s.superTerms = [] → s'.superTerms = []) ∧ ∀ i, (s'.heap i).isDecl = false := by
  have acc := C70_parse (files := files) (fuel := fuel) (path := path) (rows := rows) (s := s)
  rw [h] at acc
  obtain ⟨a1, a2⟩ := acc
  have hrun : parseRows files fuel path rows s =
      (gen files true fuel false (dirname path) path rows >>= fun _ => finishLoad) { s with p := initP s.root } := by
    unfold parseRows; rw [bind_run, modify_run]
  rw [hrun, bind_run] at h
  have hd := tabR_gen doc_manageDeclare files true fuel false (dirname path) path rows { s with p := initP s.root }
  have hi : Undeclared { s with p := initP s.root } := by
    have st : Step (Cap.all False) s { s with p := initP s.root } := by
      refine .parser (initP s.root) trivial ⟨w.rootLt, w.rootSec⟩ ?_ initP_low
      intro kv h
      simp only [initP, List.mem_cons, List.not_mem_nil, or_false] at h
      rcases h with rfl | rfl <;> exact w.rootLt
    exact ⟨st.wf w, ho, rfl, rfl⟩
  have hk := kept_gen (files := files) (load := true) hf (f := fuel) (dir := dirname path) (ref := path) hrows hi
  unfold wp at hk
  cases hg : gen files true fuel false (dirname path) path rows { s with p := initP s.root } with
  | err e s2 => rw [hg] at h; cases h
  | ok u s2 =>
    rw [hg] at h hk hd
    have hd : DocTab { s with p := initP s.root } s2 := hd
    have h : finishLoad s2 = .ok () s' := h
    have u2 := hk.2.1
    unfold finishLoad at h
    rw [modify_run] at h
    cases h
    have e1 : s2.p.declTerms = initDeclTerms := u2.terms
    have e2 : s2.p.declSecs = initDeclSecs := u2.secs
    refine ⟨?_, ?_, fun h0 => ?_, u2.objs⟩
    · have a1 : Added s.declTerms s2.p.declTerms _ := a1
      show Added _ _ (s2.declTerms.update s2.p.declTerms); rw [e1] at a1 ⊢; exact a1
    · have a2 : Added s.declSecs s2.p.declSecs _ := a2
      show Added _ _ (s2.declSecs.update s2.p.declSecs); rw [e2] at a2 ⊢; exact a2
    · have h0' : s2.superTerms = [] := hd.sup.trans h0
      show s2.superTerms.update (parserSuperTerms s2) = []
      rw [super_init e1 h0', h0']; rfl

/-! Concrete cases -/

/-- The earlier declarations of a document stay when a second declare file is read, and the new ones come in. -/
example : let s' := after (loadDeclarations ⟨fun t => if t = py!"e.csv" then some [[py!"DeclareSection", py!"Notes"], [py!"DeclareTerm", py!"Note", []]] else none,
      fun _ n => some n⟩ 3 [py!"e.csv"]) exTab
    s'.declTerms.has (py!"table.column") = true ∧ s'.declTerms.has (py!"root.note") = true ∧
      s'.declSecs.has (py!"data") = true ∧ s'.declSecs.has (py!"notes") = true := by
  decide +kernel

/-- A file that is included declares nothing, even if it is written as a file of declarations. -/
def exIncl : Files := ⟨fun t => if t = py!"http://a/d.csv" then some exDeclRows else none, fun _ _ => none⟩

example : ∃ s', parseRows exIncl 3 (py!"m.csv") [[py!"Title", py!"T"], [py!"Include", py!"http://a/d.csv"]] exDoc = .ok () s' ∧
    Added [] initDeclTerms s'.declTerms ∧ Added [] initDeclSecs s'.declSecs ∧ s'.superTerms = [] :=
  ⟨_, ok_after (by decide +kernel), by
    have h := C70_plain (files := exIncl) (fuel := 3) (path := py!"m.csv") (s := exDoc)
      (rows := [[py!"Title", py!"T"], [py!"Include", py!"http://a/d.csv"]])
      ((Reach.new (allow := fun _ => True) exEnv _).wf (F := False) fun f => f.elim) (fun i => by
        show (if i = 0 then rootObj else Obj.blank).isDecl = false
        split <;> rfl)
      (by unfold NoDeclares; decide +kernel) (fun ref rows h => by
        unfold exIncl at h
        simp only at h
        split at h
        · cases h; unfold NoDeclares; decide +kernel
        · cases h) (ok_after (by decide +kernel))
    exact ⟨h.1, h.2.1, h.2.2.1 rfl⟩⟩

end Metatab
