import Verif.Lemmas.Inherit
import Verif.Lemmas.Tables
import Verif.Lemmas.Examples
/-! # C38: derived terms inherit the declared children of their super-term -/
namespace Metatab
open Py

/-- Every declared term is entered once, under its normal name. -/
structure NormKeys (d : Dict DTerm) : Prop where
  norm : ∀ k e, d.get? k = some e → normalizeTerm k = .ok k
  nodup : d.keys.Nodup

theorem normKeys_set {d : Dict DTerm} (h : NormKeys d) {x n : Str} (hn : normalizeTerm x = .ok n) (e : DTerm) : NormKeys (d.set n e) := by
  refine ⟨fun k e' hk => ?_, Dict.nodup_set h.nodup _ _⟩
  rw [Dict.get?_set] at hk
  split at hk
  · next hkn => subst hkn; exact C01_idempotent hn
  · exact h.norm k e' hk

theorem get?_map_val {α β : Type} (f : α → β) (d : Dict α) (k : Str) :
    Dict.get? (d.map fun kv => (kv.1, f kv.2)) k = (d.get? k).map f := by
  induction d with
  | nil => rfl
  | cons kv d ih =>
    obtain ⟨x, v⟩ := kv
    rw [List.map_cons, Dict.get?_cons, Dict.get?_cons]
    split
    · rfl
    · exact ih

/-- Keys stay normal. -/
def KeepNorm (s s' : St) : Prop := NormKeys s.p.declTerms → NormKeys s'.p.declTerms

instance : TabRel KeepNorm where
  refl _ := id
  trans h1 h2 := h2 ∘ h1
  same h := fun hn => by rw [h.1]; exact hn

theorem norm_addTermToSection (loop : Bool) (td : DTerm) : Pres KeepNorm (addTermToSection loop td) := by
  unfold addTermToSection
  have : ∀ f : PSt → PSt, (∀ p, (f p).declTerms = p.declTerms) → Pres KeepNorm (updP f) := fun f h s hn => by
    show NormKeys (f s.p).declTerms; rw [h]; exact hn
  pres [this _ fun _ => rfl]

theorem norm_inheritLoop (sec tR ihR : Str) (f i : Nat) : Pres KeepNorm (inheritLoop sec tR ihR f i) := by
  induction f generalizing i with
  | zero => exact Pres.raise _
  | succ f ih =>
    intro s
    rw [inheritLoop_succ]
    split
    · exact id
    · split
      · exact id
      · split
        · exact id
        · exact ih _ _
        · split
          · exact id
          · next hn => exact fun h => Pres.bind (norm_addTermToSection _ _) (fun _ => ih _) _ (normKeys_set h hn _)

theorem norm_addInherited (td : DTerm) : Pres KeepNorm (addInherited td) := by
  unfold addInherited; pres [norm_inheritLoop _ _ _ _ _]

theorem norm_addDeclaredTerm (t : Nat) : Pres KeepNorm (addDeclaredTerm t) := by
  unfold addDeclaredTerm
  refine Pres.bind (Pres.obj _) fun o => ?_
  split
  · exact Pres.raise _
  · rename_i v hv
    intro s
    rw [bind_run, lift_run]
    split
    · next n s1 hn =>
      have hn' : normalizeTerm v = .ok n ∧ s1 = s := by
        split at hn
        · next hh => cases hn; exact ⟨hh, rfl⟩
        · cases hn
      obtain ⟨hnv, rfl⟩ := hn'
      have hset : ∀ td, Pres KeepNorm (updP fun p => { p with declTerms := p.declTerms.set n td }) := fun td s h => normKeys_set h hnv td
      refine Pres.bind (Pres.lift _) (fun ap => Pres.bind (Pres.lift _) fun td => Pres.bind (hset td) fun _ => ?_) s1
      pres [norm_addTermToSection _ _, norm_addInherited _]
    · next hn =>
      split at hn
      · cases hn
      · cases hn; exact id
  · exact Pres.raise _

theorem norm_manageDeclare (t : Nat) : Pres KeepNorm (manageDeclare t) := by
  unfold manageDeclare addDeclaredSection addValueSetValue
  have h1 : ∀ f : PSt → PSt, (∀ p, (f p).declTerms = p.declTerms) → Pres KeepNorm (updP f) := fun f h s hn => by
    show NormKeys (f s.p).declTerms; rw [h]; exact hn
  have h2 : ∀ g : DTerm → DTerm, Pres KeepNorm (updP fun p => { p with declTerms := p.declTerms.map fun kv => (kv.1, g kv.2) }) := by
    intro g s hn
    refine ⟨fun k e hk => ?_, (by
      have e : Dict.keys (s.p.declTerms.map fun kv => (kv.1, g kv.2)) = s.p.declTerms.keys := by simp [Dict.keys]
      show (Dict.keys (s.p.declTerms.map fun kv => (kv.1, g kv.2))).Nodup
      rw [e]; exact hn.nodup)⟩
    have hk : Dict.get? (s.p.declTerms.map fun kv => (kv.1, g kv.2)) k = some e := hk
    rw [get?_map_val] at hk
    cases hd : s.p.declTerms.get? k with
    | none => rw [hd] at hk; cases hk
    | some e0 => exact hn.norm k e0 hd
  pres [norm_addDeclaredTerm _, h1 _ fun _ => rfl, h2 _]

theorem normKeys_update {d e : Dict DTerm} (hd : NormKeys d) (he : ∀ kv ∈ e, normalizeTerm kv.1 = .ok kv.1) : NormKeys (d.update e) := by
  induction e generalizing d with
  | nil => exact hd
  | cons kv e ih =>
    obtain ⟨k, v⟩ := kv
    rw [Dict.update_cons]
    exact ih (normKeys_set hd (he (k, v) (List.mem_cons_self ..)) v) fun kv h => he kv (List.mem_cons_of_mem _ h)

theorem normKeys_init : NormKeys initDeclTerms := by
  refine ⟨fun k e h => ?_, by decide⟩
  have := Dict.mem_of_get? h
  simp only [initDeclTerms, List.mem_cons, List.not_mem_nil, or_false, Prod.mk.injEq] at this
  rcases this with ⟨rfl, -⟩ | ⟨rfl, -⟩ | ⟨rfl, -⟩ | ⟨rfl, -⟩ | ⟨rfl, -⟩ | ⟨rfl, -⟩ <;> decide

/-- At every point of every run of the parser, whatever it reads, the declared terms are entered under their normal names. -/
theorem normKeys_gen (files : Files) (load : Bool) (fuel : Nat) (d : Bool) (dir ref : Str) (rows : List (List Str)) {s : St}
    (h : NormKeys s.p.declTerms) : NormKeys (gen files load fuel d dir ref rows s).st.p.declTerms :=
  tabR_gen norm_manageDeclare files load fuel d dir ref rows s h

theorem mapM_strs {ap : Dict Val} {kvs : List (Str × Str)}
    (h : ap.mapM strCell = .ok kvs) :
    ap = kvs.map fun kv => (kv.1, Val.str kv.2) := by
  induction ap generalizing kvs with
  | nil => cases h; rfl
  | cons kv ap ih =>
    obtain ⟨k, v⟩ := kv
    rw [List.mapM_cons] at h
    cases v with
    | str v =>
      dsimp only [strCell, bind, Except.bind] at h
      cases hm : ap.mapM strCell with
      | error e => rw [hm] at h; cases h
      | ok l => rw [hm] at h; cases h; rw [List.map_cons, ← ih hm]
    | _ => cases h

/-- The properties of a new declaration: the non-blank cells of its row. -/
theorem declaredEntry_get {ap : Dict Val} {v : Str} {td : DTerm} (h : declaredEntry ap v = .ok td) {k : Str} (hk : k ≠ py!"term")
    (hv : k ≠ py!"values") (x : Str) (hn : ap.keys.Nodup) : td.props.get? k = some x ↔ ap.get? k = some (.str x) ∧ strip x ≠ [] := by
  unfold declaredEntry at h
  cases hm : ap.mapM strCell with
  | error e => rw [hm] at h; cases h
  | ok kvs =>
    rw [hm] at h
    cases h
    have e := mapM_strs hm
    dsimp only
    rw [Dict.get?_set, if_neg (Ne.symm hk)]
    have hks : Dict.keys kvs = ap.keys := by rw [e]; simp [Dict.keys]
    constructor
    · intro h
      have := Dict.mem_of_get? h
      simp only [List.mem_filter, decide_eq_true_eq] at this
      refine ⟨Dict.get?_of_mem hn ?_, this.2.1⟩
      rw [e]; exact List.mem_map.2 ⟨(k, x), this.1, rfl⟩
    · rintro ⟨h1, h2⟩
      have hm' := Dict.mem_of_get? h1
      rw [e] at hm'
      obtain ⟨⟨a, b⟩, hab, heq⟩ := List.mem_map.1 hm'
      cases heq
      refine Dict.get?_of_mem ?_ (List.mem_filter.2 ⟨hab, by simp [h2, hv]⟩)
      rw [← hks] at hn
      exact hn.sublist (List.Sublist.map _ List.filter_sublist)

theorem declaredEntry_term {ap : Dict Val} {v : Str} {td : DTerm} (h : declaredEntry ap v = .ok td) :
    td.props.get? (py!"term") = some v ∧ td.values = some [] := by
  unfold declaredEntry at h
  cases hm : ap.mapM strCell with
  | error e => rw [hm] at h; cases h
  | ok kvs =>
    rw [hm] at h
    cases h
    exact ⟨by dsimp only; rw [Dict.get?_set, if_pos rfl], rfl⟩

theorem argProps_nodup {s : St} {t : Nat} {ap : Dict Val} (h : argProps s t = .ok ap) : ap.keys.Nodup := by
  unfold argProps at h
  dsimp only at h
  split at h
  · cases h
  · split at h
    · cases h
    · cases h
      exact Dict.nodup_set (Dict.nodup_update (d := []) List.nodup_nil _) _ _

/-- The parts of a successful declaration. -/
theorem addDeclaredTerm_ok {t : Nat} {s s' : St} {u : Unit} (h : addDeclaredTerm t s = .ok u s') :
    ∃ v n ap td, (s.heap t).value = .str v ∧ normalizeTerm v = .ok n ∧ argProps s t = .ok ap ∧ declaredEntry ap v = .ok td ∧
      ∃ s2, (match td.props.get? (py!"section") with | some _ => addTermToSection false td | none => pure ())
          { s with p := { s.p with declTerms := s.p.declTerms.set n td } } = .ok () s2 ∧ addInherited td s2 = .ok u s' := by
  unfold addDeclaredTerm at h
  rw [bind_run, obj_run] at h
  dsimp only at h
  cases hv : (s.heap t).value with
  | str v =>
    rw [hv] at h
    dsimp only at h
    rw [bind_run, lift_run] at h
    cases hn : normalizeTerm v with
    | error e => rw [hn] at h; cases h
    | ok n =>
      rw [hn] at h
      dsimp only at h
      rw [bind_run, lift_run] at h
      cases ha : argProps s t with
      | error e => rw [ha] at h; cases h
      | ok ap =>
        rw [ha] at h
        dsimp only at h
        rw [bind_run, lift_run] at h
        cases he : declaredEntry ap v with
        | error e => rw [he] at h; cases h
        | ok td =>
          rw [he] at h
          dsimp only at h
          rw [bind_run] at h
          unfold updP at h
          rw [modify_run] at h
          dsimp only at h
          refine ⟨v, n, ap, td, rfl, hn, rfl, he, ?_⟩
          cases hs : td.props.get? (py!"section") with
          | none => rw [hs] at h; exact ⟨_, rfl, h⟩
          | some x =>
            rw [hs] at h
            dsimp only at h
            rw [bind_run] at h
            split at h
            · next u' s2 hm => exact ⟨s2, hm, h⟩
            · cases h
  | _ => rw [hv] at h; cases h

/-- The parts of a successful inheritance. -/
theorem addInherited_eq {td : DTerm} {tn ih sec tp tR ip ihR : Str} {s : St} {d : DSec} (h1 : td.props.get? (py!"term") = some tn)
    (h2 : td.props.get? (py!"inheritsfrom") = some ih) (h3 : ih ≠ []) (h4 : td.props.get? (py!"section") = some sec)
    (h5 : splitTerm tn = .ok (tp, tR)) (h6 : splitTerm ih = .ok (ip, ihR)) (h7 : s.p.declSecs.get? (lower sec) = some d) :
    addInherited td s = inheritLoop (lower sec) tR ihR (2 * d.terms.length + 1) 0 s := by
  unfold addInherited
  rw [h1, h2]
  dsimp only
  rw [if_neg h3, h4]
  dsimp only
  rw [bind_run, lift_run, h5]
  dsimp only
  rw [bind_run, lift_run, h6]
  dsimp only
  rw [bind_run, get_run]
  dsimp only
  rw [h7]

theorem inhInv_start {sec tR ihR : Str} {s : St} {d : DSec} (hd : s.p.declSecs.get? sec = some d) :
    InhInv sec tR ihR d.terms s.p.declTerms s.p.declSecs 0 s where
  list := ⟨d, hd, Nat.zero_le _, [], by simp, List.nodup_nil, by simp⟩
  frame _ _ := rfl
  secs k := ⟨id, fun d0 h => ⟨[], by simpa using h, by simp⟩⟩

/-- **C38**, the operation ends: declaring a term never runs out of the bound that stands for its loop, although the loop extends the
list it runs over. -/
theorem C38_terminates (td : DTerm) (s : St) : ∀ s', addInherited td s ≠ .err .recursionError s' := by
  intro s' h
  cases h1 : td.props.get? (py!"inheritsfrom") with
  | none => unfold addInherited at h; rw [h1] at h; cases h
  | some ih =>
  cases h2 : td.props.get? (py!"term") with
  | none => unfold addInherited at h; rw [h1, h2] at h; cases h
  | some tn =>
  by_cases h3 : ih = []
  · unfold addInherited at h; rw [h1, h2] at h; dsimp only at h; rw [if_pos h3] at h; cases h
  cases h4 : td.props.get? (py!"section") with
  | none => unfold addInherited at h; rw [h1, h2] at h; dsimp only at h; rw [if_neg h3, h4] at h; cases h
  | some sec =>
  cases h5 : splitTerm tn with
  | error e =>
    unfold addInherited at h; rw [h1, h2] at h; dsimp only at h; rw [if_neg h3, h4] at h
    dsimp only at h; rw [bind_run, lift_run, h5] at h
    have := splitTerm_err h5
    subst this; cases h
  | ok x =>
  cases h6 : splitTerm ih with
  | error e =>
    unfold addInherited at h; rw [h1, h2] at h; dsimp only at h; rw [if_neg h3, h4] at h
    dsimp only at h; rw [bind_run, lift_run, h5] at h
    dsimp only at h; rw [bind_run, lift_run, h6] at h
    have := splitTerm_err h6
    subst this; cases h
  | ok y =>
  obtain ⟨tp, tR⟩ := x
  obtain ⟨ip, ihR⟩ := y
  cases h7 : s.p.declSecs.get? (lower sec) with
  | none =>
    unfold addInherited at h; rw [h1, h2] at h; dsimp only at h; rw [if_neg h3, h4] at h
    dsimp only at h; rw [bind_run, lift_run, h5] at h
    dsimp only at h; rw [bind_run, lift_run, h6] at h
    dsimp only at h; rw [bind_run, get_run] at h
    dsimp only at h; rw [h7] at h; cases h
  | some d =>
    rw [addInherited_eq h2 h1 h3 h4 h5 h6 h7] at h
    obtain ⟨p1, p2, -⟩ := splitTerm_parts h5
    have := inheritLoop_spec p1 p2 (2 * d.terms.length + 1) 0 s rfl (inhInv_start (ihR := ihR) h7)
    rw [h] at this
    exact this rfl

/-- **C38**, the children: declaring a term with `InheritsFrom` and `Section` declares, for every child `a.b` of the super-term that is
listed in the section, the child of the same name of the new term, with the properties and the value set of that child, and lists it
in the section of that child. -/
theorem C38_children {t : Nat} {s s' : St} {u : Unit} (h : addDeclaredTerm t s = .ok u s') (hk : NormKeys s.p.declTerms)
    {v ih sec tp tR ip ihR : Str} {ap : Dict Val} (hv : (s.heap t).value = .str v) (ha : argProps s t = .ok ap)
    (hih : ap.get? (py!"inheritsfrom") = some (.str ih)) (hih0 : strip ih ≠ [])
    (hsec : ap.get? (py!"section") = some (.str sec)) (hsec0 : strip sec ≠ [])
    (hv2 : splitTerm v = .ok (tp, tR)) (hi2 : splitTerm ih = .ok (ip, ihR)) (hne : lower tR ≠ lower ihR) (hR : tR ≠ [])
    {d : DSec} (hd : s.p.declSecs.get? (lower sec) = some d) {a b : Str} (hab : (a ++ '.' :: b) ∈ d.terms) (had : '.' ∉ a)
    (hbd : '.' ∉ b) (hai : lower a = lower ihR) :
    ∃ e0 e sec' d', s'.p.declTerms.get? (lower a ++ '.' :: lower b) = some e0 ∧
      s'.p.declTerms.get? (lower tR ++ '.' :: lower (strip b)) = some e ∧ Copied e0 e ∧
      e0.props.get? (py!"section") = some sec' ∧ s'.p.declSecs.get? (lower sec') = some d' ∧ (tR ++ '.' :: strip b) ∈ d'.terms := by
  obtain ⟨v', n, ap', td, hv', hn, ha', he, s2, hs2, hfin⟩ := addDeclaredTerm_ok h
  rw [hv] at hv'; cases hv'
  rw [ha] at ha'; cases ha'
  have hnd := argProps_nodup ha
  have t1 := (declaredEntry_term he).1
  have t2 := (declaredEntry_get he (k := py!"inheritsfrom") (by decide) (by decide) ih hnd).2 ⟨hih, hih0⟩
  have t3 := (declaredEntry_get he (k := py!"section") (by decide) (by decide) sec hnd).2 ⟨hsec, hsec0⟩
  rw [t3] at hs2
  obtain ⟨sec1, tn1, d1, q1, q2, q3, q4⟩ := addTermToSection_ok hs2
  rw [t3] at q1; cases q1
  rw [t1] at q2; cases q2
  dsimp only at q3
  rw [hd] at q3; cases q3
  obtain ⟨d2, hd2, hsub⟩ : ∃ d2, s2.p.declSecs.get? (lower sec) = some d2 ∧ ∀ y ∈ d.terms, y ∈ d2.terms := by
    rw [q4]; dsimp only
    split
    · exact ⟨d, hd, fun _ => id⟩
    · exact ⟨_, by rw [Dict.get?_set, if_pos rfl], fun y hy => by simp [hy]⟩
  have hD2 : s2.p.declTerms = s.p.declTerms.set n td := by rw [q4]
  have hih1 : ih ≠ [] := by rintro rfl; exact hih0 rfl
  rw [addInherited_eq t1 t2 hih1 t3 hv2 hi2 hd2] at hfin
  obtain ⟨p1, p2, -⟩ := splitTerm_parts hv2
  obtain ⟨i1, i2, -⟩ := splitTerm_parts hi2
  have hsp := inheritLoop_spec p1 p2 (2 * d2.terms.length + 1) 0 s2 rfl (inhInv_start (ihR := ihR) hd2)
  rw [hfin] at hsp
  obtain ⟨-, ⟨j, hinv⟩, hdone⟩ := hsp
  have hk2 : NormKeys s2.p.declTerms := by rw [hD2]; exact normKeys_set hk hn td
  have hdone := hdone hne i1 hR hk2.norm (by intro x hx; simp at hx)
  have hc : isChildOf ihR (a ++ '.' :: b) = true := isChildOf_iff.2 ⟨lower b, by rw [lower_dot, hai]⟩
  obtain ⟨y, n1, e0, e, sec', d', g1, g2, g3, g4, g5, -, g7, g8, g9⟩ :=
    hdone (a ++ '.' :: b) (by rw [List.take_of_length_le (Nat.le_refl _)]; exact hsub _ hab) hc
  obtain ⟨p, r, hs3, rfl⟩ := g1
  have hr : r = strip b := by
    rw [splitTerm_dot had hbd] at hs3
    cases hs3; rfl
  subst hr
  rw [normalizeTerm_dot p1 (fun h => hbd (mem_strip h)), p2, if_neg hR, strip_strip] at g2
  cases g2
  refine ⟨e0, e, sec', d', ?_, g4, g5, g7, g8, g9⟩
  rw [← lower_dot, hinv.self hne i1 p1 p2 hR hc]
  exact g3

/-- **C38**, nothing else: only the two tables of declarations change. A declared term other than the new one and its children stays as
it is. Every section keeps its columns and the names listed, in order; the names added are the new term and its children. -/
theorem C38_frame {t : Nat} {s s' : St} {u : Unit} (h : addDeclaredTerm t s = .ok u s') :
    OnlyTables s s' ∧ ∃ v tp tR n, (s.heap t).value = .str v ∧ splitTerm v = .ok (tp, tR) ∧ normalizeTerm v = .ok n ∧
      (∀ k, k ≠ n → (∀ r, normalizeTerm (tR ++ '.' :: r) ≠ .ok k) → s'.p.declTerms.get? k = s.p.declTerms.get? k) ∧
      (∀ k, s.p.declSecs.get? k = none → s'.p.declSecs.get? k = none) ∧
      (∀ k d, s.p.declSecs.get? k = some d → ∃ new, s'.p.declSecs.get? k = some ⟨d.args, d.terms ++ new⟩ ∧
        ∀ y ∈ new, y = v ∨ ∃ r, y = tR ++ '.' :: r) := by
  obtain ⟨v, n, ap, td, hv, hn, ha, he, s2, hs2, hfin⟩ := addDeclaredTerm_ok h
  have t1 := (declaredEntry_term he).1
  obtain ⟨tp, tR, hv2⟩ : ∃ tp tR, splitTerm v = .ok (tp, tR) := by
    unfold normalizeTerm splitTermLower at hn
    cases hh : splitTerm v with
    | error e => rw [hh] at hn; cases hn
    | ok x => exact ⟨x.1, x.2, rfl⟩
  -- the new entry and its place in the section
  have hA : OnlyTables s s2 ∧ s2.p.declTerms = s.p.declTerms.set n td ∧ (∀ k, s.p.declSecs.get? k = none → s2.p.declSecs.get? k = none) ∧
      (∀ k d, s.p.declSecs.get? k = some d → ∃ new, s2.p.declSecs.get? k = some ⟨d.args, d.terms ++ new⟩ ∧ ∀ y ∈ new, y = v) := by
    cases t3 : td.props.get? (py!"section") with
    | none =>
      rw [t3] at hs2
      cases hs2
      exact ⟨⟨_, _, rfl⟩, rfl, fun _ => id, fun k d hd => ⟨[], by simpa using hd, by simp⟩⟩
    | some sec =>
      rw [t3] at hs2
      obtain ⟨sec1, tn1, d1, q1, q2, q3, q4⟩ := addTermToSection_ok hs2
      rw [t1] at q2; cases q2
      dsimp only at q3 q4
      refine ⟨⟨_, _, q4⟩, by rw [q4], fun k hkn => ?_, fun k d hd => ?_⟩
      · rw [q4]; dsimp only
        split
        · exact hkn
        · rw [Dict.get?_set, if_neg]
          · exact hkn
          · rintro rfl; rw [hkn] at q3; cases q3
      · rw [q4]; dsimp only
        split
        · exact ⟨[], by simpa using hd, by simp⟩
        · rw [Dict.get?_set]
          split
          · next hkk =>
            rw [hkk] at q3
            rw [hd] at q3; cases q3
            exact ⟨[v], rfl, by simp⟩
          · exact ⟨[], by simpa using hd, by simp⟩
  obtain ⟨o1, o2, o3, o4⟩ := hA
  obtain ⟨p1, p2, -⟩ := splitTerm_parts hv2
  -- the inherited children
  have hB : OnlyTables s2 s' ∧ (∀ k, (∀ r, normalizeTerm (tR ++ '.' :: r) ≠ .ok k) → s'.p.declTerms.get? k = s2.p.declTerms.get? k) ∧
      (∀ k, s2.p.declSecs.get? k = none → s'.p.declSecs.get? k = none) ∧
      (∀ k d, s2.p.declSecs.get? k = some d → ∃ new, s'.p.declSecs.get? k = some ⟨d.args, d.terms ++ new⟩ ∧ ∀ y ∈ new, ∃ r, y = tR ++ '.' :: r) := by
    have same : s' = s2 → OnlyTables s2 s' ∧ (∀ k, (∀ r, normalizeTerm (tR ++ '.' :: r) ≠ .ok k) → s'.p.declTerms.get? k = s2.p.declTerms.get? k) ∧
      (∀ k, s2.p.declSecs.get? k = none → s'.p.declSecs.get? k = none) ∧
      (∀ k d, s2.p.declSecs.get? k = some d → ∃ new, s'.p.declSecs.get? k = some ⟨d.args, d.terms ++ new⟩ ∧ ∀ y ∈ new, ∃ r, y = tR ++ '.' :: r) := by
      rintro rfl
      exact ⟨.refl _, fun _ _ => rfl, fun _ => id, fun k d hd => ⟨[], by simpa using hd, by simp⟩⟩
    cases t2 : td.props.get? (py!"inheritsfrom") with
    | none => unfold addInherited at hfin; rw [t2] at hfin; cases hfin; exact same rfl
    | some ih =>
    by_cases h3 : ih = []
    · unfold addInherited at hfin; rw [t2, t1] at hfin; dsimp only at hfin; rw [if_pos h3] at hfin; cases hfin; exact same rfl
    cases t3 : td.props.get? (py!"section") with
    | none => unfold addInherited at hfin; rw [t2, t1] at hfin; dsimp only at hfin; rw [if_neg h3, t3] at hfin; cases hfin
    | some sec =>
    cases h6 : splitTerm ih with
    | error e =>
      unfold addInherited at hfin; rw [t2, t1] at hfin; dsimp only at hfin; rw [if_neg h3, t3] at hfin
      dsimp only at hfin; rw [bind_run, lift_run, hv2] at hfin
      dsimp only at hfin; rw [bind_run, lift_run, h6] at hfin; cases hfin
    | ok y =>
    obtain ⟨ip, ihR⟩ := y
    cases h7 : s2.p.declSecs.get? (lower sec) with
    | none =>
      unfold addInherited at hfin; rw [t2, t1] at hfin; dsimp only at hfin; rw [if_neg h3, t3] at hfin
      dsimp only at hfin; rw [bind_run, lift_run, hv2] at hfin
      dsimp only at hfin; rw [bind_run, lift_run, h6] at hfin
      dsimp only at hfin; rw [bind_run, get_run] at hfin
      dsimp only at hfin; rw [h7] at hfin; cases hfin
    | some d =>
      rw [addInherited_eq t1 t2 h3 t3 hv2 h6 h7] at hfin
      have hsp := inheritLoop_spec p1 p2 (2 * d.terms.length + 1) 0 s2 rfl (inhInv_start (ihR := ihR) h7)
      rw [hfin] at hsp
      obtain ⟨ho, ⟨j, hinv⟩, -⟩ := hsp
      refine ⟨ho, fun k hk => hinv.frame k ?_, fun k => (hinv.secs k).1, fun k d hd => ?_⟩
      · rintro x - - y ⟨p, r, -, rfl⟩; exact hk r
      · obtain ⟨ex, e1, e2⟩ := (hinv.secs k).2 d hd
        refine ⟨ex, e1, fun y hy => ?_⟩
        obtain ⟨x, -, -, p, r, -, rfl⟩ := e2 y hy
        exact ⟨r, rfl⟩
  obtain ⟨b1, b2, b3, b4⟩ := hB
  refine ⟨o1.trans b1, v, tp, tR, n, hv, hv2, hn, fun k h1 h2 => ?_, fun k hk => b3 k (o3 k hk), fun k d hd => ?_⟩
  · rw [b2 k h2, o2, Dict.get?_set, if_neg (Ne.symm h1)]
  · obtain ⟨n1, e1, e2⟩ := o4 k d hd
    obtain ⟨n2, f1, f2⟩ := b4 k _ e1
    refine ⟨n1 ++ n2, by rw [f1, List.append_assoc], fun y hy => ?_⟩
    rcases List.mem_append.1 hy with hy | hy
    · exact .inl (e2 y hy)
    · exact .inr (f2 y hy)

theorem normKeys_of_all {d : Dict DTerm} (h : ∀ kv ∈ d, normalizeTerm kv.1 = .ok kv.1) (hn : d.keys.Nodup) : NormKeys d :=
  ⟨fun _ _ hk => h _ (Dict.mem_of_get? hk), hn⟩

/-- A declaration file with a section, a term and a child of the term. -/
def exDeclRows : List (List Str) :=
  [[py!"Section", py!"DeclaredTerms", py!"Section", py!"InheritsFrom", py!"ChildPropertyType"], [py!"DeclareSection", py!"Data", py!"Title"],
   [py!"DeclareTerm", py!"Table", py!"Data"], [py!"DeclareTerm", py!"Table.Column", py!"data", [], py!"sequence"]]
/-- After reading it. -/
def exDecl : St := after (gen noFiles true 3 true [] [] exDeclRows) exDoc
/-- A term that inherits, about to be declared. -/
def exGeo : St := after (do
  let t ← rowTerm true [py!"DeclareTerm", py!"Root.Geo", py!"Data", py!"Table"]
  setSection t (some 1)
  setTvn t (py!"term")) exDecl

/-- The hypotheses of `C38_children` can be met: `Geo` gets a child `Geo.Column`. -/
example : ∃ e0 e sec' d', (after (addDeclaredTerm 13) exGeo).p.declTerms.get? (py!"table.column") = some e0 ∧
    (after (addDeclaredTerm 13) exGeo).p.declTerms.get? (py!"geo.column") = some e ∧ Copied e0 e ∧
    e0.props.get? (py!"section") = some sec' ∧ (after (addDeclaredTerm 13) exGeo).p.declSecs.get? (lower sec') = some d' ∧
    (py!"Geo.Column") ∈ d'.terms :=
  C38_children (t := 13) (u := ()) (ok_after (by decide +kernel)) (normKeys_of_all (by decide +kernel) (by decide +kernel)) (v := py!"Root.Geo")
    (ih := py!"Table") (sec := py!"Data") (tp := py!"Root") (tR := py!"Geo") (ip := py!"root") (ihR := py!"Table")
    (ap := [(py!"section", .str (py!"Data")), (py!"inheritsfrom", .str (py!"Table")), (py!"term", .str (py!"Root.Geo"))])
    (by decide +kernel) (by decide +kernel) (by decide) (by decide) (by decide) (by decide) (by decide) (by decide) (by decide) (by decide)
    (d := ⟨[py!"Title"], [py!"Table", py!"Table.Column"]⟩) (by decide +kernel) (a := py!"Table") (b := py!"Column") (by decide) (by decide)
    (by decide) (by decide)

/-- The table the parser has built is the kind `C38_children` asks for, whatever was read before. -/
example : NormKeys exDecl.p.declTerms := by
  have h := normKeys_gen noFiles true 3 true [] [] exDeclRows (s := exDoc) normKeys_init
  unfold exDecl after
  revert h
  cases gen noFiles true 3 true [] [] exDeclRows exDoc <;> exact id

end Metatab
