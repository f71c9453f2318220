import Verif.Lemmas.Rows
import Verif.Lemmas.PlainRows
/-! # The loop over inherited children -/
namespace Metatab
open Py

theorem splitTerm_parts {t p r : Str} (h : splitTerm t = .ok (p, r)) : '.' ∉ r ∧ strip r = r ∧ '.' ∉ p ∧ strip p = p ∧ p ≠ [] := by
  unfold splitTerm at h
  by_cases hd : '.' ∈ t
  · rw [if_pos hd] at h
    split at h
    · next a b hab =>
      obtain ⟨-, ha, hb⟩ := split_pair hab
      simp only [Except.ok.injEq, Prod.mk.injEq] at h
      obtain ⟨rfl, rfl⟩ := h
      refine ⟨fun h => hb (mem_strip h), strip_strip _, ?_, ?_, ?_⟩
      · split
        · decide
        · exact fun h => ha (mem_strip h)
      · split
        · decide
        · exact strip_strip _
      · split
        · decide
        · assumption
    · cases h
  · rw [if_neg hd] at h
    simp only [Except.ok.injEq, Prod.mk.injEq] at h
    obtain ⟨rfl, rfl⟩ := h
    exact ⟨fun h => hd (mem_strip h), strip_strip _, by decide, by decide, by decide⟩

theorem splitTerm_made {a b : Str} (ha : '.' ∉ a) (hb : '.' ∉ b) (hs : strip b = b) : ∃ p, splitTerm (a ++ '.' :: b) = .ok (p, b) := by
  rw [splitTerm_dot ha hb, hs]
  exact ⟨_, rfl⟩

/-- `name` is listed as a child of `ihR`. -/
def isChildOf (ihR name : Str) : Bool := startsWith (lower ihR ++ py!".") (lower name)

/-- `y` is the name of the child of `tR` inherited from `x`. -/
def IsInh (tR x y : Str) : Prop := ∃ p r, splitTerm x = .ok (p, r) ∧ y = tR ++ '.' :: r

theorem isInh_again {tR x y : Str} (ht : '.' ∉ tR) (h : IsInh tR x y) : IsInh tR y y := by
  obtain ⟨p, r, h1, rfl⟩ := h
  obtain ⟨h2, h3, -⟩ := splitTerm_parts h1
  obtain ⟨q, hq⟩ := splitTerm_made ht h2 h3
  exact ⟨q, r, hq, rfl⟩

theorem isInh_unique {tR x y z : Str} (h : IsInh tR x y) (h' : IsInh tR x z) : y = z := by
  obtain ⟨p, r, h1, rfl⟩ := h
  obtain ⟨p', r', h1', rfl⟩ := h'
  rw [h1] at h1'
  cases h1'; rfl

theorem inheritedEntry_eq (d : Dict DTerm) (tR ihR st : Str) : inheritedEntry d tR ihR st =
    if isChildOf ihR st then (match splitTerm st with
      | .error e => .error e
      | .ok (_, r) => match d.get? (lower st) with
        | none => .error .keyError
        | some e => .ok (some { e with props := (e.props.set (py!"inheritsfrom") []).set (py!"term") (tR ++ '.' :: r) }))
    else .ok none := by
  unfold inheritedEntry isChildOf
  split
  · cases splitTerm st with
    | error e => rfl
    | ok x => obtain ⟨p, r⟩ := x; dsimp only [bind, Except.bind]; cases d.get? (lower st) <;> rfl
  · rfl

/-- Adding a name to the list of its section. -/
theorem addTermToSection_ok {loop : Bool} {td : DTerm} {s s' : St} {u : Unit} (h : addTermToSection loop td s = .ok u s') :
    ∃ sec tn d, td.props.get? (py!"section") = some sec ∧ td.props.get? (py!"term") = some tn ∧ s.p.declSecs.get? (lower sec) = some d ∧
      s' = { s with p := { s.p with declSecs := if tn ∈ d.terms then s.p.declSecs else s.p.declSecs.set (lower sec) { d with terms := d.terms ++ [tn] } } } := by
  unfold addTermToSection at h
  simp only [bind_run, get_run] at h
  cases hd : s.p.declSecs.get? (lower ((td.props.get? (py!"section")).getD [])) with
  | none => rw [hd] at h; cases h
  | some d =>
    rw [hd] at h
    dsimp only at h
    cases hs : td.props.get? (py!"section") with
    | none => rw [hs] at h; cases h
    | some sec =>
    cases ht : td.props.get? (py!"term") with
    | none => rw [hs, ht] at h; cases h
    | some tn =>
      rw [hs, ht] at h
      dsimp only at h
      rw [hs] at hd
      refine ⟨sec, tn, d, rfl, rfl, hd, ?_⟩
      by_cases hm : tn ∈ d.terms
      · rw [if_neg (by simpa using hm)] at h
        cases h
        rw [if_pos hm]
      · rw [if_pos hm] at h
        unfold updP at h
        rw [modify_run] at h
        cases h
        rw [if_neg hm]; rfl

theorem addTermToSection_err {loop : Bool} {td : DTerm} {s s' : St} {e : Err} (h : addTermToSection loop td s = .err e s') : e ≠ .recursionError := by
  unfold addTermToSection at h
  simp only [bind_run, get_run] at h
  cases hd : s.p.declSecs.get? (lower ((td.props.get? (py!"section")).getD [])) with
  | none => rw [hd] at h; cases h; cases loop <;> simp
  | some d =>
    rw [hd] at h
    dsimp only at h
    cases hs : td.props.get? (py!"section") with
    | none => rw [hs] at h; cases h; simp
    | some sec =>
    cases ht : td.props.get? (py!"term") with
    | none => rw [hs, ht] at h; cases h; simp
    | some tn =>
      rw [hs, ht] at h
      dsimp only at h
      split at h
      · unfold updP at h; rw [modify_run] at h; cases h
      · cases h

/-- One round of the loop. -/
theorem inheritLoop_succ (sec tR ihR : Str) (f i : Nat) (s : St) : inheritLoop sec tR ihR (f + 1) i s =
    match s.p.declSecs.get? sec with
    | none => .err .keyError s
    | some d => match d.terms[i]? with
      | none => .ok () s
      | some st => match inheritedEntry s.p.declTerms tR ihR st with
        | .error e => .err e s
        | .ok none => inheritLoop sec tR ihR f (i + 1) s
        | .ok (some e) => match normalizeTerm ((e.props.get? (py!"term")).getD []) with
          | .error x => .err x s
          | .ok n => (addTermToSection true e >>= fun _ => inheritLoop sec tR ihR f (i + 1)) { s with p := { s.p with declTerms := s.p.declTerms.set n e } } := by
  rw [inheritLoop]
  simp only [bind_run, get_run]
  cases s.p.declSecs.get? sec with
  | none => rfl
  | some d =>
    dsimp only
    cases d.terms[i]? with
    | none => rfl
    | some st =>
      dsimp only
      simp only [bind_run, lift_run]
      cases inheritedEntry s.p.declTerms tR ihR st with
      | error e => rfl
      | ok o =>
        cases o with
        | none => rfl
        | some e =>
          dsimp only
          simp only [bind_run, lift_run]
          cases normalizeTerm ((e.props.get? (py!"term")).getD []) with
          | error x => rfl
          | ok n =>
            dsimp only
            unfold updP
            simp only [modify_run, bind_run]

theorem splitTerm_err {t : Str} {e : Err} (h : splitTerm t = .error e) : e = .valueError := by
  unfold splitTerm at h
  split at h
  · split at h
    · cases h
    · cases h; rfl
  · cases h

theorem normalizeTerm_err {t : Str} {e : Err} (h : normalizeTerm t = .error e) : e = .valueError := by
  unfold normalizeTerm splitTermLower at h
  cases hs : splitTerm t with
  | error x => rw [hs] at h; cases h; exact splitTerm_err hs
  | ok x => rw [hs] at h; cases h

/-- A copy of the entry of a child, for the new term. -/
structure Copied (e0 e : DTerm) : Prop where
  same : ∀ k, k ≠ py!"inheritsfrom" → k ≠ py!"term" → e.props.get? k = e0.props.get? k
  inherits : e.props.get? (py!"inheritsfrom") = some []
  values : e.values = e0.values

theorem dot_append_inj : ∀ {a b c d : Str}, '.' ∉ a → '.' ∉ c → a ++ '.' :: b = c ++ '.' :: d → a = c ∧ b = d := by
  intro a
  induction a with
  | nil =>
    intro b c d _ hc e
    cases c with
    | nil => exact ⟨rfl, by simpa using e⟩
    | cons x c => simp only [List.nil_append, List.cons_append, List.cons.injEq] at e; exact absurd (by rw [← e.1]; simp) hc
  | cons a as ih =>
    intro b c d ha hc e
    cases c with
    | nil => simp only [List.nil_append, List.cons_append, List.cons.injEq] at e; exact absurd (by rw [e.1]; simp) ha
    | cons x c =>
      simp only [List.cons_append, List.cons.injEq] at e
      obtain ⟨h1, h2⟩ := ih (fun h => ha (List.mem_cons_of_mem _ h)) (fun h => hc (List.mem_cons_of_mem _ h)) e.2
      exact ⟨by rw [e.1, h1], h2⟩

theorem isChildOf_iff {ihR x : Str} : isChildOf ihR x = true ↔ ∃ u, lower x = lower ihR ++ '.' :: u := by
  unfold isChildOf startsWith
  rw [List.isPrefixOf_iff_prefix]
  constructor
  · rintro ⟨u, h⟩; exact ⟨u, by rw [← h]; simp⟩
  · rintro ⟨u, h⟩; exact ⟨u, by rw [h]; simp⟩

theorem lower_dot (a b : Str) : lower (a ++ '.' :: b) = lower a ++ '.' :: lower b := by
  unfold lower; simp; decide

/-- The inherited names are not children of the super-term. -/
theorem not_child {tR ihR r : Str} (ht : '.' ∉ tR) (hi : '.' ∉ ihR) (hne : lower tR ≠ lower ihR) : isChildOf ihR (tR ++ '.' :: r) = false := by
  cases h : isChildOf ihR (tR ++ '.' :: r) with
  | false => rfl
  | true =>
    obtain ⟨u, h⟩ := isChildOf_iff.1 h
    rw [lower_dot] at h
    exact absurd (dot_append_inj (by rwa [dot_mem_lower]) (by rwa [dot_mem_lower]) h).1 hne

theorem normalizeTerm_lower (s : Str) : normalizeTerm (lower s) = normalizeTerm s := by
  rcases dot_cases s with ⟨hs, hc⟩ | ⟨p, r, rfl, hp, hr, hc⟩ | ⟨hc, hm, hh⟩
  · rw [normalizeTerm_nodot hs, normalizeTerm_nodot (by rwa [dot_mem_lower])]; simp
  · rw [lower_dot, normalizeTerm_dot hp hr, normalizeTerm_dot (by rwa [dot_mem_lower]) (by rwa [dot_mem_lower])]
    simp only [strip_lower, lower_eq_nil]
    split <;> simp
  · rw [(C01_accepts s).2 hc, (C01_accepts (lower s)).2]
    have : ∀ t : Str, (lower t).count '.' = t.count '.' := by
      intro t
      induction t with
      | nil => rfl
      | cons c t ih =>
        show (lowerC c :: lower t).count '.' = _
        rw [List.count_cons, List.count_cons, ih]
        congr 1
        by_cases hc : c = '.'
        · subst hc; rfl
        · have : lowerC c ≠ '.' := by
            intro e
            have : '.' ∈ lower [c] := by show '.' ∈ [lowerC c]; rw [e]; simp
            rw [dot_mem_lower] at this
            simp at this; exact hc this.symm
          simp [hc, this]
    rw [this s]; omega

/-- Children that give the same name are the same, when they are declared under their normal names. -/
theorem same_child {tR ihR x y p r p' r' : Str} {n : Str} (hi : '.' ∉ ihR) (ht : '.' ∉ tR) (hx : isChildOf ihR x = true) (hy : isChildOf ihR y = true)
    (hnx : normalizeTerm (lower x) = .ok (lower x)) (hny : normalizeTerm (lower y) = .ok (lower y))
    (sx : splitTerm x = .ok (p, r)) (sy : splitTerm y = .ok (p', r')) (ex : normalizeTerm (tR ++ '.' :: r) = .ok n)
    (ey : normalizeTerm (tR ++ '.' :: r') = .ok n) : lower x = lower y := by
  obtain ⟨h1, h2, h3, -⟩ := splitTerm_parts sx
  obtain ⟨h1', h2', h3', -⟩ := splitTerm_parts sy
  have key : ∀ {x p r : Str}, splitTerm x = .ok (p, r) → '.' ∉ p → normalizeTerm (lower x) = .ok (lower x) → isChildOf ihR x = true → lower x = lower ihR ++ '.' :: lower r := by
    intro x p r sx hp hn hc
    rw [normalizeTerm_lower] at hn
    unfold normalizeTerm splitTermLower at hn
    rw [sx] at hn
    have hn : lower p ++ '.' :: lower r = lower x := Except.ok.inj hn
    obtain ⟨u, hu⟩ := isChildOf_iff.1 hc
    rw [← hn] at hu
    rw [← hn, (dot_append_inj (by rwa [dot_mem_lower]) (by rwa [dot_mem_lower]) hu).1]
  rw [key sx h3 hnx hx, key sy h3' hny hy]
  rw [normalizeTerm_dot ht h1, h2] at ex
  rw [normalizeTerm_dot ht h1', h2'] at ey
  have e := (Except.ok.inj ex).trans (Except.ok.inj ey).symm
  have e := List.append_cancel_left e
  simp only [List.cons.injEq, true_and] at e
  rw [e]

/-- What holds before round `i`. `L0` is the list of names when the loop starts, `D0` and `S0` are the tables. -/
structure InhInv (sec tR ihR : Str) (L0 : List Str) (D0 : Dict DTerm) (S0 : Dict DSec) (i : Nat) (s : St) : Prop where
  list : ∃ d, s.p.declSecs.get? sec = some d ∧ i ≤ d.terms.length ∧ ∃ extra, d.terms = L0 ++ extra ∧ extra.Nodup ∧
    ∀ y ∈ extra, ∃ x ∈ L0, isChildOf ihR x = true ∧ IsInh tR x y
  frame : ∀ k, (∀ x ∈ L0, isChildOf ihR x = true → ∀ y, IsInh tR x y → normalizeTerm y ≠ .ok k) → s.p.declTerms.get? k = D0.get? k
  secs : ∀ k, (S0.get? k = none → s.p.declSecs.get? k = none) ∧ ∀ d0, S0.get? k = some d0 → ∃ extra, s.p.declSecs.get? k = some ⟨d0.args, d0.terms ++ extra⟩ ∧
    ∀ y ∈ extra, ∃ x ∈ L0, isChildOf ihR x = true ∧ IsInh tR x y

/-- The rounds before `i` have been done. -/
def InhDone (tR ihR : Str) (L0 : List Str) (D0 : Dict DTerm) (i : Nat) (s : St) : Prop :=
  ∀ x ∈ L0.take i, isChildOf ihR x = true → ∃ y n e0 e sec' d, IsInh tR x y ∧ normalizeTerm y = .ok n ∧ D0.get? (lower x) = some e0 ∧
    s.p.declTerms.get? n = some e ∧ Copied e0 e ∧ (∃ tn, e.props.get? (py!"term") = some tn ∧ normalizeTerm tn = .ok n) ∧
    e0.props.get? (py!"section") = some sec' ∧ s.p.declSecs.get? (lower sec') = some d ∧ y ∈ d.terms

/-- The entries of the super-term's children stay. -/
theorem InhInv.self {sec tR ihR : Str} {L0 : List Str} {D0 : Dict DTerm} {S0 : Dict DSec} {i : Nat} {s : St}
    (h : InhInv sec tR ihR L0 D0 S0 i s) (hne : lower tR ≠ lower ihR) (hi : '.' ∉ ihR) (ht : '.' ∉ tR) (hs : strip tR = tR) (h0 : tR ≠ []) {x : Str}
    (hc : isChildOf ihR x = true) : s.p.declTerms.get? (lower x) = D0.get? (lower x) := by
  refine h.frame _ fun y hy hcy z hz e => ?_
  obtain ⟨u, hu⟩ := isChildOf_iff.1 hc
  obtain ⟨p, r, hsp, rfl⟩ := hz
  obtain ⟨h1, h2, -⟩ := splitTerm_parts hsp
  rw [normalizeTerm_dot ht h1, hs, if_neg h0, hu] at e
  exact hne (dot_append_inj (by rwa [dot_mem_lower]) (by rwa [dot_mem_lower]) (Except.ok.inj e)).1

/-- A list without repetitions all of whose elements come from `L` is not longer than `L`. -/
theorem length_le_of_images {α β : Type} [DecidableEq β] {R : α → β → Prop} (hR : ∀ x y z, R x y → R x z → y = z) : ∀ {L : List α} {E : List β}, E.Nodup →
    (∀ y ∈ E, ∃ x ∈ L, R x y) → E.length ≤ L.length
  | [], E, _, h => by
    cases E with
    | nil => simp
    | cons y E => obtain ⟨x, hx, -⟩ := h y (List.mem_cons_self ..); cases hx
  | a :: L, E, hn, h => by
    by_cases hex : ∃ y ∈ E, R a y
    · obtain ⟨y, hy, hay⟩ := hex
      have := length_le_of_images hR (L := L) (hn.erase y) (by
        intro z hz
        obtain ⟨x, hx, hxz⟩ := h z (List.mem_of_mem_erase hz)
        rcases List.mem_cons.1 hx with rfl | hx
        · have : y = z := hR _ _ _ hay hxz
          subst this
          exact absurd rfl (hn.mem_erase_iff.1 hz).1
        · exact ⟨x, hx, hxz⟩)
      rw [List.length_erase_of_mem hy] at this
      simp only [List.length_cons]; omega
    · have := length_le_of_images hR (L := L) hn (by
        intro z hz
        obtain ⟨x, hx, hxz⟩ := h z hz
        rcases List.mem_cons.1 hx with rfl | hx
        · exact absurd ⟨z, hz, hxz⟩ hex
        · exact ⟨x, hx, hxz⟩)
      simp only [List.length_cons]; omega

/-- One round keeps the invariant. -/
theorem inhInv_step {sec tR ihR : Str} {L0 : List Str} {D0 : Dict DTerm} {S0 : Dict DSec} {i : Nat} {s s2 : St} (ht : '.' ∉ tR)
    (h : InhInv sec tR ihR L0 D0 S0 i s) {d : DSec} (hd : s.p.declSecs.get? sec = some d) {st : Str} (hst : d.terms[i]? = some st)
    {p r n sec' tn : Str} {e0 e : DTerm} {d' : DSec} (hc : isChildOf ihR st = true) (hsp : splitTerm st = .ok (p, r)) (htn : tn = tR ++ '.' :: r) (hn : normalizeTerm tn = .ok n)
    (hd' : s.p.declSecs.get? (lower sec') = some d')
    (hs2 : s2 = { s with p := { s.p with declTerms := s.p.declTerms.set n e, declSecs := if tn ∈ d'.terms then s.p.declSecs else s.p.declSecs.set (lower sec') { d' with terms := d'.terms ++ [tn] } } }) :
    InhInv sec tR ihR L0 D0 S0 (i + 1) s2 ∧ ∃ x ∈ L0, isChildOf ihR x = true ∧ IsInh tR x tn := by
  obtain ⟨d1, hd1, hi, extra, hl, hnd, hex⟩ := h.list
  rw [hd] at hd1; cases hd1
  have hlt : i < d.terms.length := by rw [List.getElem?_eq_some_iff] at hst; exact hst.1
  have hmem : st ∈ d.terms := List.mem_of_getElem? hst
  have hy : IsInh tR st tn := ⟨p, r, hsp, htn⟩
  obtain ⟨x, hx, hcx, hxy⟩ : ∃ x ∈ L0, isChildOf ihR x = true ∧ IsInh tR x tn := by
    rw [hl, List.mem_append] at hmem
    rcases hmem with hm | hm
    · exact ⟨st, hm, hc, hy⟩
    · obtain ⟨x, hx, hcx, hxs⟩ := hex st hm
      have := isInh_unique hy (isInh_again ht hxs)
      exact ⟨x, hx, hcx, by rw [this]; exact hxs⟩
  refine ⟨?_, x, hx, hcx, hxy⟩
  subst hs2
  refine ⟨?_, ?_, ?_⟩
  · by_cases hm : tn ∈ d'.terms
    · rw [if_pos hm]; exact ⟨d, hd, hlt, extra, hl, hnd, hex⟩
    · rw [if_neg hm]
      dsimp only
      by_cases hsec : lower sec' = sec
      · rw [hsec] at hd' ⊢
        rw [hd] at hd'; cases hd'
        refine ⟨_, by rw [Dict.get?_set, if_pos rfl], ?_, extra ++ [tn], ?_, ?_, ?_⟩
        · simp only [List.length_append, List.length_cons, List.length_nil]; omega
        · show d.terms ++ [tn] = _; rw [hl, List.append_assoc]
        · rw [List.nodup_append]
          refine ⟨hnd, by simp, ?_⟩
          rintro a ha b hb rfl
          simp only [List.mem_singleton] at hb
          subst hb
          exact hm (by rw [hl]; simp [ha])
        · intro y hy'
          rw [List.mem_append] at hy'
          rcases hy' with hy' | hy'
          · exact hex y hy'
          · simp only [List.mem_singleton] at hy'; subst hy'; exact ⟨x, hx, hcx, hxy⟩
      · exact ⟨d, by rw [Dict.get?_set, if_neg hsec]; exact hd, hlt, extra, hl, hnd, hex⟩
  · intro k hk
    show (s.p.declTerms.set n e).get? k = _
    rw [Dict.get?_set, if_neg]
    · exact h.frame k hk
    · rintro rfl; exact hk x hx hcx tn hxy hn
  · intro k
    obtain ⟨h1, h2⟩ := h.secs k
    by_cases hm : tn ∈ d'.terms
    · rw [if_pos hm]; exact ⟨h1, h2⟩
    · rw [if_neg hm]
      dsimp only
      by_cases hk : lower sec' = k
      · subst hk
        refine ⟨fun hn => ?_, fun d0 h0 => ?_⟩
        · rw [h1 hn] at hd'; cases hd'
        · obtain ⟨ex, e1, e2⟩ := h2 d0 h0
          rw [hd'] at e1; cases e1
          refine ⟨ex ++ [tn], by rw [Dict.get?_set, if_pos rfl, List.append_assoc], ?_⟩
          intro y hy'
          rw [List.mem_append] at hy'
          rcases hy' with hy' | hy'
          · exact e2 y hy'
          · simp only [List.mem_singleton] at hy'; subst hy'; exact ⟨x, hx, hcx, hxy⟩
      · rw [Dict.get?_set, if_neg hk]; exact ⟨h1, h2⟩

/-- Only the two tables change. -/
def OnlyTables (s s' : St) : Prop := ∃ D S, s' = { s with p := { s.p with declTerms := D, declSecs := S } }

theorem OnlyTables.refl (s : St) : OnlyTables s s := ⟨_, _, rfl⟩

theorem OnlyTables.trans {s s' s'' : St} (h : OnlyTables s s') (h' : OnlyTables s' s'') : OnlyTables s s'' := by
  obtain ⟨D, S, rfl⟩ := h
  obtain ⟨D', S', rfl⟩ := h'
  exact ⟨D', S', rfl⟩

/-- The loop ends by itself, and keeps the invariant. -/
theorem inheritLoop_spec {sec tR ihR : Str} {L0 : List Str} {D0 : Dict DTerm} {S0 : Dict DSec} (ht : '.' ∉ tR) (hs : strip tR = tR) :
    ∀ (f i : Nat) (s : St), f + i = 2 * L0.length + 1 → InhInv sec tR ihR L0 D0 S0 i s →
    match inheritLoop sec tR ihR f i s with
    | .err e _ => e ≠ .recursionError
    | .ok _ s' => OnlyTables s s' ∧ (∃ j, InhInv sec tR ihR L0 D0 S0 j s') ∧
      (lower tR ≠ lower ihR → '.' ∉ ihR → tR ≠ [] → (∀ k e, D0.get? k = some e → normalizeTerm k = .ok k) → InhDone tR ihR L0 D0 i s → InhDone tR ihR L0 D0 L0.length s')
  | 0, i, s, hf, h => by
    obtain ⟨d, -, hi, extra, hl, hnd, hex⟩ := h.list
    have := length_le_of_images (R := IsInh tR) (fun _ _ _ => isInh_unique) hnd fun y hy => by
      obtain ⟨x, hx, -, h⟩ := hex y hy; exact ⟨x, hx, h⟩
    rw [hl, List.length_append] at hi
    omega
  | f + 1, i, s, hf, h => by
    rw [inheritLoop_succ]
    obtain ⟨d, hd, hi, extra, hl, hnd, hex⟩ := h.list
    rw [hd]
    dsimp only
    cases hst : d.terms[i]? with
    | none =>
      refine ⟨.refl s, ⟨i, h⟩, fun _ _ _ _ hdone x hx hc => ?_⟩
      have hlen : d.terms.length ≤ i := by simpa using hst
      have : L0.length ≤ i := by rw [hl, List.length_append] at hlen; omega
      refine hdone x ?_ hc
      rw [List.take_of_length_le (Nat.le_refl _)] at hx
      rw [List.take_of_length_le this]; exact hx
    | some st =>
      have hlt : i < d.terms.length := by rw [List.getElem?_eq_some_iff] at hst; exact hst.1
      -- the element treated in this round
      have htake : ∀ x ∈ L0.take (i + 1), x ∈ L0.take i ∨ x = st := by
        intro x hx
        by_cases hi0 : i < L0.length
        · rw [List.take_succ_eq_append_getElem hi0, List.mem_append] at hx
          rcases hx with hx | hx
          · exact .inl hx
          · refine .inr ?_
            simp only [List.mem_singleton] at hx
            rw [hx]
            rw [hl, List.getElem?_append_left hi0, List.getElem?_eq_getElem hi0] at hst
            exact Option.some.inj hst
        · refine .inl ?_
          rw [List.take_of_length_le (by omega)] at hx
          rw [List.take_of_length_le (by omega)]; exact hx
      dsimp only
      rw [inheritedEntry_eq]
      cases hc : isChildOf ihR st with
      | false =>
        simp only [Bool.false_eq_true, if_false]
        have ih := inheritLoop_spec ht hs f (i + 1) s (by omega) (D0 := D0) (S0 := S0) ⟨⟨d, hd, hlt, extra, hl, hnd, hex⟩, h.frame, h.secs⟩
        revert ih
        cases inheritLoop sec tR ihR f (i + 1) s with
        | err e s' => exact id
        | ok u s' =>
          rintro ⟨h1, h2, h3⟩
          refine ⟨h1, h2, fun a b c k hdone => h3 a b c k fun x hx hcx => ?_⟩
          rcases htake x hx with hx | rfl
          · exact hdone x hx hcx
          · rw [hc] at hcx; cases hcx
      | true =>
        simp only [if_true]
        cases hsp : splitTerm st with
        | error e => dsimp only; rw [splitTerm_err hsp]; simp
        | ok pr =>
          obtain ⟨p, r⟩ := pr
          dsimp only
          cases he0 : s.p.declTerms.get? (lower st) with
          | none => simp
          | some e0 =>
            dsimp only
            obtain ⟨e, he⟩ : ∃ e : DTerm, e = { e0 with props := (e0.props.set (py!"inheritsfrom") []).set (py!"term") (tR ++ '.' :: r) } := ⟨_, rfl⟩
            rw [← he]
            have htn : e.props.get? (py!"term") = some (tR ++ '.' :: r) := by rw [he]; dsimp only; rw [Dict.get?_set, if_pos rfl]
            rw [Dict.get?_set, if_pos rfl]
            dsimp only [Option.getD_some]
            cases hn : normalizeTerm (tR ++ '.' :: r) with
            | error x => dsimp only; rw [normalizeTerm_err hn]; simp
            | ok n =>
              dsimp only
              rw [bind_run]
              cases ha : addTermToSection true e { s with p := { s.p with declTerms := s.p.declTerms.set n e } } with
              | err x s1 => exact addTermToSection_err ha
              | ok u s2 =>
                dsimp only
                obtain ⟨sec', tn', d', hsec', htn', hd', hs2⟩ := addTermToSection_ok ha
                rw [htn] at htn'; cases htn'
                have hs2' : s2 = { s with p := { s.p with declTerms := s.p.declTerms.set n e, declSecs := if (tR ++ '.' :: r) ∈ d'.terms then s.p.declSecs else s.p.declSecs.set (lower sec') { d' with terms := d'.terms ++ [tR ++ '.' :: r] } } } := hs2
                obtain ⟨hinv, -⟩ := inhInv_step (e0 := e0) ht h hd hst hc hsp rfl hn hd' hs2'
                have ih := inheritLoop_spec ht hs f (i + 1) s2 (by omega) hinv
                revert ih
                cases inheritLoop sec tR ihR f (i + 1) s2 with
                | err e s' => exact id
                | ok u s' =>
                  rintro ⟨h1, h2, h3⟩
                  refine ⟨.trans ⟨_, _, hs2'⟩ h1, h2, fun a b c k hdone => h3 a b c k fun x hx hcx => ?_⟩
                  have hself := h.self a b ht hs c hc
                  rw [he0] at hself
                  have hcop : Copied e0 e := by
                    rw [he]
                    refine ⟨fun k' h1 h2 => ?_, ?_, rfl⟩
                    · dsimp only; rw [Dict.get?_set, if_neg (Ne.symm h2), Dict.get?_set, if_neg (Ne.symm h1)]
                    · dsimp only; rw [Dict.get?_set, if_neg (by decide), Dict.get?_set, if_pos rfl]
                  have hse : e0.props.get? (py!"section") = some sec' := by rw [← hcop.same _ (by decide) (by decide)]; exact hsec'
                  have hnow : ∃ d2, s2.p.declSecs.get? (lower sec') = some d2 ∧ (tR ++ '.' :: r) ∈ d2.terms := by
                    rw [hs2']
                    dsimp only
                    split
                    · exact ⟨d', hd', by assumption⟩
                    · exact ⟨_, by rw [Dict.get?_set, if_pos rfl], by simp⟩
                  have hgrow : ∀ k d1 y, s.p.declSecs.get? k = some d1 → y ∈ d1.terms → ∃ d2, s2.p.declSecs.get? k = some d2 ∧ y ∈ d2.terms := by
                    intro k d1 y h1 h2
                    rw [hs2']
                    dsimp only
                    split
                    · exact ⟨d1, h1, h2⟩
                    · by_cases hk : lower sec' = k
                      · subst hk
                        rw [hd'] at h1; cases h1
                        exact ⟨_, by rw [Dict.get?_set, if_pos rfl], by simp [h2]⟩
                      · exact ⟨d1, by rw [Dict.get?_set, if_neg hk]; exact h1, h2⟩
                  have hdt : s2.p.declTerms = s.p.declTerms.set n e := by rw [hs2']
                  rcases htake x hx with hx | rfl
                  · obtain ⟨y, n1, f0, f1, sc, dd, g1, g2, g3, g4, g5, g6, g7, g8, g9⟩ := hdone x hx hcx
                    obtain ⟨d2, hd2, hm2⟩ := hgrow _ _ _ g8 g9
                    by_cases hnn : n = n1
                    · subst hnn
                      obtain ⟨p1, r1, q1, rfl⟩ := g1
                      have hl2 := same_child b ht hcx hc (k _ _ g3) (k _ _ hself.symm) q1 hsp g2 hn
                      rw [hl2, ← hself] at g3
                      cases g3
                      rw [hse] at g7; cases g7
                      exact ⟨_, n, e0, e, sec', d2, ⟨p1, r1, q1, rfl⟩, g2, by rw [hl2]; exact hself.symm, by rw [hdt, Dict.get?_set, if_pos rfl], hcop, ⟨_, htn, hn⟩, hse, hd2, hm2⟩
                    · exact ⟨y, n1, f0, f1, sc, d2, g1, g2, g3, by rw [hdt, Dict.get?_set, if_neg hnn]; exact g4, g5, g6, g7, hd2, hm2⟩
                  · obtain ⟨d2, hd2, hm2⟩ := hnow
                    exact ⟨_, n, e0, e, sec', d2, ⟨p, r, hsp, rfl⟩, hn, hself.symm, by rw [hdt, Dict.get?_set, if_pos rfl], hcop, ⟨_, htn, hn⟩, hse, hd2, hm2⟩

end Metatab
