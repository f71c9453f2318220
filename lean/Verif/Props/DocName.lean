import Verif.Props.Identifier
import Verif.Props.Slug
/-! # C43–C45: names of documents -/
namespace Metatab
open Py Spec

/-! ## `update_version`, seen from its results -/

theorem partDone_valued {s : St} {v : Nat} (h : IsVersion s v) (k : Str) :
    ∃ c, childNamed (partDone s v k) v k .fls = some c ∧ ((partDone s v k).heap c).value ≠ .none := by
  unfold partDone
  cases hn : childNamed s v k .fls with
  | some c =>
    simp only
    split
    · exact ⟨c, by rw [childNamed_withValue]; exact hn, by rw [withValue_heap, if_pos rfl]; simp⟩
    · next hv => exact ⟨c, hn, hv⟩
  | none =>
    refine ⟨s.next, ?_, ?_⟩
    · simp only
      rw [withChild_first' (fun c hc => (h.kids c hc).1) h.lt, hn]
      simp [partObj]
    · rw [withChild_heap, if_pos rfl]; simp [partObj]

/-- The three parts are there and have values. -/
def PartsThere (s : St) (v : Nat) : Prop := ∀ k ∈ versionParts, ∃ c, childNamed s v k .fls = some c ∧ (s.heap c).value ≠ .none

theorem partsDone_there {s : St} {v : Nat} (iv : IsVersion s v) (hc : CanPart s) :
    PartsThere (partsDone s v) v ∧ IsVersion (partsDone s v) v ∧ CanPart (partsDone s v) ∧ SameFind s (partsDone s v) := by
  obtain ⟨s1, h1⟩ : ∃ s1, s1 = partDone s v (py!"Major") := ⟨_, rfl⟩
  obtain ⟨s2, h2⟩ : ∃ s2, s2 = partDone s1 v (py!"Minor") := ⟨_, rfl⟩
  obtain ⟨s3, h3⟩ : ∃ s3, s3 = partDone s2 v (py!"Patch") := ⟨_, rfl⟩
  have e3 : partsDone s v = s3 := by unfold partsDone; rw [h3, h2, h1]
  have c1 : CanPart s1 := by rw [h1]; exact partDone_canPart hc
  have c2 : CanPart s2 := by rw [h2]; exact partDone_canPart c1
  have c3 : CanPart s3 := by rw [h3]; exact partDone_canPart c2
  have i1 : IsVersion s1 v := by rw [h1]; exact partDone_isVersion iv (hc.cls _ (by decide))
  have i2 : IsVersion s2 v := by rw [h2]; exact partDone_isVersion i1 (c1.cls _ (by decide))
  have i3 : IsVersion s3 v := by rw [h3]; exact partDone_isVersion i2 (c2.cls _ (by decide))
  have f1 : SameFind s s1 := by rw [h1]; exact partDone_same iv _
  have f2 : SameFind s1 s2 := by rw [h2]; exact partDone_same i1 _
  have f3 : SameFind s2 s3 := by rw [h3]; exact partDone_same i2 _
  rw [e3]
  refine ⟨?_, i3, c3, (f1.trans f2).trans f3⟩
  obtain ⟨A, A1, A2⟩ := partDone_valued iv (py!"Major")
  rw [← h1] at A1 A2
  obtain ⟨A3, A4⟩ := partDone_keep i1 (k := py!"Minor") (by decide) A1
  rw [← h2] at A3 A4
  obtain ⟨A5, A6⟩ := partDone_keep i2 (k := py!"Patch") (by decide) A3
  rw [← h3] at A5 A6
  obtain ⟨B, B1, B2⟩ := partDone_valued i1 (py!"Minor")
  rw [← h2] at B1 B2
  obtain ⟨B3, B4⟩ := partDone_keep i2 (k := py!"Patch") (by decide) B1
  rw [← h3] at B3 B4
  obtain ⟨C, C1, C2⟩ := partDone_valued i2 (py!"Patch")
  rw [← h3] at C1 C2
  intro k hk
  simp only [versionParts, List.mem_cons, List.not_mem_nil, or_false] at hk
  rcases hk with rfl | rfl | rfl
  · exact ⟨A, A5, by rw [A6, A4]; exact A2⟩
  · exact ⟨B, B3, by rw [B4]; exact B2⟩
  · exact ⟨C, C1, C2⟩

theorem partsDone_done {s : St} {v : Nat} (h : PartsThere s v) : partsDone s v = s := by
  obtain ⟨A, hA, nA⟩ := h (py!"Major") (by decide)
  obtain ⟨B, hB, nB⟩ := h (py!"Minor") (by decide)
  obtain ⟨C, hC, nC⟩ := h (py!"Patch") (by decide)
  unfold partsDone
  rw [partDone_done hA nA, partDone_done hB nB, partDone_done hC nC]

theorem versionString_inv {s s' : St} {v : Nat} {r : Val} (iv : IsVersion s v) (hp : PartsThere s v) (h : versionString v s = .ok r s') :
    ∃ a b c x, Complete s v a b c x ∧ r = .str x ∧ s' = withValue s v (.str x) := by
  obtain ⟨A, hA, nA⟩ := hp (py!"Major") (by decide)
  obtain ⟨B, hB, nB⟩ := hp (py!"Minor") (by decide)
  obtain ⟨C, hC, nC⟩ := hp (py!"Patch") (by decide)
  have f : ∀ {k}, '.' ∉ k → termFindFirst s v (dotJoin (py!"Version") k) = .ok (childNamed s v k .fls) := fun hk => localName_version iv hk
  have fA : termFindFirst s v (py!"Version.Major") = _ := f (k := py!"Major") (by decide)
  have fB : termFindFirst s v (py!"Version.Minor") = _ := f (k := py!"Minor") (by decide)
  have fC : termFindFirst s v (py!"Version.Patch") = _ := f (k := py!"Patch") (by decide)
  rw [hA] at fA; rw [hB] at fB; rw [hC] at fC
  cases ta : (s.heap A).value.toStr with
  | none =>
    have eA : (fmtVal (s.heap A).value) = .error .unmodelled := by unfold fmtVal; rw [ta]
    unfold versionString at h
    simp only [bind_run, lift_run, fA, fB, fC, eA] at h
    cases h
  | some a =>
    have eA : (fmtVal (s.heap A).value) = .ok a := by unfold fmtVal; rw [ta]
    cases tb : (s.heap B).value.toStr with
    | none =>
      have eB : (fmtVal (s.heap B).value) = .error .unmodelled := by unfold fmtVal; rw [tb]
      unfold versionString at h
      simp only [bind_run, lift_run, fA, fB, fC, eA, eB] at h
      cases h
    | some b =>
      have eB : (fmtVal (s.heap B).value) = .ok b := by unfold fmtVal; rw [tb]
      cases tc : (s.heap C).value.toStr with
      | none =>
        have eC : (fmtVal (s.heap C).value) = .error .unmodelled := by unfold fmtVal; rw [tc]
        unfold versionString at h
        simp only [bind_run, lift_run, fA, fB, fC, eA, eB, eC] at h
        cases h
      | some c =>
        have eC : (fmtVal (s.heap C).value) = .ok c := by unfold fmtVal; rw [tc]
        cases hd : childNamed s v (py!"Build") .fls with
        | none =>
          have hc : Complete s v a b c (a ++ '.' :: b ++ '.' :: c) := ⟨A, B, C, hA, hB, hC, nA, nB, nC, ta, tb, tc, .inl ⟨hd, rfl⟩⟩
          rw [versionString_run iv hc] at h
          cases h
          exact ⟨a, b, c, _, hc, rfl, rfl⟩
        | some d =>
          cases td : (s.heap d).value.toStr with
          | some u =>
            have hc : Complete s v a b c (a ++ '.' :: b ++ '.' :: c ++ '.' :: u) :=
              ⟨A, B, C, hA, hB, hC, nA, nB, nC, ta, tb, tc, .inr ⟨d, u, hd, td, rfl⟩⟩
            rw [versionString_run iv hc] at h
            cases h
            exact ⟨a, b, c, _, hc, rfl, rfl⟩
          | none =>
            obtain ⟨s1, hs1⟩ : ∃ s1, s1 = withValue s v (.str (a ++ '.' :: b ++ '.' :: c)) := ⟨_, rfl⟩
            have es1 : s.setObj v { s.heap v with value := .str (a ++ '.' :: b ++ '.' :: c) } = s1 := hs1.symm
            have fD : termFindFirst s1 v (py!"Version.Build") = .ok (some d) := by
              have := localName_version (s := s1) (v := v) (by rw [hs1]; exact isVersion_withValue iv _ _) (k := py!"Build") (by decide)
              rw [hs1, childNamed_withValue, ← hs1, hd] at this
              exact this
            have eD : fmtVal (s1.heap d).value = .error .unmodelled := by
              rw [hs1, withValue_heap, if_neg (iv.notSelf (by decide) hd).1]
              unfold fmtVal; rw [td]
            unfold versionString at h
            simp only [bind_run, lift_run, fA, fB, fC, eA, eB, eC, upd_run, es1, fD, eD] at h
            cases h

theorem updateVersion_parts {s : St} {v : Nat} (hv : versionTerm s = .ok (some v)) (iv : IsVersion s v) (hc : CanPart s)
    (hp : HasPart s.heap v) : updateVersion s = versionString v (partsDone s v) := by
  obtain ⟨s1, h1⟩ : ∃ s1, s1 = partDone s v (py!"Major") := ⟨_, rfl⟩
  obtain ⟨s2, h2⟩ : ∃ s2, s2 = partDone s1 v (py!"Minor") := ⟨_, rfl⟩
  have e3 : partsDone s v = partDone s2 v (py!"Patch") := by unfold partsDone; rw [h2, h1]
  have c1 : CanPart s1 := by rw [h1]; exact partDone_canPart hc
  have c2 : CanPart s2 := by rw [h2]; exact partDone_canPart c1
  have i1 : IsVersion s1 v := by rw [h1]; exact partDone_isVersion iv (hc.cls _ (by decide))
  have i2 : IsVersion s2 v := by rw [h2]; exact partDone_isVersion i1 (c1.cls _ (by decide))
  have f : ∀ {k}, '.' ∉ k → termFindFirst s v (dotJoin (py!"Version") k) = .ok (childNamed s v k .fls) := fun hk => localName_version iv hk
  have fA : termFindFirst s v (py!"Version.Major") = _ := f (k := py!"Major") (by decide)
  have fB : termFindFirst s v (py!"Version.Minor") = _ := f (k := py!"Minor") (by decide)
  have fC : termFindFirst s v (py!"Version.Patch") = _ := f (k := py!"Patch") (by decide)
  have hsome : ¬ ((childNamed s v (py!"Major") .fls).isNone && (childNamed s v (py!"Minor") .fls).isNone && (childNamed s v (py!"Patch") .fls).isNone) = true := by
    obtain ⟨k, hk, c, hcc⟩ := hp
    have := childNamed_some.2 hcc
    simp only [versionParts, List.mem_cons, List.not_mem_nil, or_false] at hk
    rcases hk with rfl | rfl | rfl <;> rw [this] <;> simp
  have p1 : versionPart v (py!"Version.Major") (childNamed s v (py!"Major") .fls) s = .ok () s1 := by
    rw [h1]; exact versionPart_run iv hc (partName (k := py!"Major") (by decide))
  have p2 : versionPart v (py!"Version.Minor") (childNamed s v (py!"Minor") .fls) s1 = .ok () s2 := by
    have : childNamed s v (py!"Minor") .fls = childNamed s1 v (py!"Minor") .fls := by rw [h1, partDone_other iv (by decide)]
    rw [h2, this]; exact versionPart_run i1 c1 (partName (k := py!"Minor") (by decide))
  have p3 : versionPart v (py!"Version.Patch") (childNamed s v (py!"Patch") .fls) s2 = .ok () (partsDone s v) := by
    have : childNamed s v (py!"Patch") .fls = childNamed s2 v (py!"Patch") .fls := by
      rw [h2, partDone_other i1 (by decide), h1, partDone_other iv (by decide)]
    rw [e3, this]; exact versionPart_run i2 c2 (partName (k := py!"Patch") (by decide))
  unfold updateVersion
  rw [bind_run, lift_run, hv]
  simp only [bind_run, lift_run, fA, fB, fC, ite_run]
  rw [if_neg hsome]
  simp only [p1, p2, p3]

theorem updateVersion_plain {s : St} {v : Nat} (hv : versionTerm s = .ok (some v)) (iv : IsVersion s v) (hp : ¬ HasPart s.heap v) :
    updateVersion s = .ok (s.heap v).value s := by
  have f : ∀ {k}, k ∈ versionParts → '.' ∉ k → termFindFirst s v (dotJoin (py!"Version") k) = .ok none := by
    intro k hk hdot
    rw [localName_version iv hdot, childNamed_none.2]
    rcases first_or_none s.heap v k with ⟨c, hc⟩ | hn
    · exact absurd ⟨k, hk, c, hc⟩ hp
    · exact hn
  have fA : termFindFirst s v (py!"Version.Major") = _ := f (k := py!"Major") (by decide) (by decide)
  have fB : termFindFirst s v (py!"Version.Minor") = _ := f (k := py!"Minor") (by decide) (by decide)
  have fC : termFindFirst s v (py!"Version.Patch") = _ := f (k := py!"Patch") (by decide) (by decide)
  unfold updateVersion
  rw [bind_run, lift_run, hv]
  simp only [bind_run, lift_run, fA, fB, fC, ite_run, Option.isNone_none, Bool.and_self, if_true, obj_run, pure_run]

/-- What is known about the version after `update_version` returned `r`. -/
inductive Settled (s : St) : Val → Prop
  | none : versionTerm s = .ok none → Settled s .none
  | plain {v : Nat} : versionTerm s = .ok (some v) → IsVersion s v → ¬ HasPart s.heap v → Settled s (s.heap v).value
  | parts {v : Nat} {a b c x : Str} : versionTerm s = .ok (some v) → IsVersion s v → PartsThere s v → Complete s v a b c x →
    (s.heap v).value = .str x → Settled s (.str x)

theorem settled_run {s : St} {r : Val} (h : Settled s r) (hc : CanPart s) : updateVersion s = .ok r s := by
  cases h with
  | none h => unfold updateVersion; rw [bind_run, lift_run, h]; rfl
  | plain hv iv hp => exact updateVersion_plain hv iv hp
  | @parts v a b c x hv iv hp hcomp hx =>
    obtain ⟨A, hA, -⟩ := hp (py!"Major") (by decide)
    rw [updateVersion_parts hv iv hc ⟨py!"Major", by decide, A, childNamed_some.1 hA⟩, partsDone_done hp, versionString_run iv hcomp,
      withValue_self hx]

theorem updateVersion_wf {s s' : St} {r : Val} (w : WF True s) (h : updateVersion s = .ok r s') : WF True s' := by
  have st := after_steps (tri_updateVersion (C := Cap.all True) (Cap.all_good True s.next)) w
  unfold after at st
  rw [h] at st
  exact st.wf w

/-- The names of the version and its parts. -/
def versionNames : List Str := [py!"version", py!"major", py!"minor", py!"patch"]

/-- Only values of versions and their parts change, and only terms with these names are added. -/
structure VersionOnly (s s' : St) : Prop where
  find : SameFind s s'
  value : ∀ j, j < s.next → lower (s.heap j).rt ∉ versionNames → (s'.heap j).value = (s.heap j).value
  tables : s'.declTerms = s.declTerms ∧ s'.classes = s.classes ∧ s'.superTerms = s.superTerms

theorem VersionOnly.refl (s : St) : VersionOnly s s := ⟨.refl s, fun _ _ _ => rfl, rfl, rfl, rfl⟩
theorem VersionOnly.trans {a b c : St} (h : VersionOnly a b) (k : VersionOnly b c) : VersionOnly a c := by
  refine ⟨h.find.trans k.find, fun j hj hn => ?_, k.tables.1.trans h.tables.1, k.tables.2.1.trans h.tables.2.1, k.tables.2.2.trans h.tables.2.2⟩
  rw [k.value j (Nat.lt_of_lt_of_le hj h.find.next) (by rw [(h.find.names j hj).2.1]; exact hn), h.value j hj hn]

theorem versionOnly_value {s : St} {c : Nat} (hc : (s.heap c).cls.isSection = false) (hn : lower (s.heap c).rt ∈ versionNames) (v : Val) :
    VersionOnly s (withValue s c v) := by
  refine ⟨sameFind_value hc v, fun j _ hj => ?_, rfl, rfl, rfl⟩
  rw [withValue_heap, if_neg]
  rintro rfl
  exact hj hn

theorem versionOnly_part {s : St} {v : Nat} (iv : IsVersion s v) {k : Str} (hk : k ∈ versionParts) : VersionOnly s (partDone s v k) := by
  have hl : lower k ∈ versionNames := by
    simp only [versionParts, List.mem_cons, List.not_mem_nil, or_false] at hk
    rcases hk with rfl | rfl | rfl <;> decide
  refine ⟨partDone_same iv k, fun j hj hn => partDone_value hj fun e => hn ?_, ?_⟩
  · obtain ⟨_, _, _, h2, -⟩ := childNamed_some.1 e
    rw [h2]; exact hl
  · unfold partDone
    cases childNamed s v k .fls with
    | some c => simp only; split <;> exact ⟨rfl, rfl, rfl⟩
    | none => exact ⟨rfl, rfl, rfl⟩

theorem versionOnly_parts {s : St} {v : Nat} (iv : IsVersion s v) (hc : CanPart s) : VersionOnly s (partsDone s v) := by
  have i1 := partDone_isVersion (k := py!"Major") iv (hc.cls _ (by decide))
  have c1 := partDone_canPart (v := v) (k := py!"Major") hc
  have i2 := partDone_isVersion (k := py!"Minor") i1 (c1.cls _ (by decide))
  exact ((versionOnly_part iv (by decide)).trans (versionOnly_part i1 (by decide))).trans (versionOnly_part i2 (by decide))

theorem VersionOnly.canPart {s s' : St} (h : VersionOnly s s') (hc : CanPart s) : CanPart s' := by
  have e : ∀ n, docTermClass s' n = docTermClass s n := by
    intro n; unfold docTermClass; rw [h.tables.2.1, h.tables.2.2]
  exact ⟨fun k hk => by rw [e]; exact hc.cls k hk, fun k hk => by rw [h.tables.1]; exact hc.tvn k hk⟩

/-- `update_version` leaves the version settled; if its parts were there, only the value of the version changes. -/
theorem updateVersion_inv {s s' : St} {r : Val} (w : WF True s) (hd : s.derived.get? (py!"root.version") = none) (hc : CanPart s)
    (h : updateVersion s = .ok r s') :
    Settled s' r ∧ VersionOnly s s' ∧ ((∀ v, versionTerm s = .ok (some v) → HasPart s.heap v → PartsThere s v) → OnlyValues s s') := by
  cases hv : versionTerm s with
  | error e => unfold updateVersion at h; rw [bind_run, lift_run, hv] at h; cases h
  | ok a =>
    cases a with
    | none => rw [C42_none hv] at h; cases h; exact ⟨.none hv, .refl s, fun _ => .refl s⟩
    | some v =>
      have iv := versionTerm_isVersion w hd hv
      by_cases hp : HasPart s.heap v
      · rw [updateVersion_parts hv iv hc hp] at h
        obtain ⟨k1, k2, k3, k4⟩ := partsDone_there iv hc
        obtain ⟨a, b, c, x, hcomp, rfl, rfl⟩ := versionString_inv k2 k1 h
        have hval : ((withValue (partsDone s v) v (.str x)).heap v).value = .str x := by rw [withValue_heap, if_pos rfl]
        have hin : lower ((partsDone s v).heap v).rt ∈ versionNames := by rw [k2.rt]; decide
        refine ⟨?_, (versionOnly_parts iv hc).trans (versionOnly_value k2.cls hin _), fun hthere => ?_⟩
        · refine .parts (v := v) ?_ (isVersion_withValue k2 v _) ?_ (complete_withValue k2 hcomp _) hval
          · rw [versionTerm_same w (k4.trans (sameFind_value k2.cls _)) hd]; exact hv
          · intro k hk
            obtain ⟨c, h1, h2⟩ := k1 k hk
            refine ⟨c, by rw [childNamed_withValue]; exact h1, ?_⟩
            rw [withValue_heap, if_neg (k2.notSelf (partName hk).notVersion h1).1]
            exact h2
        · rw [partsDone_done (hthere v rfl hp)]
          exact onlyValues_value iv.cls _
      · rw [updateVersion_plain hv iv hp] at h
        cases h
        exact ⟨.plain hv iv hp, .refl s, fun _ => .refl s⟩

theorem Settled.there {s : St} {r : Val} (h : Settled s r) : ∀ v, versionTerm s = .ok (some v) → HasPart s.heap v → PartsThere s v := by
  intro v hv hp
  cases h with
  | none h => rw [h] at hv; cases hv
  | plain h1 _ h3 => rw [h1] at hv; cases hv; exact absurd hp h3
  | parts h1 _ h3 => rw [h1] at hv; cases hv; exact h3

/-- Setting the value of a term that is no part of a version leaves the version settled. -/
theorem settled_withValue {s : St} {r : Val} (w : WF True s) (hd : s.derived.get? (py!"root.version") = none) (h : Settled s r) {t : Nat}
    (ht : (s.heap t).cls.isSection = false) (hn : lower (s.heap t).rt ∉ py!"build" :: versionNames) (y : Val) : Settled (withValue s t y) r := by
  have hvt := versionTerm_same w (sameFind_value ht y) hd
  have kid : ∀ {v k c}, lower k ∈ py!"build" :: versionNames → childNamed s v k .fls = some c → ((Spec.withValue s t y).heap c).value = (s.heap c).value := by
    intro v k c hk hc
    rw [withValue_heap, if_neg]
    rintro rfl
    obtain ⟨_, _, _, h2, -⟩ := childNamed_some.1 hc
    rw [h2] at hn; exact hn hk
  have hself : ∀ {v}, IsVersion s v → ((Spec.withValue s t y).heap v).value = (s.heap v).value := by
    intro v iv
    rw [withValue_heap, if_neg]
    rintro rfl
    rw [iv.rt] at hn; exact hn (by decide)
  cases h with
  | none h => exact .none (hvt.trans h)
  | @plain v h1 iv h3 =>
    rw [← hself iv]
    refine .plain (hvt.trans h1) (isVersion_withValue iv t y) ?_
    rintro ⟨k, hk, c, hc⟩
    have := childNamed_some.2 hc
    rw [childNamed_withValue] at this
    exact h3 ⟨k, hk, c, childNamed_some.1 this⟩
  | @parts v a b c x h1 iv h3 h4 h5 =>
    obtain ⟨A, B, C, hA, hB, hC, nA, nB, nC, ta, tb, tc, hbuild⟩ := h4.parts
    refine .parts (a := a) (b := b) (c := c) (hvt.trans h1) (isVersion_withValue iv t y) ?_ ⟨A, B, C, ?_⟩ (by rw [hself iv]; exact h5)
    · intro k hk
      obtain ⟨c, e1, e2⟩ := h3 k hk
      refine ⟨c, by rw [childNamed_withValue]; exact e1, ?_⟩
      rw [kid ?_ e1]; exact e2
      simp only [versionParts, List.mem_cons, List.not_mem_nil, or_false] at hk
      rcases hk with rfl | rfl | rfl <;> decide
    · rw [childNamed_withValue, childNamed_withValue, childNamed_withValue, childNamed_withValue, kid (by decide) hA, kid (by decide) hB,
        kid (by decide) hC]
      refine ⟨hA, hB, hC, nA, nB, nC, ta, tb, tc, ?_⟩
      rcases hbuild with hb | ⟨d, u, e1, e2, e3⟩
      · exact .inl hb
      · exact .inr ⟨d, u, e1, by rw [kid (by decide) e1]; exact e2, e3⟩

theorem bind_ok {α β : Type} {m : M α} {f : α → M β} {s s2 : St} {b : β} :
    (m >>= f) s = .ok b s2 ↔ ∃ a s1, m s = .ok a s1 ∧ f a s1 = .ok b s2 := by
  rw [bind_run]
  cases m s <;> simp

theorem lift_ok {α : Type} {f : St → Except Err α} {s s' : St} {a : α} : M.lift f s = .ok a s' ↔ f s = .ok a ∧ s' = s := by
  rw [lift_run]
  cases f s <;> simp [eq_comm]

/-- `_generate_identity_name` step by step. -/
theorem identityName_ok {mod : ModVer} {s s' : St} {r : Str} : identityName mod s = .ok r s' ↔
    ∃ vals, nameTerms.mapM (fun n => findFirstValue s n .fls (some [py!"Root"])) = .ok vals ∧ ∃ r1 s1, updateVersion s = .ok r1 s1 ∧
      ∃ sv, hasSemver s1 = .ok sv ∧ ∃ x, getSection s1 (py!"Root") = .ok x ∧
      ∃ mv0, termGetValue s1 x (if sv then py!"Version.Patch" else py!"Version") = .ok mv0 ∧ ∃ mv, moddedVersion mv0 mod = .ok mv ∧
      ∃ ver, ((mv = .none ∧ ver = .none ∧ s' = s1) ∨ (mv ≠ .none ∧ ∃ t, sectionFindFirst s1 x (if sv then py!"Version.Patch" else py!"Version") = .ok (some t) ∧
          updateVersion (withValue s1 t mv) = .ok ver s')) ∧
      ∃ ps, nameParts s'.env.nfkd (vals ++ [ver]) = .ok ps ∧ r = join (py!"-") ps := by
  have tail : ∀ {vals : List Val} {ver : Val} {s : St}, (do
      let s ← M.get
      let parts ← M.lift fun _ => nameParts s.env.nfkd (vals ++ [ver])
      return join (py!"-") parts : M Str) s = .ok r s' ↔ s' = s ∧ ∃ ps, nameParts s'.env.nfkd (vals ++ [ver]) = .ok ps ∧ r = join (py!"-") ps := by
    intro vals ver s
    simp only [bind_run, get_run, lift_run, pure_run]
    constructor
    · intro h
      cases hp : nameParts s.env.nfkd (vals ++ [ver]) with
      | error e => rw [hp] at h; cases h
      | ok ps => rw [hp] at h; cases h; exact ⟨rfl, ps, hp, rfl⟩
    · rintro ⟨rfl, ps, h1, rfl⟩
      rw [h1]
  unfold identityName
  simp only [bind_ok, lift_ok]
  constructor
  · rintro ⟨vals, _, ⟨h1, rfl⟩, r1, s1, h2, sv, _, ⟨h3, rfl⟩, x, _, ⟨h4, rfl⟩, mv0, _, ⟨h5, rfl⟩, mv, _, ⟨h6, rfl⟩, h⟩
    refine ⟨vals, h1, r1, _, h2, sv, h3, x, h4, mv0, h5, mv, h6, ?_⟩
    by_cases hm : mv = .none
    · rw [if_pos hm] at h
      obtain ⟨ver, _, h7, h⟩ := bind_ok.1 h
      rw [pure_run] at h7
      cases h7
      obtain ⟨e, h⟩ := tail.1 h
      exact ⟨.none, .inl ⟨hm, rfl, e⟩, h⟩
    · rw [if_neg hm] at h
      obtain ⟨t, _, h7, h⟩ := bind_ok.1 h
      obtain ⟨h7, rfl⟩ := lift_ok.1 h7
      cases t with
      | none => simp only [bind_run, raise_run] at h; cases h
      | some t =>
        obtain ⟨_, _, h8, h⟩ := bind_ok.1 h
        rw [upd_run] at h8
        cases h8
        obtain ⟨ver, _, h9, h⟩ := bind_ok.1 h
        obtain ⟨rfl, k⟩ := tail.1 h
        exact ⟨ver, .inr ⟨hm, t, h7, h9⟩, k⟩
  · rintro ⟨vals, h1, r1, s1, h2, sv, h3, x, h4, mv0, h5, mv, h6, ver, h, h10⟩
    refine ⟨vals, _, ⟨h1, rfl⟩, r1, s1, h2, sv, _, ⟨h3, rfl⟩, x, _, ⟨h4, rfl⟩, mv0, _, ⟨h5, rfl⟩, mv, _, ⟨h6, rfl⟩, ?_⟩
    rcases h with ⟨hm, rfl, rfl⟩ | ⟨hm, t, h7, h8⟩
    · rw [if_pos hm]
      exact bind_ok.2 ⟨.none, _, rfl, tail.2 ⟨rfl, h10⟩⟩
    · rw [if_neg hm]
      refine bind_ok.2 ⟨some t, _, lift_ok.2 ⟨h7, rfl⟩, ?_⟩
      exact bind_ok.2 ⟨(), _, upd_run .., bind_ok.2 ⟨ver, _, h8, tail.2 ⟨rfl, h10⟩⟩⟩

/-! ## C43: what the name is made of -/

/-- What a value contributes to the name: nothing if it is empty or blank, else the slug of its text with `_` for `-`. -/
def _root_.Spec.NamePart (nfkd : Str → Str) (v : Val) : Option Str :=
  match v.toStr with
  | some x => if v.truthy ∧ strip x ≠ [] then some (slugify nfkd (x.map fun c => if c = '-' then '_' else c)) else none
  | none => none

theorem replace_dash (x : Str) : replace (py!"-") (py!"_") x = x.map fun c => if c = '-' then '_' else c := by
  unfold replace
  induction x with
  | nil => rfl
  | cons c x ih =>
    rw [replaceGo, List.map_cons]
    by_cases h : c = '-'
    · subst h
      rw [if_pos (by simp), if_pos rfl]
      exact congrArg _ ih
    · rw [if_neg (by simp only [List.isPrefixOf, Bool.and_true, beq_iff_eq]; exact fun e => h e.symm), if_neg h, ih]

theorem nameParts_ok {nfkd : Str → Str} {l : List Val} {ps : List Str} (h : nameParts nfkd l = .ok ps) : ps = l.filterMap (Spec.NamePart nfkd) := by
  induction l generalizing ps with
  | nil => cases h; rfl
  | cons v l ih =>
    rw [nameParts] at h
    by_cases ht : v.truthy
    · rw [if_pos ht] at h
      cases hx : v.toStr with
      | none => unfold fmtVal at h; rw [hx] at h; cases h
      | some x =>
        unfold fmtVal at h; rw [hx] at h
        cases hr : nameParts nfkd l with
        | error e => rw [hr] at h; cases h
        | ok rest =>
          rw [hr] at h
          have e := ih hr
          have h : (if strip x ≠ [] then slugify nfkd (replace (py!"-") (py!"_") x) :: rest else rest) = ps := by
            simpa [bind, Except.bind, pure, Except.pure] using h
          rw [List.filterMap_cons, ← h, ← e]
          unfold Spec.NamePart
          rw [hx]
          simp only [ht, true_and, replace_dash]
          split <;> rfl
    · rw [if_neg ht] at h
      rw [List.filterMap_cons, ih h]
      unfold Spec.NamePart
      cases v.toStr <;> simp [ht]

/-- The values of the naming terms: what `find_first_value` gives for the section `Root`. -/
structure NameValues (s : St) (o d t p g v : Val) : Prop where
  origin : findFirstValue s (py!"Root.Origin") .fls (some [py!"Root"]) = .ok o
  dataset : findFirstValue s (py!"Root.Dataset") .fls (some [py!"Root"]) = .ok d
  time : findFirstValue s (py!"Root.Time") .fls (some [py!"Root"]) = .ok t
  space : findFirstValue s (py!"Root.Space") .fls (some [py!"Root"]) = .ok p
  grain : findFirstValue s (py!"Root.Grain") .fls (some [py!"Root"]) = .ok g
  variant : findFirstValue s (py!"Root.Variant") .fls (some [py!"Root"]) = .ok v

theorem nameTerms_ok {s : St} {vals : List Val} (h1 : nameTerms.mapM (fun n => findFirstValue s n .fls (some [py!"Root"])) = .ok vals) :
    ∃ o d t p g v, NameValues s o d t p g v ∧ vals = [o, d, t, p, g, v] := by
  simp only [nameTerms, List.mapM_cons, List.mapM_nil] at h1
  cases ho : findFirstValue s (py!"Root.Origin") .fls (some [py!"Root"]) with
  | error e => rw [ho] at h1; cases h1
  | ok o =>
  cases hd : findFirstValue s (py!"Root.Dataset") .fls (some [py!"Root"]) with
  | error e => rw [ho, hd] at h1; cases h1
  | ok d =>
  cases ht : findFirstValue s (py!"Root.Time") .fls (some [py!"Root"]) with
  | error e => rw [ho, hd, ht] at h1; cases h1
  | ok t =>
  cases hp : findFirstValue s (py!"Root.Space") .fls (some [py!"Root"]) with
  | error e => rw [ho, hd, ht, hp] at h1; cases h1
  | ok p =>
  cases hg : findFirstValue s (py!"Root.Grain") .fls (some [py!"Root"]) with
  | error e => rw [ho, hd, ht, hp, hg] at h1; cases h1
  | ok g =>
  cases hv : findFirstValue s (py!"Root.Variant") .fls (some [py!"Root"]) with
  | error e => rw [ho, hd, ht, hp, hg, hv] at h1; cases h1
  | ok v =>
    rw [ho, hd, ht, hp, hg, hv] at h1
    exact ⟨o, d, t, p, g, v, ⟨ho, hd, ht, hp, hg, hv⟩, by simpa [bind, Except.bind, pure, Except.pure, eq_comm] using h1⟩

/-- **C43.** The name is the list of the parts that the values of origin, dataset, time, space, grain, variant and the version give, joined
with `-`. The version is left out or is what the last `update_version` returned. -/
theorem C43_parts {mod : ModVer} {s s' : St} {r : Str} (h : identityName mod s = .ok r s') :
    ∃ o d t p g v ver, NameValues s o d t p g v ∧ (ver = .none ∨ ∃ s1, updateVersion s1 = .ok ver s') ∧
      r = join (py!"-") ([o, d, t, p, g, v, ver].filterMap (Spec.NamePart s'.env.nfkd)) := by
  obtain ⟨vals, h1, r1, s1, -, sv, -, x, -, mv0, -, mv, -, ver, h2, ps, h3, rfl⟩ := identityName_ok.1 h
  obtain ⟨o, d, t, p, g, v, hn, rfl⟩ := nameTerms_ok h1
  refine ⟨o, d, t, p, g, v, ver, hn, ?_, by rw [nameParts_ok h3]; rfl⟩
  rcases h2 with ⟨-, h2, -⟩ | ⟨-, t, -, h2⟩
  · exact .inl h2
  · exact .inr ⟨_, h2⟩

theorem mem_joined {sep : Str} {l : List Str} {c : Char} (h : c ∈ join sep l) : c ∈ sep ∨ ∃ x ∈ l, c ∈ x := by
  induction l with
  | nil => cases h
  | cons a l ih =>
    cases l with
    | nil => exact .inr ⟨a, by simp, by simpa [join] using h⟩
    | cons b l =>
      rw [join] at h
      simp only [List.mem_append] at h
      rcases h with (h | h) | h
      · exact .inr ⟨a, by simp, h⟩
      · exact .inl h
      · rcases ih h with h | ⟨x, h1, h2⟩
        · exact .inl h
        · exact .inr ⟨x, List.mem_cons_of_mem _ h1, h2⟩

/-- **C43.** The name consists of slug characters. -/
theorem C43_chars {mod : ModVer} {s s' : St} {r : Str} (h : identityName mod s = .ok r s') : ∀ c ∈ r, SlugChar c := by
  obtain ⟨_, _, _, _, _, _, _, -, -, rfl⟩ := C43_parts h
  intro c hc
  rcases mem_joined hc with hc | ⟨x, hx, hc⟩
  · exact .inr (.inr (.inr (.inr (List.mem_singleton.1 hc))))
  · obtain ⟨v, -, hv⟩ := List.mem_filterMap.1 hx
    unfold Spec.NamePart at hv
    split at hv
    · split at hv
      · rw [← Option.some.inj hv] at hc
        exact C03_chars _ _ c hc
      · cases hv
    · cases hv

/-! ### The version in the name -/

/-- What is found has the name searched for. -/
theorem find_rt {s : St} {A B : Str} (hA : PlainPart A) (hB : PlainPart B) (hb : B ≠ py!"*")
    (hd : s.derived.get? (lower (dotJoin A B)) = none) {sec : Option (List Str)} {l : List Nat}
    (h : find s (dotJoin A B) .fls sec = .ok l) : ∀ t ∈ l, lower (s.heap t).rt = lower B := by
  intro t ht
  have hdot : ¬ '.' ∉ lower (dotJoin A B) := by rw [not_not, dot_mem_lower]; simp [dotJoin]
  unfold find at h
  rw [hd] at h
  simp only [findOne, if_neg hdot, bind, Except.bind] at h
  obtain ⟨gen, hg⟩ : ∃ gen, filterE (findTest s (lower (dotJoin A B)) .fls sec) gen = .ok l := by
    split at h
    · exact ⟨_, h⟩
    · cases ha : allTerms s with
      | error e => rw [ha] at h; cases h
      | ok gen => rw [ha] at h; exact ⟨gen, h⟩
  obtain ⟨-, p⟩ := filterE_mem hg t ht
  unfold findTest at p
  simp only [pure, Except.pure] at p
  split at p
  · cases p
  · split at p
    · cases p
    · have hlow : lower (dotJoin A B) = lower A ++ '.' :: lower B := by simp [dotJoin]; decide
      have lowPlain : ∀ {a : Str}, PlainPart a → PlainPart (lower a) := fun h => ⟨by simpa using h.nodot, by simpa using h.nonempty, by
        rw [strip_lower, h.stripped]⟩
      rw [hlow, C02_qualified _ _ (lowPlain hA) (lowPlain hB)] at p
      simp only [bind, Except.bind] at p
      split at p
      · cases p
      · next hn =>
        have hm : PartMatches (lower A) (s.heap t).pt ∧ PartMatches (lower B) (s.heap t).rt := by
          by_contra hc
          exact hn (by simp [hc])
        unfold PartMatches at hm
        rcases hm.2 with h2 | h2
        · exact absurd (plain_star_lower.1 h2) hb
        · rw [lower_lower] at h2; exact h2.symm

theorem find_version {s : St} (h1 : s.derived.get? (py!"version") = none) (h2 : s.derived.get? (py!"root.version") = none) (v : Val) (sec : Option (List Str)) :
    find s (py!"Version") v sec = find s (py!"Root.Version") v sec := by
  unfold find
  rw [show lower (py!"Version") = py!"version" by decide, h1, show lower (py!"Root.Version") = py!"root.version" by decide, h2]
  rfl

theorem sectionFindFirst_version {s : St} (h1 : s.derived.get? (py!"version") = none) (h2 : s.derived.get? (py!"root.version") = none) {x : Nat}
    (hx : getSection s (py!"Root") = .ok x) : sectionFindFirst s x (py!"Version") = versionTerm s := by
  unfold versionTerm sectionFindFirst findFirst
  rw [hx]
  simp only [find_version h1 h2]
  rfl

theorem getValue_section {s : St} {x : Nat} (hx : (s.heap x).cls.isSection = true) {n : Str} {v : Val} (h : termGetValue s x n = .ok v) :
    (sectionFindFirst s x n = .ok none ∧ v = .none) ∨ (∃ t, sectionFindFirst s x n = .ok (some t) ∧ v = (s.heap t).value) ∨
      (v = .none ∧ (sectionFindFirst s x n = .error .keyError ∨ sectionFindFirst s x n = .error .attributeError)) := by
  unfold termGetValue getItem at h
  rw [if_pos hx] at h
  split at h
  · next c hc => exact .inr (.inl ⟨c, hc, by cases h; rfl⟩)
  · next hc => exact .inl ⟨hc, by cases h; rfl⟩
  · next hc => exact .inr (.inr ⟨by cases h; rfl, .inl hc⟩)
  · next hc => exact .inr (.inr ⟨by cases h; rfl, .inr hc⟩)
  · cases h

theorem getSection_section {F : Prop} {s : St} (w : WF F s) {n : Str} {x : Nat} (h : getSection s n = .ok x) : (s.heap x).cls.isSection = true := by
  unfold getSection at h
  split at h
  · next y hy => cases h; exact (w.secsLt _ (Dict.mem_of_get? hy)).2.1
  · cases h

/-- Asking for the name without changing the version does what `update_version` does. -/
theorem identityName_keep {s s' : St} {r : Str} (w : WF True s) (hd : s.derived.get? (py!"root.version") = none) (hc : CanPart s) {mod : ModVer}
    (hmod : mod = .keep ∨ mod = .drop) (h : identityName mod s = .ok r s') : ∃ r1, updateVersion s = .ok r1 s' ∧ Settled s' r1 ∧ VersionOnly s s' := by
  obtain ⟨vals, h1, r1, s1, h2, sv, h3, x, h4, mv0, h5, mv, h6, ver, h7, ps, h8, h9⟩ := identityName_ok.1 h
  obtain ⟨st, vo, -⟩ := updateVersion_inv w hd hc h2
  have w1 := updateVersion_wf w h2
  rcases h7 with ⟨-, -, rfl⟩ | ⟨hm, t, ht, hu⟩
  · exact ⟨r1, h2, st, vo⟩
  · rcases hmod with rfl | rfl
    · cases h6
      rcases getValue_section (getSection_section w1 h4) h5 with ⟨-, e⟩ | ⟨t', ht', e⟩ | ⟨e, -⟩
      · exact absurd e hm
      · rw [ht] at ht'
        cases ht'
        rw [withValue_self e.symm, settled_run st (vo.canPart hc)] at hu
        cases hu
        exact ⟨r1, h2, st, vo⟩
      · exact absurd e hm
    · cases h6
      exact absurd rfl hm

theorem hasSemver_iff {s : St} {v : Nat} (hv : versionTerm s = .ok (some v)) (iv : IsVersion s v) {b : Bool} (h : hasSemver s = .ok b) :
    b = true ↔ HasPart s.heap v := by
  have f : ∀ {k}, '.' ∉ k → termFindFirst s v (dotJoin (py!"Version") k) = .ok (childNamed s v k .fls) := fun hk => localName_version iv hk
  have fA : termFindFirst s v (py!"Version.Major") = _ := f (k := py!"Major") (by decide)
  have fB : termFindFirst s v (py!"Version.Minor") = _ := f (k := py!"Minor") (by decide)
  have fC : termFindFirst s v (py!"Version.Patch") = _ := f (k := py!"Patch") (by decide)
  unfold hasSemver at h
  simp only [hv, fA, fB, fC, bind, Except.bind, pure, Except.pure] at h
  have hb : ((childNamed s v (py!"Major") .fls).isSome || (childNamed s v (py!"Minor") .fls).isSome || (childNamed s v (py!"Patch") .fls).isSome) = b := by
    cases h; rfl
  rw [← hb, Bool.or_eq_true, Bool.or_eq_true, Option.isSome_iff_exists, Option.isSome_iff_exists, Option.isSome_iff_exists]
  constructor
  · rintro ((⟨c, h⟩ | ⟨c, h⟩) | ⟨c, h⟩) <;> exact ⟨_, by decide, c, childNamed_some.1 h⟩
  · rintro ⟨k, hk, c, hc⟩
    simp only [versionParts, List.mem_cons, List.not_mem_nil, or_false] at hk
    rcases hk with rfl | rfl | rfl
    · exact .inl (.inl ⟨c, childNamed_some.2 hc⟩)
    · exact .inl (.inr ⟨c, childNamed_some.2 hc⟩)
    · exact .inr ⟨c, childNamed_some.2 hc⟩

/-- What the searches for names need: that no declaration makes the names super-terms of others. -/
structure NoDerived (s : St) : Prop where
  version : s.derived.get? (py!"version") = none
  rootVersion : s.derived.get? (py!"root.version") = none
  patch : s.derived.get? (py!"version.patch") = none

/-- **C43.** If the version is not to be changed, it is in the name as `update_version` gives it. With a semantic version, this needs the
search for the patch to find a value. -/
theorem C43_version {s s' : St} {r : Str} (hr : Reach Op.noAddChild s) (hd : NoDerived s) (hc : CanPart s) (h : identityName .keep s = .ok r s')
    (hp : ∀ x v, getSection s' (py!"Root") = .ok x → versionTerm s' = .ok (some v) → HasPart s'.heap v →
      ∃ t, sectionFindFirst s' x (py!"Version.Patch") = .ok (some t) ∧ (s'.heap t).value ≠ .none) :
    ∃ o d t p g v ver, NameValues s o d t p g v ∧ updateVersion s = .ok ver s' ∧
      r = join (py!"-") ([o, d, t, p, g, v, ver].filterMap (Spec.NamePart s'.env.nfkd)) := by
  have w : WF True s := hr.wf fun _ op ha => ha
  obtain ⟨r1, hu, st, vo⟩ := identityName_keep w hd.rootVersion hc (.inl rfl) h
  obtain ⟨vals, h1, r2, s1, h2, sv, h3, x, h4, mv0, h5, mv, h6, ver, h7, ps, h8, rfl⟩ := identityName_ok.1 h
  rw [hu] at h2
  cases h2
  obtain ⟨o, d, t, p, g, v, hn, rfl⟩ := nameTerms_ok h1
  have w1 := updateVersion_wf w hu
  have d1 : s'.derived.get? (py!"version") = none := by rw [vo.find.derived]; exact hd.version
  have d2 : s'.derived.get? (py!"root.version") = none := by rw [vo.find.derived]; exact hd.rootVersion
  cases h6
  suffices ver = r1 by subst this; exact ⟨o, d, t, p, g, v, ver, hn, hu, by rw [nameParts_ok h8]; rfl⟩
  rcases h7 with ⟨e1, e2, -⟩ | ⟨e1, t, ht, hu'⟩
  · rw [e2]
    rcases getValue_section (getSection_section w1 h4) h5 with ⟨hf, -⟩ | ⟨t', hf, e⟩ | ⟨-, hf⟩
    · cases sv with
      | false =>
        rw [if_neg (by decide), sectionFindFirst_version d1 d2 h4] at hf
        cases st with
        | none => rfl
        | plain h1 => rw [h1] at hf; cases hf
        | parts h1 => rw [h1] at hf; cases hf
      | true =>
        cases st with
        | none hv => unfold hasSemver at h3; rw [hv] at h3
        | plain hv iv hn => exact absurd ((hasSemver_iff hv iv h3).1 rfl) hn
        | parts hv iv h6 h7 =>
          obtain ⟨t, ht, -⟩ := hp x _ h4 hv ((hasSemver_iff hv iv h3).1 rfl)
          rw [if_pos rfl, ht] at hf; cases hf
    · cases sv with
      | false =>
        rw [if_neg (by decide), sectionFindFirst_version d1 d2 h4] at hf
        cases st with
        | none => rfl
        | plain h1 => rw [h1] at hf; cases hf; rw [← e, e1]
        | parts h1 iv h6 h7 h8 => rw [h1] at hf; cases hf; rw [← h8, ← e, e1]
      | true =>
        cases st with
        | none hv => unfold hasSemver at h3; rw [hv] at h3
        | plain hv iv hn => exact absurd ((hasSemver_iff hv iv h3).1 rfl) hn
        | parts hv iv h6 h7 =>
          obtain ⟨t, ht, hne⟩ := hp x _ h4 hv ((hasSemver_iff hv iv h3).1 rfl)
          rw [if_pos rfl, ht] at hf; cases hf
          exact absurd (e.symm.trans e1) hne
    · cases sv with
      | false =>
        rw [if_neg (by decide), sectionFindFirst_version d1 d2 h4] at hf
        cases st with
        | none h1 => rfl
        | plain h1 => rw [h1] at hf; rcases hf with hf | hf <;> cases hf
        | parts h1 => rw [h1] at hf; rcases hf with hf | hf <;> cases hf
      | true =>
        cases st with
        | none hv => unfold hasSemver at h3; rw [hv] at h3
        | plain hv iv hn => exact absurd ((hasSemver_iff hv iv h3).1 rfl) hn
        | parts hv iv h6 h7 =>
          obtain ⟨t, ht, -⟩ := hp x _ h4 hv ((hasSemver_iff hv iv h3).1 rfl)
          rw [if_pos rfl, ht] at hf; rcases hf with hf | hf <;> cases hf
  · rcases getValue_section (getSection_section w1 h4) h5 with ⟨-, e⟩ | ⟨t', ht', e⟩ | ⟨e, -⟩
    · exact absurd e e1
    · rw [ht] at ht'
      cases ht'
      rw [withValue_self e.symm, settled_run st (vo.canPart hc)] at hu'
      cases hu'
      rfl
    · exact absurd e e1

end Metatab
