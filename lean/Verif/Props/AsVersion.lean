import Verif.Props.DocName
/-! # C44: version arithmetic of `as_version`; C45: `update_name` is stable -/
namespace Metatab
open Py Spec

/-! ## C44 -/

/-- `m` asks to move the version by `n`: a sign, and a number or nothing, which means 1. -/
inductive _root_.Spec.Moves : Str → Int → Prop
  | up {ds : Str} {n : Int} : pyInt ds = some n → Moves ('+' :: ds) n
  | upOne : Moves (py!"+") 1
  | down {ds : Str} {n : Int} : pyInt ds = some n → Moves ('-' :: ds) (-n)
  | downOne : Moves (py!"-") (-1)

theorem pyInt_nil : pyInt [] = none := by decide

theorem moves_modded {m : Str} {n k : Int} {mv : Val} (hm : Spec.Moves m n) (hk : versionInt mv = .ok k) :
    moddedVersion mv (.to m) = .ok (.str (intStr (k + n))) := by
  cases hm with
  | @up ds n h =>
    have hs : versionStep ds = .ok n := by
      unfold versionStep
      rw [if_neg (by rintro rfl; rw [pyInt_nil] at h; cases h), h]
    simp only [moddedVersion, hk, hs, bind, Except.bind, pure, Except.pure]
  | upOne => simp only [moddedVersion, hk, versionStep, if_true, bind, Except.bind, pure, Except.pure]
  | @down ds n h =>
    have hs : versionStep ds = .ok n := by
      unfold versionStep
      rw [if_neg (by rintro rfl; rw [pyInt_nil] at h; cases h), h]
    simp only [moddedVersion, hk, hs, bind, Except.bind, pure, Except.pure]
    rfl
  | downOne =>
    simp only [moddedVersion, hk, versionStep, if_true, bind, Except.bind, pure, Except.pure]
    rfl

/-- The value is an integer or the text of one; `False` counts as 0. -/
def _root_.Spec.Number (v : Val) (k : Int) : Prop := v = .int k ∨ (∃ x, v = .str x ∧ pyInt x = some k) ∨ (v = .fls ∧ k = 0)

theorem number_int {v : Val} {k : Int} : Spec.Number v k ↔ versionInt v = .ok k := by
  unfold Spec.Number
  cases v with
  | none => simp [versionInt]
  | str x => cases h : pyInt x <;> simp [versionInt, h]
  | int i => simp [versionInt]
  | fls => simp [versionInt, eq_comm]
  | obj i => simp [versionInt]

/-- **C44** for a plain version: the name has the version moved by `n`, and the document too has the version moved. -/
theorem C44_plain_partial {s s' : St} {r m : Str} {n k : Int} {v : Nat} (hr : Reach Op.noAddChild s) (hd : NoDerived s)
    (hv : versionTerm s = .ok (some v)) (hp : ¬ HasPart s.heap v) (hk : Spec.Number (s.heap v).value k) (hm : Spec.Moves m n)
    (h : asVersion (.to m) s = .ok r s') :
    s' = withValue s v (.str (intStr (k + n))) ∧ ∃ o d t p g w, NameValues s o d t p g w ∧
      r = join (py!"-") ([o, d, t, p, g, w, .str (intStr (k + n))].filterMap (Spec.NamePart s.env.nfkd)) := by
  have w : WF True s := hr.wf fun _ op ha => ha
  have iv := versionTerm_isVersion w hd.rootVersion hv
  obtain ⟨vals, h1, r2, s1, h2, sv, h3, x, h4, mv0, h5, mv, h6, ver, h7, ps, h8, rfl⟩ := identityName_ok.1 h
  rw [updateVersion_plain hv iv hp] at h2
  cases h2
  obtain ⟨o, d, t, p, g, y, hn, rfl⟩ := nameTerms_ok h1
  have hsv : sv = false := by
    cases sv with
    | false => rfl
    | true => exact absurd ((hasSemver_iff hv iv h3).1 rfl) hp
  subst hsv
  have hf := sectionFindFirst_version hd.version hd.rootVersion h4
  rw [hv] at hf
  rw [if_neg (by decide)] at h5 h7
  have e : mv0 = (s.heap v).value := by
    rcases getValue_section (getSection_section w h4) h5 with ⟨hf', -⟩ | ⟨t', hf', e⟩ | ⟨-, hf'⟩
    · rw [hf] at hf'; cases hf'
    · rw [hf] at hf'; cases hf'; exact e
    · rw [hf] at hf'; rcases hf' with hf' | hf' <;> cases hf'
  rw [e, moves_modded hm (number_int.1 hk)] at h6
  cases h6
  rcases h7 with ⟨e1, -⟩ | ⟨-, t', ht', hu⟩
  · cases e1
  · rw [hf] at ht'
    cases ht'
    have iv' := isVersion_withValue iv v (.str (intStr (k + n)))
    have hv' : versionTerm (withValue s v (.str (intStr (k + n)))) = .ok (some v) := by
      rw [versionTerm_same w (sameFind_value iv.cls _) hd.rootVersion]; exact hv
    have hp' : ¬ HasPart (withValue s v (.str (intStr (k + n)))).heap v := by
      rintro ⟨k', hk', c, hc⟩
      have := childNamed_some.2 hc
      rw [childNamed_withValue] at this
      exact hp ⟨k', hk', c, childNamed_some.1 this⟩
    rw [updateVersion_plain hv' iv' hp'] at hu
    cases hu
    refine ⟨rfl, o, d, t, p, g, y, hn, ?_⟩
    rw [nameParts_ok h8, withValue_heap, if_pos rfl]
    rfl

/-- **C44.** When the version of the document is neither a number nor the text of one, a version cannot be moved: the call raises. -/
theorem C44_refuses {s : St} {m : Str} {v : Nat} (hr : Reach Op.noAddChild s) (hd : NoDerived s) (hv : versionTerm s = .ok (some v))
    (hp : ¬ HasPart s.heap v) (hk : ∀ k, ¬ Spec.Number (s.heap v).value k) (hm : m.head? = some '+' ∨ m.head? = some '-') :
    ∃ e s', asVersion (.to m) s = .err e s' := by
  cases h : asVersion (.to m) s with
  | err e s' => exact ⟨e, s', rfl⟩
  | ok r s' =>
    exfalso
    have w : WF True s := hr.wf fun _ op ha => ha
    have iv := versionTerm_isVersion w hd.rootVersion hv
    obtain ⟨vals, h1, r2, s1, h2, sv, h3, x, h4, mv0, h5, mv, h6, -⟩ := identityName_ok.1 h
    rw [updateVersion_plain hv iv hp] at h2
    cases h2
    have hsv : sv = false := by
      cases sv with
      | false => rfl
      | true => exact absurd ((hasSemver_iff hv iv h3).1 rfl) hp
    subst hsv
    have hf := sectionFindFirst_version hd.version hd.rootVersion h4
    rw [hv] at hf
    rw [if_neg (by decide)] at h5
    have e : mv0 = (s.heap v).value := by
      rcases getValue_section (getSection_section w h4) h5 with ⟨hf', -⟩ | ⟨t', hf', e⟩ | ⟨-, hf'⟩
      · rw [hf] at hf'; cases hf'
      · rw [hf] at hf'; cases hf'; exact e
      · rw [hf] at hf'; rcases hf' with hf' | hf' <;> cases hf'
    rw [e] at h6
    cases m with
    | nil => rcases hm with hm | hm <;> cases hm
    | cons a ds =>
      have ha : a = '+' ∨ a = '-' := by simpa using hm
      cases hi : versionInt (s.heap v).value with
      | ok k => exact hk k (number_int.2 hi)
      | error e => rcases ha with rfl | rfl <;> simp [moddedVersion, hi, bind, Except.bind] at h6

/-- **C44** for a semantic version: the patch is moved by `n`, in the name and in the document. -/
theorem C44_patch_partial {s s' : St} {r m a b c x : Str} {n k : Int} {v C X : Nat} (hr : Reach Op.noAddChild s) (hd : NoDerived s) (hc : CanPart s)
    (hv : versionTerm s = .ok (some v)) (hcomp : Complete s v a b c x) (hC : childNamed s v (py!"Patch") .fls = some C)
    (hX : getSection s (py!"Root") = .ok X) (hf : sectionFindFirst s X (py!"Version.Patch") = .ok (some C))
    (hk : Spec.Number (s.heap C).value k) (hm : Spec.Moves m n) (h : asVersion (.to m) s = .ok r s') :
    ∃ y, (childNamed s v (py!"Build") .fls = none → y = a ++ '.' :: b ++ '.' :: intStr (k + n)) ∧
      (∀ d u, childNamed s v (py!"Build") .fls = some d → (s.heap d).value.toStr = some u →
        y = a ++ '.' :: b ++ '.' :: intStr (k + n) ++ '.' :: u) ∧
      (s'.heap v).value = .str y ∧ (s'.heap C).value = .str (intStr (k + n)) ∧
      (∀ j, j ≠ v → j ≠ C → s'.heap j = s.heap j) ∧
      ∃ o d t p g w, NameValues s o d t p g w ∧ r = join (py!"-") ([o, d, t, p, g, w, .str y].filterMap (Spec.NamePart s.env.nfkd)) := by
  have w : WF True s := hr.wf fun _ op ha => ha
  have wF : WF False s := hr.wf fun f => f.elim
  have iv := versionTerm_isVersion w hd.rootVersion hv
  obtain ⟨vals, h1, r2, s1, h2, sv, h3, X', h4, mv0, h5, mv, h6, ver, h7, ps, h8, rfl⟩ := identityName_ok.1 h
  obtain ⟨o, d, t, p, g, y, hn, rfl⟩ := nameTerms_ok h1
  obtain ⟨A, B, C', hA, hB, hC', nA, nB, nC, ta, tb, tc, hbuild⟩ := id hcomp.parts
  rw [hC] at hC'
  cases hC'
  have hthere : PartsThere s v := by
    intro k hk
    simp only [versionParts, List.mem_cons, List.not_mem_nil, or_false] at hk
    rcases hk with rfl | rfl | rfl
    · exact ⟨A, hA, nA⟩
    · exact ⟨B, hB, nB⟩
    · exact ⟨C, hC, nC⟩
  have hpart : HasPart s.heap v := ⟨py!"Patch", by decide, C, childNamed_some.1 hC⟩
  rw [updateVersion_parts hv iv hc hpart, partsDone_done hthere, versionString_run iv hcomp] at h2
  cases h2
  obtain ⟨cv, ccls, crt⟩ := iv.notSelf (k := py!"Patch") (by decide) hC
  obtain ⟨av, acls, art⟩ := iv.notSelf (k := py!"Major") (by decide) hA
  obtain ⟨bv, bcls, brt⟩ := iv.notSelf (k := py!"Minor") (by decide) hB
  have ca : A ≠ C := by rintro rfl; rw [art] at crt; revert crt; decide
  have cb : B ≠ C := by rintro rfl; rw [brt] at crt; revert crt; decide
  have ov : OnlyValues s (withValue s v (.str x)) := onlyValues_value iv.cls _
  have hv1 : versionTerm (withValue s v (.str x)) = .ok (some v) := (versionTerm_same w ov.sameFind hd.rootVersion).trans hv
  have iv1 := isVersion_withValue iv v (.str x)
  have hpart1 : HasPart (withValue s v (.str x)).heap v :=
    ⟨py!"Patch", by decide, C, childNamed_some.1 (by rw [childNamed_withValue]; exact hC)⟩
  have hsv : sv = true := (hasSemver_iff hv1 iv1 h3).2 hpart1
  subst hsv
  have h4' : getSection s (py!"Root") = .ok X' := by
    unfold getSection at h4 ⊢; rw [ov.field.2.1] at h4; exact h4
  rw [hX] at h4'
  cases h4'
  have hX1 : ((withValue s v (.str x)).heap X).value = (s.heap X).value := ov.secs X (getSection_section w hX)
  have hf1 : sectionFindFirst (withValue s v (.str x)) X (py!"Version.Patch") = .ok (some C) := by
    rw [← hf]
    unfold sectionFindFirst
    rw [hX1]
    split
    · exact findFirst_values wF ov _ _
    · exact findFirst_values wF ov _ _
    · rfl
  rw [if_pos rfl] at h5 h7
  have hX2 : ((withValue s v (.str x)).heap X).cls.isSection = true := by rw [ov.obj X]; exact getSection_section w hX
  have e : mv0 = (s.heap C).value := by
    rcases getValue_section hX2 h5 with ⟨hf', -⟩ | ⟨t', hf', e⟩ | ⟨-, hf'⟩
    · rw [hf1] at hf'; cases hf'
    · rw [hf1] at hf'; cases hf'; rw [e, withValue_heap, if_neg cv]
    · rw [hf1] at hf'; rcases hf' with hf' | hf' <;> cases hf'
  rw [e, moves_modded hm (number_int.1 hk)] at h6
  cases h6
  rcases h7 with ⟨e1, -⟩ | ⟨-, t', ht', hu⟩
  · cases e1
  · rw [hf1] at ht'
    cases ht'
    obtain ⟨s2, hs2⟩ : ∃ s2, s2 = withValue (withValue s v (.str x)) C (.str (intStr (k + n))) := ⟨_, rfl⟩
    have hC1 : (s.heap C).cls.isSection = false := (iv.kids C ccls).2
    have hC2 : ((withValue s v (.str x)).heap C).cls.isSection = false := by rw [ov.obj C]; exact hC1
    have ov2 : OnlyValues s s2 := ov.trans (by rw [hs2]; exact onlyValues_value hC2 _)
    have hv2 : versionTerm s2 = .ok (some v) := (versionTerm_same w ov2.sameFind hd.rootVersion).trans hv
    have iv2 : IsVersion s2 v := by rw [hs2]; exact isVersion_withValue iv1 C _
    have hc2 : CanPart s2 := by
      obtain ⟨-, -, -, -, -, f1, f2, f3⟩ := ov2.field
      have e : ∀ n, docTermClass s2 n = docTermClass s n := by intro n; unfold docTermClass; rw [f2, f3]
      exact ⟨fun k hk => by rw [e]; exact hc.cls k hk, fun k hk => by rw [f1]; exact hc.tvn k hk⟩
    have k2 : ∀ q, childNamed s2 v q .fls = childNamed s v q .fls := by intro q; rw [hs2, childNamed_withValue, childNamed_withValue]
    have val2 : ∀ j, j ≠ v → j ≠ C → s2.heap j = s.heap j := by
      intro j h1 h2
      rw [hs2, withValue_heap, if_neg h2, withValue_heap, if_neg h1]
    have vC : (s2.heap C).value = .str (intStr (k + n)) := by rw [hs2, withValue_heap, if_pos rfl]
    have hthere2 : PartsThere s2 v := by
      intro k hk
      simp only [versionParts, List.mem_cons, List.not_mem_nil, or_false] at hk
      rcases hk with rfl | rfl | rfl
      · exact ⟨A, (k2 _).trans hA, by rw [val2 A av ca]; exact nA⟩
      · exact ⟨B, (k2 _).trans hB, by rw [val2 B bv cb]; exact nB⟩
      · exact ⟨C, (k2 _).trans hC, by rw [vC]; simp⟩
    have hpart2 : HasPart s2.heap v := ⟨py!"Patch", by decide, C, childNamed_some.1 ((k2 _).trans hC)⟩
    have hb : ∀ {d}, childNamed s v (py!"Build") .fls = some d → s2.heap d = s.heap d := by
      intro d hd
      obtain ⟨dv, -, drt⟩ := iv.notSelf (k := py!"Build") (by decide) hd
      exact val2 d dv (by rintro rfl; rw [crt] at drt; revert drt; decide)
    rw [← hs2, updateVersion_parts hv2 iv2 hc2 hpart2, partsDone_done hthere2] at hu
    obtain ⟨a', b', c', y', hcomp2, rfl, rfl⟩ := versionString_inv iv2 hthere2 hu
    obtain ⟨A', B', C', gA, gB, gC, -, -, -, ua, ub, uc, ubuild⟩ := hcomp2.parts
    rw [k2, hA] at gA; cases gA
    rw [k2, hB] at gB; cases gB
    rw [k2, hC] at gC; cases gC
    rw [val2 A av ca, ta] at ua; cases ua
    rw [val2 B bv cb, tb] at ub; cases ub
    have ec : intStr (k + n) = c' := by
      rw [vC] at uc; exact Option.some.inj uc
    subst ec
    rw [k2] at ubuild
    refine ⟨y', ?_, ?_, by rw [withValue_heap, if_pos rfl], by rw [withValue_heap, if_neg cv, vC], ?_, o, d, t, p, g, y, hn, ?_⟩
    · intro hno
      rcases ubuild with ⟨-, u⟩ | ⟨d, u, h1, -⟩
      · exact u
      · rw [hno] at h1; cases h1
    · intro d' u' hd' hu'
      rcases ubuild with ⟨h1, -⟩ | ⟨d, u, h1, h2, h3⟩
      · rw [hd'] at h1; cases h1
      · rw [hd'] at h1; cases h1
        rw [hb hd', hu'] at h2; cases h2
        exact h3
    · intro j hj hjc
      rw [withValue_heap, if_neg hj, val2 j hj hjc]
    · rw [nameParts_ok h8]
      have : (withValue s2 v (.str y')).env = s.env := (ov2.field.2.2.2.1 : s2.env = s.env)
      rw [this]; rfl

/-! A document with a plain version and one with a semantic version. -/
def plainVer : St := exParse [[py!"Dataset", py!"foo"], [py!"Version", py!"7"], [py!"Origin", py!"example-com"]]
def semVer : St := exParse [[py!"Dataset", py!"foo"], [py!"Version", py!""], [py!"Version.Major", py!"1"], [py!"Version.Minor", py!"2"],
  [py!"Version.Patch", py!"9"]]

example : Reach Op.noAddChild plainVer ∧ Reach Op.noAddChild semVer := ⟨exParse_reach _ trivial, exParse_reach _ trivial⟩
example : NoDerived plainVer ∧ NoDerived semVer := ⟨⟨by decide +kernel, by decide +kernel, by decide +kernel⟩, ⟨by decide +kernel, by decide +kernel, by decide +kernel⟩⟩
example : versionTerm plainVer = .ok (some 2) ∧ (plainVer.heap 2).value = .str (py!"7") ∧ pyInt (py!"7") = some 7 ∧
    Res.val (asVersion (.to (py!"+1")) plainVer) = .ok (py!"example_com-foo-8") := by decide +kernel
example : ¬ HasPart plainVer.heap 2 := by
  have : (plainVer.heap 2).children = [] := by decide +kernel
  rintro ⟨k, -, c, pre, post, h, -⟩
  rw [this] at h; simp at h
example : Spec.Moves (py!"+1") 1 ∧ Spec.Moves (py!"-30") (-30) := ⟨.up (by decide), .down (by decide)⟩
example : versionTerm semVer = .ok (some 2) ∧ childNamed semVer 2 (py!"Patch") .fls = some 5 ∧ getSection semVer (py!"Root") = .ok 0 ∧
    sectionFindFirst semVer 0 (py!"Version.Patch") = .ok (some 5) ∧ Res.val (asVersion (.to (py!"-30")) semVer) = .ok (py!"foo-1.2._21") := by
  decide +kernel
example : Complete semVer 2 (py!"1") (py!"2") (py!"9") (py!"1.2.9") :=
  ⟨3, 4, 5, by decide +kernel, by decide +kernel, by decide +kernel, by decide +kernel, by decide +kernel, by decide +kernel, by decide +kernel,
    by decide +kernel, by decide +kernel, .inl ⟨by decide +kernel, by decide +kernel⟩⟩
example : CanPart semVer := ⟨by decide +kernel, by decide +kernel⟩

/-- A version which is a word. -/
def wordVer : St := exParse [[py!"Dataset", py!"foo"], [py!"Version", py!"beta"]]
example : Reach Op.noAddChild wordVer ∧ NoDerived wordVer ∧ versionTerm wordVer = .ok (some 2) ∧ (wordVer.heap 2).children = [] ∧
    (wordVer.heap 2).value = .str (py!"beta") ∧ pyInt (py!"beta") = none ∧ Res.val (asVersion (.to (py!"+1")) wordVer) = .error .metatabError :=
  ⟨exParse_reach _ trivial, ⟨by decide +kernel, by decide +kernel, by decide +kernel⟩, by decide +kernel, by decide +kernel, by decide +kernel,
    by decide +kernel, by decide +kernel⟩
example : Spec.Number .fls 0 ∧ Spec.Number (.str (py!"7")) 7 ∧ ∀ k, ¬ Spec.Number (.str (py!"beta")) k :=
  ⟨.inr (.inr ⟨rfl, rfl⟩), .inr (.inl ⟨_, rfl, by decide +kernel⟩), by
    have h : pyInt (py!"beta") = none := by decide +kernel
    rintro k (h' | ⟨x, h', h''⟩ | ⟨h', -⟩)
    · cases h'
    · cases h'; rw [h] at h''; cases h''
    · cases h'⟩

/-- **C44 fails**: asking for a version name alters the document; its version is then 8 instead of 7, and asking again gives another name. -/
theorem C44_witness : Reach Op.noAddChild plainVer ∧ ∃ s', asVersion (.to (py!"+1")) plainVer = .ok (py!"example_com-foo-8") s' ∧
    (plainVer.heap 2).value = .str (py!"7") ∧ (s'.heap 2).value = .str (py!"8") ∧ Res.val (asVersion (.to (py!"+1")) s') = .ok (py!"example_com-foo-9") :=
  ⟨exParse_reach _ trivial, _, ok_after (by decide +kernel), by decide +kernel, by decide +kernel, by decide +kernel⟩

end Metatab
