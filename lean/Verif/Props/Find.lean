import Verif.Lemmas.Examples
import Verif.Lemmas.Dict
import Verif.Spec.Find
import Verif.Props.Names
/-! # C11–C13: searching a document -/
namespace Metatab
open Py Spec
open Classical in
theorem filterE_eq {α : Type} {p : α → Except Err Bool} {P : α → Prop} {l : List α} (h : ∀ a ∈ l, p a = .ok (decide (P a))) :
    filterE p l = .ok (l.filter fun a => P a) := by
  induction l with
  | nil => rfl
  | cons a l ih =>
    simp only [filterE, h a List.mem_cons_self, ih fun b hb => h b (List.mem_cons_of_mem _ hb), bind, Except.bind, pure, Except.pure,
      List.filter_cons]

theorem joinLc_root_root {o : Obj} : o.joinLc = py!"root.root" ↔ lower o.pt = py!"root" ∧ lower o.rt = py!"root" := by
  exact dotJoin_inj (a := lower o.pt) (b := lower o.rt) (c := py!"root") (d := py!"root") (by decide) (by decide)
theorem joinLc_root_section {o : Obj} :
    o.joinLc = py!"root.section" ↔ lower o.pt = py!"root" ∧ lower o.rt = py!"section" := by
  exact dotJoin_inj (a := lower o.pt) (b := lower o.rt) (c := py!"root") (d := py!"section") (by decide) (by decide)

open Classical in
theorem inSection_by {s : St} {t : Nat} {sec : Option (List Str)} (ht : SearchableBy s.heap sec t) :
    inSection s t sec = .ok (decide (SectionIs s.heap t sec)) := by
  cases sec with
  | none => simp only [inSection, SectionIs]; exact congrArg _ (@decide_eq_true _ (propDecidable _) trivial).symm
  | some names =>
    simp only [inSection]
    cases hs : (s.heap t).sec with
    | none => simp [SectionIs, hs]
    | some x =>
      obtain ⟨n, hn⟩ := ht.named (by simp) x hs
      simp only
      by_cases hnil : names = []
      · subst hnil; simp [SectionIs, pure, Except.pure]
      · simp only [hnil, if_false, sectionNameLower, hn, bind, Except.bind, pure, Except.pure, Except.ok.injEq]
        rw [Bool.eq_iff_iff]
        simp [SectionIs, hs, hn]

open Classical in
theorem findTest_by {s : St} {t : Nat} {sec : Option (List Str)} (ht : SearchableBy s.heap sec t) {q : Str × Str} (hA : PlainPart q.1)
    (hB : PlainPart q.2) (value : Val) :
    findTest s (lower (dotJoin q.1 q.2)) value sec t = .ok (decide (Meets s.heap q value sec t)) := by
  unfold findTest Meets
  have hl : lower (dotJoin q.1 q.2) = dotJoin (lower q.1) (lower q.2) := by simp [dotJoin]; decide
  have lowPlain : ∀ {a : Str}, PlainPart a → PlainPart (lower a) := fun h => ⟨by simpa using h.nodot, by simpa using h.nonempty, by
    rw [strip_lower, h.stripped]⟩
  have star : ∀ {a : Str}, lower a = ['*'] ↔ a = ['*'] := plain_star_lower
  have hm : NameMatches (lower q.1, lower q.2) (s.heap t).pt (s.heap t).rt ↔ NameMatches q (s.heap t).pt (s.heap t).rt := by
    simp [NameMatches, PartMatches, star]
  have ht1 : termIs (s.heap t).pt (s.heap t).rt (lower (dotJoin q.1 q.2)) = .ok (decide (NameMatches q (s.heap t).pt (s.heap t).rt)) := by
    rw [hl]
    have := C02_qualified (s.heap t).pt (s.heap t).rt (lowPlain hA) (lowPlain hB)
    refine Eq.trans this ?_
    congr 1
    exact decide_eq_decide.2 hm
  by_cases h1 : (s.heap t).joinLc = py!"root.root"
  · have := joinLc_root_root.1 h1
    simp [h1, this, pure, Except.pure]
  · have h1' := fun h => h1 (joinLc_root_root.2 h)
    have h2 : ¬ ((s.heap t).sec = none ∧ (s.heap t).joinLc ≠ py!"root.section") := by
      rintro ⟨a, b⟩
      obtain ⟨hp, hr⟩ := ht.hasSection a
      rcases hr with hr | hr
      · exact h1' ⟨hp, hr⟩
      · exact b (joinLc_root_section.2 ⟨hp, hr⟩)
    simp only [h1, if_false, h2, ht1, inSection_by ht, bind, Except.bind, pure, Except.pure]
    by_cases hn : NameMatches q (s.heap t).pt (s.heap t).rt
    · by_cases hs : SectionIs s.heap t sec
      · simp only [hn, hs, decide_true, Bool.not_true, Bool.false_eq_true, if_false, Except.ok.injEq]
        rw [Bool.eq_iff_iff]
        have h3 : ¬ lower (s.heap t).pt = py!"root" ∨ ¬ lower (s.heap t).rt = py!"root" := by
          by_cases e : lower (s.heap t).pt = py!"root"
          · exact .inr fun e' => h1' ⟨e, e'⟩
          · exact .inl e
        cases value <;> simp [ValueIs, h3]
      · simp [hn, hs]
    · simp [hn]

open Classical in
theorem inSection_eq {s : St} {t : Nat} (ht : Searchable s.heap t) (sec : Option (List Str)) :
    inSection s t sec = .ok (decide (SectionIs s.heap t sec)) := inSection_by (ht.by_ sec)

open Classical in
theorem findTest_eq {s : St} {t : Nat} (ht : Searchable s.heap t) {q : Str × Str} (hA : PlainPart q.1) (hB : PlainPart q.2)
    (value : Val) (sec : Option (List Str)) :
    findTest s (lower (dotJoin q.1 q.2)) value sec t = .ok (decide (Meets s.heap q value sec t)) := findTest_by (ht.by_ sec) hA hB value

theorem startsWith_root {A B : Str} (hA : '.' ∉ A) : startsWith (py!"root.") (lower (dotJoin A B)) = true ↔ lower A = py!"root" := by
  have hl : lower (dotJoin A B) = dotJoin (lower A) (lower B) := by simp [dotJoin]; decide
  rw [hl]
  unfold startsWith
  rw [List.isPrefixOf_iff_prefix]
  have e : py!"root." = py!"root" ++ ['.'] := rfl
  constructor
  · rintro ⟨r, hr⟩
    have : dotJoin (py!"root") r = dotJoin (lower A) (lower B) := hr
    have hA' : '.' ∉ lower A := by simpa using hA
    have h1 : split1 '.' (dotJoin (py!"root") r) = split1 '.' (dotJoin (lower A) (lower B)) := by rw [this]
    have sp : ∀ (a b : Str), '.' ∉ a → split1 '.' (dotJoin a b) = (a, some b) := by
      intro a b ha
      induction a with
      | nil => rfl
      | cons c a ih =>
        simp only [List.mem_cons, not_or] at ha
        have hc : ¬ c = '.' := fun e => ha.1 e.symm
        have := ih ha.2
        unfold dotJoin at this ⊢
        simp only [List.cons_append, split1, hc, if_false, this]
    rw [sp _ _ (by decide), sp _ _ hA'] at h1
    exact (Prod.mk.inj h1).1.symm
  · intro h
    rw [h]; exact ⟨lower B, rfl⟩

/-- The terms a search for `A.B` looks at. -/
def searched (s : St) (A : Str) : Except Err (List Nat) := if lower A = py!"root" then .ok s.terms else allTerms s

open Classical in
theorem findOne_by {s : St} {q : Str × Str} (hA : PlainPart q.1) (hB : PlainPart q.2) {l : List Nat} (hl : searched s q.1 = .ok l)
    {sec : Option (List Str)} (ht : ∀ t ∈ l, SearchableBy s.heap sec t) (value : Val) :
    findOne s (dotJoin q.1 q.2) value sec = .ok (l.filter fun t => Meets s.heap q value sec t) := by
  have hdot : '.' ∈ lower (dotJoin q.1 q.2) := dot_mem_lower.2 (by simp [dotJoin])
  simp only [findOne, hdot, not_true_eq_false, if_false]
  have key := filterE_eq fun t h => findTest_by (ht t h) hA hB value
  unfold searched at hl
  by_cases h : lower q.1 = py!"root"
  · rw [if_pos h] at hl; cases hl
    rw [if_pos ((startsWith_root hA.nodot).2 h)]
    exact key
  · rw [if_neg h] at hl
    rw [if_neg (fun e => h ((startsWith_root hA.nodot).1 e)), hl]
    exact key

open Classical in
theorem findOne_eq {s : St} {q : Str × Str} (hA : PlainPart q.1) (hB : PlainPart q.2) {l : List Nat} (hl : searched s q.1 = .ok l)
    (ht : ∀ t ∈ l, Searchable s.heap t) (value : Val) (sec : Option (List Str)) :
    findOne s (dotJoin q.1 q.2) value sec = .ok (l.filter fun t => Meets s.heap q value sec t) :=
  findOne_by hA hB hl (fun t h => (ht t h).by_ sec) value

open Classical in
theorem find_by {s : St} {q : Str × Str} (hA : PlainPart q.1) (hB : PlainPart q.2) (hd : s.derived.get? (lower (dotJoin q.1 q.2)) = none)
    {l : List Nat} (hl : searched s q.1 = .ok l) {sec : Option (List Str)} (ht : ∀ t ∈ l, SearchableBy s.heap sec t) (value : Val) :
    find s (dotJoin q.1 q.2) value sec = .ok (l.filter fun t => Meets s.heap q value sec t) := by
  unfold find; rw [hd]; exact findOne_by hA hB hl ht value

open Classical in
/-- **C11** Searching for a qualified name `A.B` (wildcards allowed) that has no derived terms returns exactly the terms that meet the
search, in order: root-level patterns look at the document's list of root-level terms, all others at every term in section order. -/
theorem C11_qualified {s : St} {q : Str × Str} (hA : PlainPart q.1) (hB : PlainPart q.2)
    (hd : s.derived.get? (lower (dotJoin q.1 q.2)) = none) {l : List Nat} (hl : searched s q.1 = .ok l)
    (ht : ∀ t ∈ l, Searchable s.heap t) (value : Val) (sec : Option (List Str)) :
    find s (dotJoin q.1 q.2) value sec = .ok (l.filter fun t => Meets s.heap q value sec t) := by
  unfold find; rw [hd]; exact findOne_eq hA hB hl ht value sec

theorem findOne_unqualified {s : St} {B : Str} (hB : PlainPart B) (value : Val) (sec : Option (List Str)) :
    findOne s B value sec = findOne s (dotJoin (py!"root") B) value sec := by
  have h1 : '.' ∉ lower B := by simpa using hB.nodot
  have h2 : '.' ∈ lower (dotJoin (py!"root") B) := dot_mem_lower.2 (by simp [dotJoin])
  have e : py!"root." ++ lower B = lower (dotJoin (py!"root") B) := by simp [dotJoin]; decide
  simp only [findOne, h1, h2, not_false_eq_true, if_true, not_true_eq_false, if_false, e]

open Classical in
/-- **C11** An unqualified name `B` means the root-level name `root.B`. -/
theorem C11_unqualified {s : St} {B : Str} (hB : PlainPart B) (hd : s.derived.get? (lower B) = none)
    (ht : ∀ t ∈ s.terms, Searchable s.heap t) (value : Val) (sec : Option (List Str)) :
    find s B value sec = .ok (s.terms.filter fun t => Meets s.heap (py!"root", B) value sec t) := by
  unfold find; rw [hd]
  simp only
  rw [findOne_unqualified hB]
  exact findOne_eq (q := (py!"root", B)) (show PlainPart (py!"root") from ⟨by decide, by decide, by decide⟩) hB (l := s.terms) rfl ht value sec

open Classical in
theorem find_plain_by {s : St} {B : Str} (hB : PlainPart B) (hd : s.derived.get? (lower B) = none) {sec : Option (List Str)}
    (ht : ∀ t ∈ s.terms, SearchableBy s.heap sec t) (value : Val) :
    find s B value sec = .ok (s.terms.filter fun t => Meets s.heap (py!"root", B) value sec t) := by
  unfold find; rw [hd]
  simp only
  rw [findOne_unqualified hB]
  exact findOne_by (q := (py!"root", B)) (show PlainPart (py!"root") from ⟨by decide, by decide, by decide⟩) hB (l := s.terms) rfl ht value

/-! ## C12 -/
theorem mapM_ok {α β : Type} {f : α → Except Err β} {g : α → β} : ∀ {l : List α}, (∀ a ∈ l, f a = .ok (g a)) → l.mapM f = .ok (l.map g)
  | [], _ => rfl
  | a :: l, h => by
    rw [List.mapM_cons, h a List.mem_cons_self, mapM_ok fun b hb => h b (List.mem_cons_of_mem _ hb)]
    rfl

theorem perm_map {α β : Type} {g : α → β} {l m : List β} (h : l.Perm m) : ∀ names : List α, m = names.map g →
    ∃ ns : List α, l = ns.map g ∧ ns.Perm names := by
  induction h with
  | nil => intro names h; exact ⟨[], rfl, by rw [List.map_eq_nil_iff.1 h.symm]⟩
  | cons x _ ih =>
    intro names h
    cases names with
    | nil => cases h
    | cons n names =>
      rw [List.map_cons, List.cons.injEq] at h
      obtain ⟨ns, h1, h2⟩ := ih names h.2
      exact ⟨n :: ns, by rw [h1, h.1]; rfl, h2.cons n⟩
  | swap x y l =>
    intro names h
    match names, h with
    | a :: b :: names, h =>
      simp only [List.map_cons, List.cons.injEq] at h
      exact ⟨b :: a :: names, by simp [h], List.Perm.swap ..⟩
  | trans _ _ ih1 ih2 =>
    intro names h
    obtain ⟨n2, h2, p2⟩ := ih2 names h
    obtain ⟨n1, h1, p1⟩ := ih1 n2 h2
    exact ⟨n1, h1, p1.trans p2⟩

open Classical in
theorem find_derived {s : St} {q : Str × Str} {names : List (Str × Str)}
    (hd : s.derived.get? (lower (dotJoin q.1 q.2)) = some (names.map fun n => dotJoin n.1 n.2))
    (hord : ∀ l, (s.env.setOrd l).Perm l)
    (hplain : ∀ n ∈ q :: names, PlainPart n.1 ∧ PlainPart n.2 ∧ n.1 ≠ py!"*" ∧ n.2 ≠ py!"*")
    (hdist : (q :: names).Pairwise fun a b => ¬ (lower a.1 = lower b.1 ∧ lower a.2 = lower b.2))
    {sec : Option (List Str)} {cand : Str → List Nat} (hc : ∀ n ∈ q :: names, searched s n.1 = .ok (cand n.1) ∧ (cand n.1).Nodup ∧
      ∀ t ∈ cand n.1, SearchableBy s.heap sec t) (value : Val) :
    ∃ r, find s (dotJoin q.1 q.2) value sec = .ok r ∧ r.Nodup ∧
      ∀ t, t ∈ r ↔ ∃ n ∈ q :: names, t ∈ cand n.1 ∧ Meets s.heap n value sec t := by
  -- the listing is a rearrangement of the pairs
  obtain ⟨ns, hns, hnp⟩ : ∃ ns : List (Str × Str), s.env.setOrd (names.map fun n => dotJoin n.1 n.2) = ns.map (fun n => dotJoin n.1 n.2) ∧
      ns.Perm names := by
    exact perm_map (hord (names.map fun n => dotJoin n.1 n.2)) names rfl
  have hp : (ns ++ [q]).Perm (q :: names) := (List.perm_append_singleton q ns).trans (hnp.cons q)
  have hmem : ∀ n, n ∈ ns ++ [q] ↔ n ∈ q :: names := fun n => hp.mem_iff
  let f : Str × Str → List Nat := fun n => (cand n.1).filter fun t => Meets s.heap n value sec t
  have hf : ∀ n ∈ ns ++ [q], findOne s (dotJoin n.1 n.2) value sec = .ok (f n) := by
    intro n hn
    have h1 := hplain n ((hmem n).1 hn)
    have h2 := hc n ((hmem n).1 hn)
    exact findOne_by h1.1 h1.2.1 h2.1 h2.2.2 value
  refine ⟨((ns ++ [q]).map f).flatten, ?_, ?_, ?_⟩
  · unfold find; rw [hd]
    simp only [findList, hns]
    have e : (ns.map (fun n => dotJoin n.1 n.2) ++ [dotJoin q.1 q.2]) = (ns ++ [q]).map (fun n => dotJoin n.1 n.2) := by simp
    rw [e, List.mapM_map]
    rw [mapM_ok (g := f) (by intro n hn; exact hf n hn)]
    rfl
  · rw [List.nodup_flatten]
    constructor
    · intro l hl
      obtain ⟨n, hn, rfl⟩ := List.mem_map.1 hl
      exact ((hc n ((hmem n).1 hn)).2.1).filter _
    · rw [List.pairwise_map]
      have hd2 : (ns ++ [q]).Pairwise fun a b => ¬ (lower a.1 = lower b.1 ∧ lower a.2 = lower b.2) :=
        hdist.perm hp.symm (fun h e => h ⟨e.1.symm, e.2.symm⟩)
      refine hd2.imp_of_mem ?_
      intro a b ha hb hab t ht1 ht2
      have ht1 := of_decide_eq_true (List.mem_filter.1 ht1).2
      have ht2 := of_decide_eq_true (List.mem_filter.1 ht2).2
      simp only [Meets, NameMatches, PartMatches] at ht1 ht2
      have pa := hplain a ((hmem a).1 ha)
      have pb := hplain b ((hmem b).1 hb)
      have a1 := ht1.2.1; have b1 := ht2.2.1
      simp only [pa.2.2.1, pa.2.2.2, pb.2.2.1, pb.2.2.2, false_or] at a1 b1
      exact hab ⟨a1.1.trans b1.1.symm, a1.2.trans b1.2.symm⟩
  · intro t
    simp only [List.mem_flatten, List.mem_map]
    constructor
    · rintro ⟨l, ⟨n, hn, rfl⟩, ht⟩
      simp only [f, List.mem_filter, decide_eq_true_eq] at ht
      exact ⟨n, (hmem n).1 hn, ht⟩
    · rintro ⟨n, hn, ht⟩
      exact ⟨_, ⟨n, (hmem n).2 hn, rfl⟩, by simpa only [f, List.mem_filter, decide_eq_true_eq] using ht⟩

open Classical in
/-- **C12** Searching for a name with derived terms returns exactly the terms that meet the search for the name or for one of the derived
names, each once, whatever the order in which the set of derived names is listed. -/
theorem C12_derived {s : St} {q : Str × Str} {names : List (Str × Str)}
    (hd : s.derived.get? (lower (dotJoin q.1 q.2)) = some (names.map fun n => dotJoin n.1 n.2))
    (hord : ∀ l, (s.env.setOrd l).Perm l)
    (hplain : ∀ n ∈ q :: names, PlainPart n.1 ∧ PlainPart n.2 ∧ n.1 ≠ py!"*" ∧ n.2 ≠ py!"*")
    (hdist : (q :: names).Pairwise fun a b => ¬ (lower a.1 = lower b.1 ∧ lower a.2 = lower b.2))
    {cand : Str → List Nat} (hc : ∀ n ∈ q :: names, searched s n.1 = .ok (cand n.1) ∧ (cand n.1).Nodup ∧ ∀ t ∈ cand n.1, Searchable s.heap t)
    (value : Val) (sec : Option (List Str)) :
    ∃ r, find s (dotJoin q.1 q.2) value sec = .ok r ∧ r.Nodup ∧
      ∀ t, t ∈ r ↔ ∃ n ∈ q :: names, t ∈ cand n.1 ∧ Meets s.heap n value sec t :=
  find_derived hd hord hplain hdist (fun n hn => ⟨(hc n hn).1, (hc n hn).2.1, fun t ht => ((hc n hn).2.2 t ht).by_ sec⟩) value

/-! ## C13 -/
/-- The first element with a property is determined. -/
theorem first_unique {α : Type} {p : α → Prop} : ∀ {pre pre' post post' : List α} {c c' : α}, pre ++ c :: post = pre' ++ c' :: post' →
    p c → (∀ x ∈ pre, ¬ p x) → p c' → (∀ x ∈ pre', ¬ p x) → c = c'
  | [], [], _, _, _, _, h, _, _, _, _ => by simp at h; exact h.1
  | [], x :: pre', _, _, _, _, h, h1, _, _, h4 => by simp at h; exact absurd (h.1 ▸ h1) (h4 x List.mem_cons_self)
  | x :: pre, [], _, _, _, _, h, _, h2, h3, _ => by simp at h; exact absurd (h.1 ▸ h3) (h2 x List.mem_cons_self)
  | x :: pre, y :: pre', _, _, _, _, h, h1, h2, h3, h4 => by
    simp only [List.cons_append, List.cons.injEq] at h
    exact first_unique h.2 h1 (fun z hz => h2 z (List.mem_cons_of_mem _ hz)) h3 (fun z hz => h4 z (List.mem_cons_of_mem _ hz))

/-- **C13** The first-match search returns the first term found, and nothing exactly when none is found. -/
theorem C13_first (s : St) (term : Str) (value : Val) (sec : Option (List Str)) :
    (∀ t, findFirst s term value sec = .ok (some t) ↔ ∃ rest, find s term value sec = .ok (t :: rest)) ∧
      (findFirst s term value sec = .ok none ↔ find s term value sec = .ok []) ∧
      (∀ e, findFirst s term value sec = .error e ↔ find s term value sec = .error e) := by
  unfold findFirst
  cases h : find s term value sec with
  | error e => simp [bind, Except.bind]
  | ok l => cases l <;> simp [bind, Except.bind, pure, Except.pure]

/-- **C13** The defaulting variants return the given default exactly when nothing is found, and otherwise the first term or its value. -/
theorem C13_default {s : St} {term : Str} {sec : Option (List Str)} (dt : Option Nat) (dv : Val) :
    (find s term .fls none = .ok [] → docGet s term dt = .ok dt) ∧
      (∀ t rest, find s term .fls none = .ok (t :: rest) → docGet s term dt = .ok (some t)) ∧
      (find s term .fls sec = .ok [] → docGetValue s term dv sec = .ok dv) ∧
      (∀ t rest, find s term .fls sec = .ok (t :: rest) → docGetValue s term dv sec = .ok (s.heap t).value) := by
  refine ⟨?_, ?_, ?_, ?_⟩
  · intro h; simp [docGet, findFirst, h, bind, Except.bind, pure, Except.pure]
  · intro t rest h; simp [docGet, findFirst, h, bind, Except.bind, pure, Except.pure]
  · intro h; simp [docGetValue, findFirst, h, bind, Except.bind, pure, Except.pure]
  · intro t rest h; simp [docGetValue, findFirst, h, bind, Except.bind, pure, Except.pure]

open Classical in
theorem hasProps_eq {s : St} {t : Nat} (hc : (s.heap t).cls.isSection = false) :
    ∀ {kw : List (Str × Val)}, (∀ p ∈ kw, '.' ∉ p.1) → hasProps s t kw = .ok (decide (∀ p ∈ kw, PropIs s.heap t p.1 p.2))
  | [], _ => by simp [hasProps]
  | (k, v) :: kw, h => by
    have hk : '.' ∉ k := h _ List.mem_cons_self
    have ih := hasProps_eq hc fun p hp => h p (List.mem_cons_of_mem _ hp)
    have hx : ∃ x, termGetValue s t k = .ok x ∧ (Val.pyEq x v = true ↔ PropIs s.heap t k v) := by
      simp only [termGetValue, getItem, hc, Bool.false_eq_true, if_false, termGetItem, termFindFirst, localName, hk]
      by_cases e : lower k = lower (s.heap t).tvn
      · exact ⟨(s.heap t).value, by simp [e, bind, Except.bind, pure, Except.pure], by simp [PropIs, e]⟩
      · simp only [e, if_false, childNamed, bind, Except.bind, pure, Except.pure]
        cases hf : (s.heap t).children.find? fun c => lower (s.heap c).rt == lower k && (Val.fls == Val.fls || Val.pyEq (s.heap c).value Val.fls) with
        | none =>
          refine ⟨.none, rfl, ?_⟩
          have hn : ∀ c ∈ (s.heap t).children, lower (s.heap c).rt ≠ lower k := by
            intro c hc' e'
            have := List.find?_eq_none.1 hf c hc'
            simp [e'] at this
          simp only [PropIs, e, false_and, false_or, not_false_eq_true, true_and]
          constructor
          · exact fun h => .inr ⟨hn, h⟩
          · rintro (⟨pre, c, post, e1, e2, _⟩ | ⟨_, h⟩)
            · exact absurd e2 (hn c (by rw [e1]; simp))
            · exact h
        | some c =>
          refine ⟨(s.heap c).value, rfl, ?_⟩
          obtain ⟨h1, pre, post, h2, h3⟩ := List.find?_eq_some_iff_append.1 hf
          have h1' : lower (s.heap c).rt = lower k := by simpa using h1
          have h3' : ∀ x ∈ pre, lower (s.heap x).rt ≠ lower k := by
            intro x hx e'; have := h3 x hx; simp [e'] at this
          simp only [PropIs, e, false_and, false_or, not_false_eq_true, true_and]
          constructor
          · exact fun h => .inl ⟨pre, c, post, h2, h1', h3', h⟩
          · rintro (⟨pre', c', post', e1, e2, e3, h⟩ | ⟨h4, _⟩)
            · have := first_unique (p := fun c => lower (s.heap c).rt = lower k) (h2.symm.trans e1) h1' h3' e2 e3
              rw [this]; exact h
            · exact absurd h1' (h4 c (by rw [h2]; simp))
    obtain ⟨x, hx1, hx2⟩ := hx
    simp only [hasProps, hx1, bind, Except.bind, pure, Except.pure, ih]
    by_cases hp : PropIs s.heap t k v
    · rw [if_pos (hx2.2 hp)]; simp [hp]
    · rw [if_neg (fun h => hp (hx2.1 h))]; simp [hp]

open Classical in
/-- **C13** A search with property filters returns exactly the terms of the plain search that have all the given property values, in
order. -/
theorem C13_kw {s : St} {term : Str} {value : Val} {sec : Option (List Str)} {kw : List (Str × Val)} {l : List Nat}
    (hl : find s term value sec = .ok l) (hs : ∀ t ∈ l, (s.heap t).cls.isSection = false) (hk : ∀ p ∈ kw, '.' ∉ p.1) :
    findKw s term value sec kw = .ok (l.filter fun t => ∀ p ∈ kw, PropIs s.heap t p.1 p.2) := by
  unfold findKw
  by_cases h : kw = []
  · subst h
    rw [if_pos rfl, hl]
    congr 1
    rw [List.filter_eq_self.2]; intro a _; simp
  · simp only [h, if_false, hl, bind, Except.bind]
    refine (filterE_eq (P := fun t => ∀ p ∈ kw, PropIs s.heap t p.1 p.2) fun t ht => ?_).trans ?_
    · rw [hasProps_eq (hs t ht) hk]; congr 2
    · congr 2; funext t; congr 1

/-! ## Examples -/
/-- A document with two datafiles in two sections, one with a child property. -/
def findDoc : St := exParse [[py!"Title", py!"T"], [py!"Section", py!"Resources", py!"Name"], [py!"Datafile", py!"a.csv", py!"one"],
  [py!"Section", py!"Other"], [py!"DATAFILE", py!"b.csv"], [py!"Datafile.Name", py!"two"]]

example : find findDoc (py!"root.datafile") = .ok [3, 6] ∧ find findDoc (py!"Datafile") .fls (some [py!"resources"]) = .ok [3] ∧
    find findDoc (py!"*.Name") = .ok [4, 7] ∧ find findDoc (py!"Datafile") (.str (py!"b.csv")) = .ok [6] := by decide +kernel
example : findDoc.derived.get? (lower (dotJoin (py!"*") (py!"Name"))) = none ∧ PlainPart (py!"*") ∧ PlainPart (py!"Name") :=
  ⟨by decide +kernel, ⟨by decide, by decide, by decide⟩, ⟨by decide, by decide, by decide⟩⟩
example : ∀ t ∈ findDoc.terms, Searchable findDoc.heap t := by
  have e : ∀ t ∈ findDoc.terms, ((findDoc.heap t).sec.any fun x => match (findDoc.heap x).value with | .str _ => true | _ => false) = true := by
    decide +kernel
  intro t ht
  have := e t ht
  cases hs : (findDoc.heap t).sec with
  | none => rw [hs] at this; cases this
  | some x =>
    rw [hs] at this
    refine ⟨fun h => (by rw [hs] at h; cases h), fun y hy => ?_⟩
    rw [hs] at hy; cases hy
    simp only [Option.any_some] at this
    cases hv : (findDoc.heap x).value <;> simp [hv] at this ⊢
example : findKw findDoc (py!"Datafile") .fls none [(py!"name", .str (py!"two"))] = .ok [6] := by decide +kernel
/-- The same document where datafiles also stand for the titles. -/
def derivedDoc : St := { findDoc with derived := [(py!"root.datafile", [py!"root.title"])] }
example : find derivedDoc (py!"Root.Datafile") = .ok [1, 3, 6] ∧
    derivedDoc.derived.get? (lower (dotJoin (py!"Root") (py!"Datafile"))) = some ([(py!"root", py!"title")].map fun n => dotJoin n.1 n.2) := by
  decide +kernel
/-- Outside the hypothesis: a term declared to inherit from itself is found twice. -/
theorem C12_self_witness : find { findDoc with derived := [(py!"root.title", [py!"root.title"])] } (py!"Root.Title") = .ok [1, 1] := by
  decide +kernel
/-- The expansion is by the qualified name only: the unqualified name does not find derived terms. -/
theorem C12_unqualified_witness : find derivedDoc (py!"Datafile") = .ok [3, 6] := by decide +kernel

end Metatab
