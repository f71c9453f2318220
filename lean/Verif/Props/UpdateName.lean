import Verif.Props.AsVersion
/-! # C45: `update_name` is stable -/
namespace Metatab
open Py Spec

theorem WF.weak {s : St} (w : WF True s) : WF False s :=
  { w with edge := fun f => f.elim, kidSec := fun f => f.elim, kidPar := fun f => f.elim, kidNodup := fun f => f.elim }

/-- The names `update_name` searches for. -/
def nameNames : List Str := [py!"root.identifier", py!"root.name", py!"root.dataset", py!"root.origin", py!"root.time", py!"root.space",
  py!"root.grain", py!"root.variant", py!"root.version", py!"version", py!"version.patch"]

/-- What `update_name` needs of the document: a section `Root`, in which identifier and name can be made, and that the searched names are
not super-terms of others. -/
structure Nameable (s : St) : Prop where
  wf : WF True s
  root : ∃ x n, Registered s x n ∧ lower n = py!"root" ∧ lower (newTvn s x (py!"Identifier")) ∉ reservedTvn ∧ lower (newTvn s x (py!"Name")) ∉ reservedTvn
  cls : (docTermClass s (py!"root.identifier")).isSection = false ∧ (docTermClass s (py!"root.name")).isSection = false
  derived : ∀ n ∈ nameNames, s.derived.get? n = none
  parts : CanPart s
  uuid : ∀ i, s.env.uuid i ≠ []

theorem Nameable.noDerived {s : St} (h : Nameable s) : NoDerived s :=
  ⟨h.derived _ (by decide), h.derived _ (by decide), h.derived _ (by decide)⟩

theorem wf_withValue {s : St} (w : WF True s) {t : Nat} (ht : t < s.next) (y : Val) : WF True (withValue s t y) := by
  have st := after_steps (tri_setValue (C := Cap.all True) (t := t) (v := y) ht) w
  unfold after at st
  rw [upd_run] at st
  exact st.wf w

theorem nameable_withValue {s : St} (h : Nameable s) {t : Nat} (ht : t < s.next) (hc : (s.heap t).cls.isSection = false) (y : Val) :
    Nameable (withValue s t y) := by
  refine ⟨wf_withValue h.wf ht y, ?_, h.cls, h.derived, ⟨h.parts.cls, h.parts.tvn⟩, h.uuid⟩
  obtain ⟨x, n, hx, h1, h2, h3⟩ := h.root
  have e : (withValue s t y).heap x = s.heap x := by
    rw [withValue_heap, if_neg]
    rintro rfl
    rw [hx.cls] at hc; cases hc
  refine ⟨x, n, ⟨by rw [e]; exact hx.cls, by rw [e]; exact hx.value, hx.known, by rw [e]; exact hx.plain⟩, h1, ?_, ?_⟩
  · unfold newTvn at h2 ⊢; rw [e]; exact h2
  · unfold newTvn at h3 ⊢; rw [e]; exact h3

/-- Adding a root-level term to the section `Root`. -/
theorem nameable_newTerm {s : St} (h : Nameable s) {x : Nat} {n : Str} (hx : Registered s x n) {N B : Str} (hN : splitTermLower N = .ok (ROOT, lower B))
    (hc : (docTermClass s (lower N)).isSection = false) (htv : lower (newTvn s x B) ∉ reservedTvn) (v : Val) :
    Nameable (withTerm s x (newObj s x (docTermClass s (lower N)) N B v)) := by
  have w := h.wf
  have e1 := newTerm_root w.weak hx hN hc htv v
  have hxlt : x < s.next := (w.secsLt (lower n, x) (Dict.mem_of_get? hx.known)).1
  obtain ⟨o, ho⟩ : ∃ o, o = newObj s x (docTermClass s (lower N)) N B v := ⟨_, rfl⟩
  rw [← ho] at e1 ⊢
  have w' : WF True (withTerm s x o) := by
    have st := after_steps (tri_newTerm (term := N) (value := v) (kw := []) (C := Cap.all True) ⟨hxlt, hx.cls⟩ (Cap.all_good True s.next)) w
    unfold after at st
    rw [e1] at st
    exact st.wf w
  refine ⟨w', ?_, h.cls, h.derived, ⟨h.parts.cls, h.parts.tvn⟩, h.uuid⟩
  obtain ⟨y, m, hy, h1, h2, h3⟩ := h.root
  have hylt : y < s.next := (w.secsLt (lower m, y) (Dict.mem_of_get? hy.known)).1
  have e : ((withTerm s x o).heap y).cls = (s.heap y).cls ∧ ((withTerm s x o).heap y).value = (s.heap y).value ∧
      ((withTerm s x o).heap y).secPropertyNames = (s.heap y).secPropertyNames ∧ ((withTerm s x o).heap y).defTvn = (s.heap y).defTvn := by
    unfold withTerm
    simp only [if_neg (show y ≠ s.next by omega)]
    split
    · next e => subst e; exact ⟨rfl, rfl, rfl, rfl⟩
    · exact ⟨rfl, rfl, rfl, rfl⟩
  refine ⟨y, m, ⟨by rw [e.1]; exact hy.cls, by rw [e.2.1]; exact hy.value, hy.known, by rw [e.2.2.1]; exact hy.plain⟩, h1, ?_, ?_⟩
  · unfold newTvn at h2 ⊢; rw [e.2.2.2]; exact h2
  · unfold newTvn at h3 ⊢; rw [e.2.2.2]; exact h3

theorem identifier_term {s : St} (h : Nameable s) {t : Nat} (ht : identifierTerm s = .ok (some t)) :
    t < s.next ∧ (s.heap t).cls.isSection = false ∧ lower (s.heap t).rt = py!"identifier" := by
  obtain ⟨l, hl, hm⟩ := findFirst_mem ht
  have := find_name (A := py!"Root") (B := py!"Identifier") ⟨by decide, by decide, by decide⟩ ⟨by decide, by decide, by decide⟩
    (by decide) (by decide) (h.derived _ (by decide)) hl t hm
  exact ⟨(h.wf.termsLt t this.1).1, (h.wf.termsLt t this.1).2, this.2.2⟩

/-- `ensure_identifier`, seen from its result. -/
theorem ensure_inv {s s1 : St} {u : Unit} (N : Nameable s) (h : ensureIdentifier s = .ok u s1) :
    Nameable s1 ∧ ∃ t, identifierTerm s1 = .ok (some t) ∧ (s1.heap t).value.truthy = true := by
  have htr : ∀ i, (Val.str (s.env.uuid i)).truthy = true := by
    intro i
    cases e : s.env.uuid i with
    | nil => exact absurd e (N.uuid i)
    | cons a l => rfl
  cases hi : identifierTerm s with
  | error e =>
    unfold identifierTerm at hi
    unfold ensureIdentifier at h
    rw [bind_run, lift_run, hi] at h
    cases h
  | ok a =>
    cases a with
    | some t =>
      obtain ⟨hlt, hcls, -⟩ := identifier_term N hi
      cases ht : (s.heap t).value.truthy with
      | true =>
        rw [C46_kept hi ht] at h
        cases h
        exact ⟨N, t, hi, ht⟩
      | false =>
        obtain ⟨k1, k2⟩ := identifier_filled N.wf.weak (N.derived _ (by decide)) hi ht (N.uuid _)
        rw [k1] at h
        cases h
        exact ⟨nameable_withValue N hlt hcls _, t, k2, by rw [withValue_heap, if_pos rfl]; exact htr _⟩
    | none =>
      obtain ⟨x, n, hx, hn, h2, -⟩ := N.root
      obtain ⟨s', k1, k2, k3, k4⟩ := identifier_made N.wf.weak (N.derived _ (by decide)) hi hx hn N.cls.1 h2 (N.uuid _)
      rw [k1] at h
      cases h
      refine ⟨?_, s.next, k2, by rw [k3]; exact htr _⟩
      rw [k4]
      refine nameable_withValue (nameable_newTerm N hx (N := py!"Root.Identifier") (B := py!"Identifier") (by decide) N.cls.1 h2 .none) (Nat.lt_succ_self _) ?_ _
      unfold withTerm
      simp only [if_true]
      exact N.cls.1

/-- Searching the name term, or making it, seen from its result. -/
theorem nameTerm_inv {s s2 : St} {create : Bool} {a : Option Nat} {i : Nat} (N : Nameable s) (hi : identifierTerm s = .ok (some i))
    (h : nameTerm create s = .ok a s2) :
    (a = none ∧ s2 = s) ∨ ∃ t, a = some t ∧ Nameable s2 ∧ findFirst s2 (py!"Root.Name") = .ok (some t) ∧ identifierTerm s2 = .ok (some i) ∧
      (s2.heap i).value = (s.heap i).value := by
  unfold nameTerm at h
  rw [bind_run, lift_run] at h
  cases hf : findFirst s (py!"Root.Name") with
  | error e => rw [hf] at h; cases h
  | ok b =>
    rw [hf] at h
    cases b with
    | some t => cases h; exact .inr ⟨t, rfl, N, hf, hi, rfl⟩
    | none =>
      cases create with
      | false => cases h; exact .inl ⟨rfl, rfl⟩
      | true =>
        obtain ⟨x, n, hx, hn, -, h3⟩ := N.root
        have w := N.wf
        have hg : getSection s (py!"Root") = .ok x := by
          unfold getSection
          have : s.sections.get? (lower (py!"Root")) = some x := by
            have := hx.known; rw [hn] at this; exact this
          rw [this]
        have e1 := newTerm_root w.weak hx (N := py!"Root.Name") (B := py!"Name") (by decide) N.cls.2 h3 (.str [])
        have N2 := nameable_newTerm N hx (N := py!"Root.Name") (B := py!"Name") (by decide) N.cls.2 h3 (.str [])
        have hxlt : x < s.next := (w.secsLt (lower n, x) (Dict.mem_of_get? hx.known)).1
        obtain ⟨o, ho⟩ : ∃ o, o = newObj s x (docTermClass s (lower (py!"Root.Name"))) (py!"Root.Name") (py!"Name") (.str []) := ⟨_, rfl⟩
        have hop : o.pt = ROOT ∧ o.rt = py!"name" ∧ o.sec = some x := by rw [ho]; exact ⟨rfl, rfl, rfl⟩
        rw [← ho] at e1 N2
        simp only [if_true, bind_run, lift_run, hg, e1, pure_run] at h
        cases h
        have hnew : (withTerm s x o).heap s.next = o := by unfold withTerm; simp only [if_true]
        refine .inr ⟨s.next, rfl, N2, ?_, ?_, ?_⟩
        · unfold findFirst
          rw [find_withTerm (term := py!"Root.Name") w.weak hxlt o (fun y hy => by rw [hop.2.2] at hy; exact (Option.some.inj hy).symm) (by decide)
            (N.derived _ (by decide)) _ (findFirst_none hf)]
          have hti : termIs o.pt o.rt (lower (py!"Root.Name")) = .ok true := by rw [hop.1, hop.2.1]; decide
          have : findTest (withTerm s x o) (lower (py!"Root.Name")) .fls none s.next = .ok true := by
            unfold findTest
            have hj : o.joinLc = py!"root.name" := by unfold Obj.joinLc; rw [hop.1, hop.2.1]; decide
            simp only [hnew, hj, hop.2.2, hti, inSection, bind, Except.bind, pure, Except.pure]
            rw [if_neg (by decide), if_neg (by simp), if_neg (by decide), if_neg (by decide)]
            rfl
          rw [this]; rfl
        · obtain ⟨l, hl, hm⟩ := findFirst_mem hi
          have hhead : l.head? = some i := by
            unfold identifierTerm findFirst at hi
            rw [hl] at hi
            simpa [bind, Except.bind, pure, Except.pure] using hi
          unfold identifierTerm findFirst
          rw [find_withTerm (term := py!"Root.Identifier") w.weak hxlt o (fun y hy => by rw [hop.2.2] at hy; exact (Option.some.inj hy).symm) (by decide)
            (N.derived _ (by decide)) _ hl]
          have hti : termIs o.pt o.rt (lower (py!"Root.Identifier")) = .ok false := by rw [hop.1, hop.2.1]; decide
          have : findTest (withTerm s x o) (lower (py!"Root.Identifier")) .fls (some [py!"Root"]) s.next = .ok false := by
            unfold findTest
            have hj : o.joinLc = py!"root.name" := by unfold Obj.joinLc; rw [hop.1, hop.2.1]; decide
            simp only [hnew, hj, hop.2.2, hti, bind, Except.bind, pure, Except.pure]
            rw [if_neg (by decide), if_neg (by simp)]
            rfl
          rw [this]
          simp [bind, Except.bind, pure, Except.pure, hhead]
        · obtain ⟨hlt, -, -⟩ := identifier_term N hi
          unfold withTerm
          simp only [if_neg (show i ≠ s.next by omega)]
          split
          · next e => subst e; rfl
          · rfl

/-- Values found by root-level names are the same if the terms with this name keep their values. -/
theorem value_same {F : Prop} {s s' : St} {B : Str} (w : WF F s) (h : SameFind s s') (hB : PlainPart B) (hb : B ≠ py!"*")
    (hd : s.derived.get? (lower (dotJoin (py!"Root") B)) = none)
    (hv : ∀ j, j < s.next → lower (s.heap j).rt = lower B → (s'.heap j).value = (s.heap j).value) (sec : Option (List Str)) :
    docGetValue s' (dotJoin (py!"Root") B) .none sec = docGetValue s (dotJoin (py!"Root") B) .none sec := by
  have hf := find_same w h (term := dotJoin (py!"Root") B) ((startsWith_root (A := py!"Root") (B := B) (by decide)).2 (by decide)) hd sec
  unfold docGetValue findFirst
  rw [hf]
  cases hl : find s (dotJoin (py!"Root") B) .fls sec with
  | error e => rfl
  | ok l =>
    cases l with
    | nil => rfl
    | cons t l =>
      have := find_name (A := py!"Root") (B := B) ⟨by decide, by decide, by decide⟩ hB (by decide) hb hd hl t List.mem_cons_self
      simp only [bind, Except.bind, pure, Except.pure, List.head?_cons]
      rw [hv t (w.termsLt t this.1).1 this.2.2]

theorem findFirstValue_get (s : St) (n : Str) (sec : Option (List Str)) : findFirstValue s n .fls sec = docGetValue s n .none sec := rfl

theorem hasSemver_withValue {s : St} (w : WF True s) (hd : s.derived.get? (py!"root.version") = none) {t : Nat} (ht : (s.heap t).cls.isSection = false) (y : Val) :
    hasSemver (withValue s t y) = hasSemver s := by
  have f : ∀ v n, termFindFirst (withValue s t y) v n = termFindFirst s v n := by
    intro v n
    have hl : localName (withValue s t y) v n = localName s v n := by
      unfold localName
      have : ((withValue s t y).heap v).rt = (s.heap v).rt := by
        rw [withValue_heap]; split
        · next e => rw [e]
        · rfl
      rw [this]
    unfold termFindFirst
    rw [hl]
    simp only [childNamed_withValue]
  unfold hasSemver
  rw [versionTerm_same w (sameFind_value ht y) hd]
  simp only [f]

/-- Once a name has been made, it is made again, whatever the name term is set to. -/
theorem identityName_again {s s3 : St} {name : Str} {t : Nat} (N : Nameable s) {mod : ModVer} (hmod : mod = .keep ∨ mod = .drop)
    (h : identityName mod s = .ok name s3) (hlt : t < s.next) (hcls : (s.heap t).cls.isSection = false)
    (hrt : lower (s.heap t).rt = py!"name") (y : Val) : identityName mod (withValue s3 t y) = .ok name (withValue s3 t y) := by
  have w := N.wf
  have hd := N.noDerived
  obtain ⟨r1, hu, st, vo⟩ := identityName_keep w hd.rootVersion N.parts hmod h
  have w3 := updateVersion_wf w hu
  have hc3 := vo.canPart N.parts
  have hlt3 : t < s3.next := Nat.lt_of_lt_of_le hlt vo.find.next
  have hcls3 : (s3.heap t).cls.isSection = false := by rw [vo.find.cls t hlt]; exact hcls
  have hrt3 : lower (s3.heap t).rt = py!"name" := by rw [(vo.find.names t hlt).2.1]; exact hrt
  have d1 : s3.derived.get? (py!"version") = none := by rw [vo.find.derived]; exact hd.version
  have d2 : s3.derived.get? (py!"root.version") = none := by rw [vo.find.derived]; exact hd.rootVersion
  have d3 : s3.derived.get? (py!"version.patch") = none := by rw [vo.find.derived]; exact hd.patch
  obtain ⟨vals, h1, r2, s1, h2, sv, h3, x, h4, mv0, h5, mv, h6, ver, h7, ps, h8, rfl⟩ := identityName_ok.1 h
  rw [hu] at h2
  cases h2
  have ov : OnlyValues s3 (withValue s3 t y) := onlyValues_value hcls3 y
  have ov2 : SameFind s (withValue s3 t y) := vo.find.trans ov.sameFind
  have st4 : Settled (withValue s3 t y) r1 := settled_withValue w3 d2 st hcls3 (by rw [hrt3]; decide) y
  have hu4 := settled_run st4 ⟨hc3.cls, hc3.tvn⟩
  have hsec : ∀ f, sectionFindFirst (withValue s3 t y) x f = sectionFindFirst s3 x f := by
    intro f
    unfold sectionFindFirst
    rw [ov.secs x (getSection_section w3 h4)]
    split
    · exact findFirst_values w3.weak ov _ _
    · exact findFirst_values w3.weak ov _ _
    · rfl
  have hfound : ∀ c, sectionFindFirst s3 x (if sv then py!"Version.Patch" else py!"Version") = .ok (some c) → c ≠ t := by
    rintro c hc rfl
    have key : ∀ sec, findFirst s3 (if sv then py!"Version.Patch" else py!"Version") .fls sec = .ok (some c) → False := by
      intro sec hf
      obtain ⟨l, hl, hm⟩ := findFirst_mem hf
      have : lower (s3.heap c).rt = py!"patch" ∨ lower (s3.heap c).rt = py!"version" := by
        cases sv with
        | true =>
          rw [if_pos rfl] at hl
          exact .inl (find_rt (A := py!"Version") (B := py!"Patch") ⟨by decide, by decide, by decide⟩ ⟨by decide, by decide, by decide⟩ (by decide) d3 hl c hm)
        | false =>
          rw [if_neg (by decide), find_version d1 d2] at hl
          exact .inr (find_rt (A := py!"Root") (B := py!"Version") ⟨by decide, by decide, by decide⟩ ⟨by decide, by decide, by decide⟩ (by decide) d2 hl c hm)
      rw [hrt3] at this
      rcases this with h | h <;> revert h <;> decide
    unfold sectionFindFirst at hc
    split at hc
    · exact key _ hc
    · exact key _ hc
    · cases hc
  have hget : termGetValue (withValue s3 t y) x (if sv then py!"Version.Patch" else py!"Version") = .ok mv0 := by
    rw [← h5]
    have hx4 : ((withValue s3 t y).heap x).cls.isSection = true := by rw [ov.obj x]; exact getSection_section w3 h4
    unfold termGetValue getItem
    rw [if_pos hx4, if_pos (getSection_section w3 h4), hsec]
    cases hf : sectionFindFirst s3 x (if sv then py!"Version.Patch" else py!"Version") with
    | error e => cases e <;> rfl
    | ok a =>
      cases a with
      | none => rfl
      | some c => simp only; rw [withValue_heap, if_neg (hfound c hf)]
  refine identityName_ok.2 ⟨vals, ?_, r1, _, hu4, sv, ?_, x, ?_, mv0, hget, mv, h6, ver, ?_, ps, ?_, rfl⟩
  · rw [← h1]
    refine mapM_congrE fun n hn => ?_
    rw [findFirstValue_get, findFirstValue_get]
    have key : ∀ B, PlainPart B → B ≠ py!"*" → s.derived.get? (lower (dotJoin (py!"Root") B)) = none → lower B ∉ py!"name" :: versionNames →
        docGetValue (withValue s3 t y) (dotJoin (py!"Root") B) .none (some [py!"Root"]) = docGetValue s (dotJoin (py!"Root") B) .none (some [py!"Root"]) := by
      intro B hB hb hdB hnot
      refine value_same w ov2 hB hb hdB (fun j hj hjB => ?_) _
      rw [withValue_heap, if_neg]
      · exact vo.value j hj (by rw [hjB]; exact fun m => hnot (List.mem_cons_of_mem _ m))
      · rintro rfl
        rw [hrt] at hjB
        exact hnot (by rw [← hjB]; exact List.mem_cons_self)
    simp only [nameTerms, List.mem_cons, List.not_mem_nil, or_false] at hn
    rcases hn with rfl | rfl | rfl | rfl | rfl | rfl
    · exact key (py!"Origin") ⟨by decide, by decide, by decide⟩ (by decide) (N.derived _ (by decide)) (by decide)
    · exact key (py!"Dataset") ⟨by decide, by decide, by decide⟩ (by decide) (N.derived _ (by decide)) (by decide)
    · exact key (py!"Time") ⟨by decide, by decide, by decide⟩ (by decide) (N.derived _ (by decide)) (by decide)
    · exact key (py!"Space") ⟨by decide, by decide, by decide⟩ (by decide) (N.derived _ (by decide)) (by decide)
    · exact key (py!"Grain") ⟨by decide, by decide, by decide⟩ (by decide) (N.derived _ (by decide)) (by decide)
    · exact key (py!"Variant") ⟨by decide, by decide, by decide⟩ (by decide) (N.derived _ (by decide)) (by decide)
  · rw [hasSemver_withValue w3 d2 hcls3]; exact h3
  · exact h4
  · rcases h7 with ⟨e1, e2, -⟩ | ⟨hm, c, hc, hu'⟩
    · exact .inl ⟨e1, e2, rfl⟩
    · refine .inr ⟨hm, c, by rw [hsec]; exact hc, ?_⟩
      rcases hmod with rfl | rfl
      · cases h6
        rcases getValue_section (getSection_section w3 h4) h5 with ⟨-, e⟩ | ⟨c', hc', e⟩ | ⟨e, -⟩
        · exact absurd e hm
        · rw [hc] at hc'
          cases hc'
          rw [withValue_self e.symm, settled_run st hc3] at hu'
          cases hu'
          rw [withValue_self (by rw [withValue_heap, if_neg (hfound c hc)]; exact e.symm)]
          exact hu4
        · exact absurd e hm
      · cases h6
        exact absurd rfl hm
  · rw [ov.field.2.2.2.1]; exact h8

theorem pyEq_self {v : Val} : Val.pyEq v v = true := by cases v <;> simp [Val.pyEq]

theorem pyEq_str {n : Str} {v : Val} (h : Val.pyEq (.str n) v = true) : v = .str n := by
  cases v <;> simp [Val.pyEq] at h
  exact congrArg _ h.symm

/-- The messages that say that the name has been set. -/
def nameSet : List Str := [py!"Changed Name", py!"Setting the name to the identifier"]

/-- Setting the name a second time changes nothing. -/
theorem setName_again {s s' : St} {report : Bool} {t i : Nat} {u : List Str} (N : Nameable s) {mod : ModVer} (hmod : mod = .keep ∨ mod = .drop)
    (ht : findFirst s (py!"Root.Name") = .ok (some t)) (hi : identifierTerm s = .ok (some i)) (h : setName false report mod t s = .ok u s') :
    (∃ u', setName false report mod t s' = .ok u' s' ∧ ∀ m ∈ nameSet, m ∉ u') ∧ findFirst s' (py!"Root.Name") = .ok (some t) ∧
      identifierTerm s' = .ok (some i) ∧ (s'.heap i).value = (s.heap i).value := by
  have w := N.wf
  obtain ⟨hlt, hcls, hrt⟩ : t < s.next ∧ (s.heap t).cls.isSection = false ∧ lower (s.heap t).rt = py!"name" := by
    obtain ⟨l, hl, hm⟩ := findFirst_mem ht
    have := find_name (A := py!"Root") (B := py!"Name") ⟨by decide, by decide, by decide⟩ ⟨by decide, by decide, by decide⟩
      (by decide) (by decide) (N.derived _ (by decide)) hl t hm
    exact ⟨(w.termsLt t this.1).1, (w.termsLt t this.1).2, this.2.2⟩
  obtain ⟨ilt, -, irt⟩ := identifier_term N hi
  have same : ∀ {s'}, SameFind s s' → findFirst s' (py!"Root.Name") = .ok (some t) ∧ identifierTerm s' = .ok (some i) := by
    intro s' sf
    constructor
    · unfold findFirst at ht ⊢
      rw [find_same w sf (by decide) (N.derived _ (by decide))]; exact ht
    · unfold identifierTerm findFirst at hi ⊢
      rw [find_same w sf (by decide) (N.derived _ (by decide))]; exact hi
  have vals : ∀ {s'}, SameFind s s' → (∀ j, j < s.next → lower (s.heap j).rt ∉ py!"name" :: versionNames → (s'.heap j).value = (s.heap j).value) →
      docGetValue s' (py!"Root.Identifier") = docGetValue s (py!"Root.Identifier") ∧ docGetValue s' (py!"Root.Dataset") = docGetValue s (py!"Root.Dataset") ∧
      (s'.heap i).value = (s.heap i).value := by
    intro s' sf hv
    refine ⟨?_, ?_, hv i ilt (by rw [irt]; decide)⟩
    · exact value_same (B := py!"Identifier") w sf ⟨by decide, by decide, by decide⟩ (by decide) (N.derived _ (by decide))
        (fun j hj e => hv j hj (by rw [e]; decide)) none
    · exact value_same (B := py!"Dataset") w sf ⟨by decide, by decide, by decide⟩ (by decide) (N.derived _ (by decide))
        (fun j hj e => hv j hj (by rw [e]; decide)) none
  have h0 := h
  unfold setName at h
  simp only [bind_run, obj_run, lift_run] at h
  cases hid : docGetValue s (py!"Root.Identifier") with
  | error e => rw [hid] at h; cases h
  | ok ident =>
    cases hds : docGetValue s (py!"Root.Dataset") with
    | error e => simp only [hid, hds] at h; cases h
    | ok dataset =>
      simp only [hid, hds] at h
      cases hdt : dataset.truthy with
      | true =>
        rw [hdt] at h
        simp only [ite_run, if_true, bind_run] at h
        cases hn : identityName mod s with
        | err e s3 => rw [hn] at h; cases h
        | ok name s3 =>
          simp only [hn, Bool.false_eq_true, or_false] at h
          obtain ⟨r1, hu, st, vo⟩ := identityName_keep w N.noDerived.rootVersion N.parts hmod hn
          have hcls3 : (s3.heap t).cls.isSection = false := by rw [vo.find.cls t hlt]; exact hcls
          have tv : (s3.heap t).value = (s.heap t).value := vo.value t hlt (by rw [hrt]; decide)
          have e : s' = withValue s3 t (.str name) := by
            by_cases hp : Val.pyEq (.str name) (s.heap t).value = true
            · rw [if_neg (by simp [hp])] at h
              simp only [pure_run] at h
              cases h
              rw [withValue_self]
              rw [tv, pyEq_str hp]
            · rw [if_pos (by simp [hp])] at h
              simp only [upd_run, pure_run] at h
              cases h
              rfl
          have sf : SameFind s s' := by rw [e]; exact vo.find.trans (sameFind_value hcls3 _)
          obtain ⟨v1, v2, v3⟩ := vals sf (fun j hj hnot => by
            rw [e, withValue_heap, if_neg]
            · exact vo.value j hj fun m => hnot (List.mem_cons_of_mem _ m)
            · rintro rfl
              exact hnot (by rw [hrt]; exact List.mem_cons_self))
          refine ⟨?_, (same sf).1, (same sf).2, v3⟩
          have again := identityName_again N hmod hn hlt hcls hrt (.str name)
          rw [← e] at again
          have val : (s'.heap t).value = .str name := by rw [e, withValue_heap, if_pos rfl]
          refine ⟨if report then [py!"Name did not change"] else [], ?_, ?_⟩
          · unfold setName
            simp only [bind_run, obj_run, lift_run, v1, v2, hid, hds, hdt, ite_run, if_true, again, val, pyEq_self, not_true_eq_false,
              Bool.false_eq_true, or_self, if_false, pure_run]
          · cases report <;> decide
      | false =>
        rw [hdt] at h
        simp only [ite_run, Bool.false_eq_true, if_false] at h
        by_cases hset : (!(s.heap t).value.truthy) = true ∧ ident.truthy = true
        · obtain ⟨hset1, hset2⟩ := hset
          rw [if_pos hset1, if_neg (by simp [hset2])] at h
          simp only [bind_run, upd_run, pure_run] at h
          have e : s' = withValue s t ident := by cases h; rfl
          have sf : SameFind s s' := by rw [e]; exact sameFind_value hcls _
          obtain ⟨v1, v2, v3⟩ := vals sf (fun j hj hnot => by
            rw [e, withValue_heap, if_neg]
            rintro rfl
            exact hnot (by rw [hrt]; exact List.mem_cons_self))
          refine ⟨?_, (same sf).1, (same sf).2, v3⟩
          have val : (s'.heap t).value = ident := by rw [e, withValue_heap, if_pos rfl]
          refine ⟨if report then [py!"Name did not change"] else [], ?_, ?_⟩
          · unfold setName
            simp only [bind_run, obj_run, lift_run, v1, v2, hid, hds, hdt, ite_run, Bool.false_eq_true, if_false, val, hset2, Bool.not_true, pyEq_self,
              if_true, pure_run]
          · cases report <;> decide
        · have e : s' = s ∧ ∀ m ∈ nameSet, m ∉ u := by
            by_cases h1 : (!(s.heap t).value.truthy) = true
            · rw [if_pos h1, if_pos (by
                cases hit : ident.truthy with
                | false => rfl
                | true => exact absurd ⟨h1, hit⟩ hset)] at h
              simp only [pure_run] at h
              cases h
              exact ⟨rfl, by decide⟩
            · rw [if_neg h1] at h
              split at h
              · simp only [pure_run] at h
                cases h
                refine ⟨rfl, ?_⟩
                cases report <;> decide
              · simp only [pure_run] at h
                cases h
                exact ⟨rfl, by decide⟩
          obtain ⟨rfl, hu⟩ := e
          exact ⟨⟨u, h0, hu⟩, ht, hi, rfl⟩

/-- After `update_name` has run, the identifier is set and running it again changes nothing. -/
theorem updateName_again {s s' : St} {create report : Bool} {mod : ModVer} {u : List Str} (N : Nameable s) (hmod : mod = .keep ∨ mod = .drop)
    (h : updateName false create report mod s = .ok u s') :
    (∃ i, identifierTerm s' = .ok (some i) ∧ (s'.heap i).value.truthy = true) ∧
    ∃ u', updateName false create report mod s' = .ok u' s' ∧ ∀ m ∈ nameSet, m ∉ u' := by
  unfold updateName at h
  rw [bind_run] at h
  cases h1 : ensureIdentifier s with
  | err e s1 => rw [h1] at h; cases h
  | ok _ s1 =>
    rw [h1] at h
    obtain ⟨N1, i, hi, hiv⟩ := ensure_inv N h1
    simp only [bind_run] at h
    cases h2 : nameTerm create s1 with
    | err e s2 => rw [h2] at h; cases h
    | ok a s2 =>
      rw [h2] at h
      rcases nameTerm_inv N1 hi h2 with ⟨rfl, rfl⟩ | ⟨t, rfl, N2, ht, hi2, hv2⟩
      · cases h
        refine ⟨⟨i, hi, hiv⟩, [py!"No Root.Name, can't update name"], ?_, by decide⟩
        unfold updateName
        simp only [bind_run, C46_kept hi hiv, h2]
        rfl
      · simp only at h
        obtain ⟨⟨u', k1, k2⟩, k3, k4, k5⟩ := setName_again N2 hmod ht hi2 h
        refine ⟨⟨i, k4, by rw [k5, hv2]; exact hiv⟩, u', ?_, k2⟩
        unfold updateName
        have hn : nameTerm create s' = .ok (some t) s' := by
          unfold nameTerm
          simp only [bind_run, lift_run, k3, pure_run]
        simp only [bind_run, C46_kept k4 (by rw [k5, hv2]; exact hiv), hn, k1]

/-- **C45.** After `update_name` has run, running it again leaves the document as it is and does not report that the name has been set.
This is for calls that leave the version alone or leave it out of the name. -/
theorem C45_stable {s s' : St} {create report : Bool} {mod : ModVer} {u : List Str} (N : Nameable s) (hmod : mod = .keep ∨ mod = .drop)
    (h : updateName false create report mod s = .ok u s') :
    ∃ u', updateName false create report mod s' = .ok u' s' ∧ ∀ m ∈ nameSet, m ∉ u' := by
  exact (updateName_again N hmod h).2

theorem exParse_env (rows : List (List Str)) : (exParse rows).env = exEnv :=
  (after_steps (tri_op (F := False) (op := .parse noFiles 3 (py!"doc.csv") rows) trivial fun f => f.elim) (newDoc_wf False exEnv _)).ext.env

/-! A document with dataset, version and name. -/
def nameDoc : St := exParse [[py!"Dataset", py!"foo"], [py!"Version", py!"7"], [py!"Name", py!"old"]]

theorem nameDoc_nameable : Nameable nameDoc where
  wf := (exParse_reach _ trivial : Reach Op.noAddChild nameDoc).wf fun _ op ha => ha
  root := ⟨0, py!"Root", ⟨by decide +kernel, by decide +kernel, by decide +kernel, by decide +kernel⟩, by decide, by decide +kernel, by decide +kernel⟩
  cls := by decide +kernel
  derived := by decide +kernel
  parts := ⟨by decide +kernel, by decide +kernel⟩
  uuid := fun i => by
    unfold nameDoc
    rw [exParse_env]
    exact List.cons_ne_nil _ _

example : Res.val (updateName false true true .keep nameDoc) = .ok [py!"Changed Name"] ∧
    Res.val (updateName false true true .keep (after (updateName false true true .keep) nameDoc)) = .ok [py!"Name did not change"] := by decide +kernel

/-- With a version to be moved, the second run changes the name again. -/
theorem C45_moving_witness : Nameable nameDoc ∧
    Res.val (updateName false true true (.to (py!"+1")) (after (updateName false true true (.to (py!"+1"))) nameDoc)) = .ok [py!"Changed Name"] :=
  ⟨nameDoc_nameable, by decide +kernel⟩

end Metatab
