import Verif.Lemmas.AgreeDoc
import Verif.Lemmas.StepsParse
import Verif.Lemmas.PlainDoc
/-! # The document and its sections list the same terms: reading rows -/
namespace Metatab
open Py _root_.Spec
variable {s : St}

/-- What holds while rows without declarations are read. -/
structure Reading (s : St) : Prop where
  dt : s.p.declTerms = initDeclTerms
  ds : s.p.declSecs = initDeclSecs
  last : HasSec s s.p.lastSec
  root : HasSec s s.root
  cls : ∀ n, s.classes.get? n = some .section → n = py!"root.section"
  map : ∀ k q, s.p.lastMap.get? k = some q → q < s.next

theorem Reading.step {s s' : St} (h : Reading s) (e : Evo s s') (hp : s'.p = s.p) (hc : s'.classes = s.classes) : Reading s' :=
  ⟨by rw [hp]; exact h.dt, by rw [hp]; exact h.ds, by rw [hp]; exact e.inDoc _ h.last, by rw [e.root]; exact e.inDoc _ h.root,
    by rw [hc]; exact h.cls, fun k q hq => e.lt (h.map k q (by rw [← hp]; exact hq))⟩

/-- A term that was made just now and is handed to the parser. -/
structure Newcomer (s : St) (t : Nat) : Prop where
  lt : t < s.next
  notSec : (s.heap t).cls.isSection = false
  sec : (s.heap t).sec = none
  tvn : (s.heap t).tvn = py!"@value"
  kids : (s.heap t).children = []
  unlisted : t ∉ s.terms
  args : lower (remapRecord s.p.paramMap (s.heap t).rt) = py!"header" → NoSectionColumn (s.heap t).args

theorem FreshT.newcomer {s' : St} {i : Nat} {cls : Cls} {term : Str} {value : Val} {args : List Str} {parent : Option Nat}
    (f : FreshT s s' i cls term value args parent none) (w : Inv s) (hc : cls.isSection = false)
    (ha : lower (remapRecord s'.p.paramMap (s'.heap i).rt) = py!"header" → NoSectionColumn args) : Newcomer s' i := by
  obtain ⟨h1, h2, h3, h4, h5, h6, h7, h8, _⟩ := f.at_
  refine ⟨f.lt, by rw [h5]; exact hc, h4, h6, h1, fun h => ?_, fun h => by rw [h8]; exact noSection_map (ha h)⟩
  rw [f.rest.2.1] at h
  have := (w.termsLt i h).1
  rw [f.eq] at this
  exact Nat.lt_irrefl _ this

theorem FreshT.reading {s' : St} {i : Nat} {cls : Cls} {term : Str} {value : Val} {args : List Str} {parent sec : Option Nat}
    (f : FreshT s s' i cls term value args parent sec) (h : Reading s) (e : Evo s s') : Reading s' :=
  h.step e f.rest.2.2.1 f.rest.2.2.2.2

theorem substSynonym_init {p r : Str} : substSynonym initDeclTerms p r = .ok (p, r) := by
  unfold substSynonym
  have : synonyms initDeclTerms = [] := by decide
  rw [this]; rfl

theorem superTerms_init (w : Inv s) (h : s.p.declTerms = initDeclTerms) : parserSuperTerms s = [] := by
  unfold parserSuperTerms
  rw [w.noSuper, h, if_neg (fun h => h rfl)]
  decide

theorem inDoc_sec (w : Inv s) {x : Nat} (h : HasSec s x) : x < s.next ∧ (s.heap x).cls.isSection = true := by
  obtain ⟨k, hk⟩ := h
  exact ⟨(w.secOk k x hk).1, (w.secOk k x hk).2.1⟩

/-! ## Terms -/

theorem at_applyDecl {t : Nat} (ht : t < s.next) (hns : (s.heap t).cls.isSection = false) :
    AT (applyDecl t) (fun _ s' => Own s s' ∧ (s'.heap t).sec = (s.heap t).sec) s := by
  unfold applyDecl
  refine at_get ?_
  dsimp only
  have own : ∀ {s1 : St} {o : Obj}, Own s s1 ∧ (s1.heap t).sec = (s.heap t).sec → o.children = (s1.heap t).children → o.sec = (s1.heap t).sec →
      o.pt = (s1.heap t).pt → o.rt = (s1.heap t).rt → Own s (s1.setObj t o) ∧ ((s1.setObj t o).heap t).sec = (s.heap t).sec := by
    intro s1 o h a b c d
    refine ⟨h.1.trans (Own.setObj a b c d), ?_⟩
    rw [heap_setObj, if_pos rfl, b]; exact h.2
  refine at_bind (Q := fun _ s' => Own s s' ∧ (s'.heap t).sec = (s.heap t).sec)
    (at_upd' rfl (fun w => w.setTerm ht hns rfl rfl rfl rfl rfl rfl) (own ⟨Own.refl s, rfl⟩ rfl rfl rfl rfl)) fun _ s1 _ e1 o1 => ?_
  refine at_bind (Q := fun _ s' => Own s s' ∧ (s'.heap t).sec = (s.heap t).sec)
    (at_mono (at_setTvn (e1.lt ht) (e1.notSec ht hns)) fun _ s2 _ _ h => by subst h; exact own o1 rfl rfl rfl rfl) fun _ s2 _ e2 o2 => ?_
  have e12 := e1.trans e2
  exact at_upd' rfl (fun w => w.setTerm (e12.lt ht) (e12.notSec ht hns) rfl rfl rfl rfl rfl rfl) (own o2 rfl rfl rfl rfl)

/-- What placing `t` leaves alone. -/
structure Placing (t : Nat) (s s' : St) : Prop where
  reading : Reading s'
  lastSec : s'.p.lastSec = s.p.lastSec
  terms : s'.terms = s.terms
  sec : (s'.heap t).sec = (s.heap t).sec
  rt : (s'.heap t).rt = (s.heap t).rt
  kids : ∀ c ∈ (s'.heap t).children, c ∈ (s.heap t).children ∨ c = t

theorem at_addChild {q t : Nat} (hq : q < s.next) (ht : t < s.next) (hns : (s.heap t).cls.isSection = false) (hl : Reading s) :
    AT (addChild q t) (fun _ s' => Placing t s s') s := by
  unfold addChild
  have e1 : Evo s (s.setObj q { s.heap q with children := (s.heap q).children ++ [t] }) := evo_setObj rfl
  refine at_upd rfl (fun w => w.attach hq ht hns) ?_
  generalize hs1 : s.setObj q { s.heap q with children := (s.heap q).children ++ [t] } = s1 at e1
  have e2 : Evo s1 (s1.setObj t { s1.heap t with parent := some q }) := evo_setObj rfl
  refine at_upd rfl (fun w => w.setTerm (e1.lt ht) (e1.notSec ht hns) rfl rfl rfl rfl rfl rfl) (at_obj (at_assert' fun _ => ?_))
  refine ⟨hl.step (e1.trans e2) (by rw [← hs1]; rfl) (by rw [← hs1]; rfl), by rw [← hs1]; rfl, by rw [← hs1]; rfl, ?_, ?_, ?_⟩
  · rw [heap_setObj, if_pos rfl, ← hs1]; dsimp only; rw [heap_setObj]; split
    · next e => rw [e]
    · rfl
  · rw [heap_setObj, if_pos rfl, ← hs1]; dsimp only; rw [heap_setObj]; split
    · next e => rw [e]
    · rfl
  · intro c hc
    rw [heap_setObj, if_pos rfl, ← hs1] at hc; dsimp only at hc; rw [heap_setObj] at hc; split at hc
    · next e =>
      rcases List.mem_append.1 hc with h | h
      · rw [e]; exact .inl h
      · exact .inr (List.mem_singleton.1 h)
    · exact .inl hc

theorem at_attach {name : Str} {e : Err} {t : Nat} (ht : t < s.next) (hns : (s.heap t).cls.isSection = false) (hl : Reading s) :
    AT (attach name e t) (fun _ s' => Placing t s s') s := by
  unfold attach
  refine at_get ?_
  split
  · next q hq => exact at_addChild (hl.map _ q hq) ht hns hl
  · exact at_raise

theorem at_placeTerm {t : Nat} (ht : t < s.next) (hns : (s.heap t).cls.isSection = false) (hu : t ∉ s.terms) (hl : Reading s) :
    AT (placeTerm t) (fun _ s' => Placing t s s') s := by
  unfold placeTerm
  refine at_inv fun w => at_get ?_
  dsimp only
  refine at_ite (fun _ => ?_) fun _ => at_ite (fun _ => at_attach ht hns hl) fun _ => ?_
  · refine at_upd rfl (fun w => w.setObj ht rfl rfl (fun h => absurd h hu) (fun h => by rw [hns] at h; cases h) (w.kid t) (w.secLt t ht) rfl) ?_
    have e1 : Evo s (s.setObj t { s.heap t with pt := s.p.lastParent }) := evo_setObj rfl
    refine at_mono (at_attach (e1.lt ht) (e1.notSec ht hns) (hl.step e1 rfl rfl)) fun _ s' _ _ h => ?_
    have hh : (s.setObj t { s.heap t with pt := s.p.lastParent }).heap t = { s.heap t with pt := s.p.lastParent } := by
      rw [heap_setObj, if_pos rfl]
    exact ⟨h.reading, h.lastSec, h.terms, by rw [h.sec, hh], by rw [h.rt, hh], fun c hc => by have := h.kids c hc; rw [hh] at this; exact this⟩
  · refine at_modify (fun w => w.same rfl rfl rfl rfl rfl rfl rfl rfl) (Evo.same rfl rfl rfl rfl) ?_
    refine at_mono (at_attach ht hns ⟨hl.dt, hl.ds, hl.last, hl.root, hl.cls, fun k q hq => ?_⟩) fun _ s' _ _ h =>
      ⟨h.reading, h.lastSec, h.terms, h.sec, h.rt, h.kids⟩
    dsimp only at hq
    rw [Dict.get?_set] at hq
    split at hq
    · cases hq; exact ht
    · rw [Dict.get?_set] at hq
      split at hq
      · cases hq; exact ht
      · exact hl.map k q hq

theorem below_self {t : Nat} (h : ∀ c ∈ (s.heap t).children, c = t) {u : Nat} (hb : Under s t u) : u = t := by
  induction hb with
  | single h1 => exact h _ h1
  | tail _ h1 ih => subst ih; exact h _ h1

/-- A new term goes through a round of the parser. -/
theorem at_iterTerm {t : Nat} (hn : Newcomer s t) (hl : Reading s) :
    AT (iterBody t) (fun y s' => Reading s' ∧ (s'.heap t).rt = remapRecord s.p.paramMap (s.heap t).rt ∧
      (y = true → lower (s'.heap t).pt = ROOT → t ∈ s'.terms)) s := by
  unfold iterBody
  obtain ⟨ht, hns, hsec, htvn, hkids, hu, hargs⟩ := hn
  refine at_inv fun w => at_get (at_lift fun ⟨p, r⟩ hpr => ?_)
  rw [hl.dt, substSynonym_init] at hpr
  cases hpr
  dsimp only
  have e1 : Evo s (s.setObj t { s.heap t with pt := (s.heap t).pt, rt := remapRecord s.p.paramMap (s.heap t).rt }) := evo_setObj rfl
  refine at_upd rfl (fun w => w.setTerm ht hns rfl rfl rfl rfl rfl rfl) ?_
  generalize hs1 : s.setObj t { s.heap t with pt := (s.heap t).pt, rt := remapRecord s.p.paramMap (s.heap t).rt } = s1 at e1
  have h1 : s1.heap t = { s.heap t with pt := (s.heap t).pt, rt := remapRecord s.p.paramMap (s.heap t).rt } := by rw [← hs1, heap_setObj, if_pos rfl]
  have p1 : s1.p = s.p := by rw [← hs1]; rfl
  have t1 : s1.terms = s.terms := by rw [← hs1]; rfl
  have c1 : s1.classes = s.classes := by rw [← hs1]; rfl
  have hls := inDoc_sec w hl.last
  -- the section is set
  refine at_bind (Q := fun _ s' => s' = s1.setObj t { s1.heap t with sec := some s.p.lastSec }) ?_ fun _ s2 w2 e2 h2 => ?_
  · unfold setSection
    refine at_get ?_
    dsimp only
    have q1 : lower (s1.heap t).tvn ≠ py!"section" := by rw [h1]; dsimp only; rw [htvn]; decide
    have q2 : py!"section" ∉ (propertyNames s1 t).map lower := by
      unfold propertyNames; rw [h1]; dsimp only; rw [hns, hsec]; simp
    rw [if_neg q1, if_neg q2]
    refine at_upd' rfl (fun w => ?_) rfl
    refine w.setObj (e1.lt ht) rfl rfl (fun h => absurd (t1 ▸ h) hu) (fun h => by rw [e1.notSec ht hns] at h; cases h) (w.kid t) ?_ rfl
    intro x hx
    cases hx
    exact ⟨e1.lt hls.1, e1.isSec hls.1 hls.2⟩
  have hh2 : s2.heap t = { s1.heap t with sec := some s.p.lastSec } := by rw [h2, heap_setObj, if_pos rfl]
  have p2 : s2.p = s.p := by rw [h2]; exact p1
  have t2 : s2.terms = s.terms := by rw [h2]; exact t1
  have e02 := e1.trans e2
  have l2 : Reading s2 := hl.step e02 p2 (by rw [h2]; exact c1)
  have rt2 : (s2.heap t).rt = remapRecord s.p.paramMap (s.heap t).rt := by rw [hh2, h1]
  have ht2 := e02.lt ht
  have hns2 := e02.notSec ht hns
  refine at_obj (at_ite (fun hhead => ?_) fun _ => ?_)
  · refine at_modify (fun w => w.same rfl rfl rfl rfl rfl rfl rfl rfl) (Evo.same rfl rfl rfl rfl) ?_
    split
    · refine at_modify (fun w => w.same rfl rfl rfl rfl rfl rfl rfl rfl) (Evo.same rfl rfl rfl rfl) ?_
      have hx2 := e02.lt hls.1
      have hne : t ≠ s.p.lastSec := by
        intro e; rw [← e, hns] at hls; cases hls.2
      have ha2 : NoSectionColumn (s2.heap t).args := by rw [hh2, h1]; exact hargs (by
        have : dotJoin (lower (s2.heap t).pt) (lower (s2.heap t).rt) = dotJoin (py!"root") (py!"header") := hhead
        rw [rt2] at this
        exact ((dotJoin_inj (by decide) (by decide)).1 this).2)
      refine at_upd rfl (fun w => ?_) (at_pure ⟨?_, ?_, fun h => by cases h⟩)
      · refine w.setObj hx2 rfl rfl (fun h => ⟨rfl, (w.termsLt _ h).2.2⟩) (fun h => ?_) (w.kid _) (w.secLt _ hx2) rfl
        have := w.noCol _ hx2 h
        exact ⟨rfl, rfl, rfl, this.1, ha2, this.2.2⟩
      · exact ⟨l2.dt, l2.ds, l2.last, l2.root, l2.cls, l2.map⟩
      · rw [heap_setObj, if_neg hne]; exact rt2
    · exact at_raise
  · have fin : ∀ s', (Reading s' ∧ (s'.heap t).rt = remapRecord s.p.paramMap (s.heap t).rt ∧ (lower (s'.heap t).pt = ROOT → t ∈ s'.terms)) →
        AT (if (s2.heap t).isDecl = true then do
          manageDeclare t
          return false
        else return true) (fun y s' => Reading s' ∧ (s'.heap t).rt = remapRecord s.p.paramMap (s.heap t).rt ∧
          (y = true → lower (s'.heap t).pt = ROOT → t ∈ s'.terms)) s' := by
      intro s' h
      rw [w2.noDecl t]
      exact at_pure ⟨h.1, h.2.1, fun _ => h.2.2⟩
    have notSec : ∀ {m : M Bool} {Q : Bool → St → Prop}, AT (do
        if (!(s2.heap t).cls.isSection) = true then M.raise .unmodelled
        m) Q s2 := by
      intro m Q
      rw [hns2]
      exact at_bind (Q := fun _ _ => False) at_raise fun _ _ _ _ h => h.elim
    refine at_ite (fun _ => ?_) fun _ => at_ite (fun _ => ?_) fun _ => ?_
    · rw [hns2]; exact at_bind (Q := fun _ _ => False) at_raise fun _ _ _ _ h => h.elim
    · rw [hns2]; exact at_bind (Q := fun _ _ => False) at_raise fun _ _ _ _ h => h.elim
    · rw [hns2]
      simp only [Bool.false_eq_true, if_false]
      refine at_bind (at_applyDecl ht2 hns2) fun _ s3 w3 e3 ⟨o3, sec3⟩ => ?_
      refine at_bind (at_placeTerm (e3.lt ht2) (e3.notSec ht2 hns2) (by rw [o3.terms, t2]; exact hu) (l2.step e3 o3.p o3.classes)) fun _ s4 w4 e4 q4 => ?_
      have rt4 : (s4.heap t).rt = remapRecord s.p.paramMap (s.heap t).rt := by rw [q4.rt, (o3.names t).2, rt2]
      have e24 := e3.trans e4
      refine at_obj (at_ite (fun hr => ?_) fun hr => fin s4 ⟨q4.reading, rt4, fun h => absurd h hr⟩)
      have hs4 : (s4.heap t).sec = some s.p.lastSec := by rw [q4.sec, sec3, hh2]
      have hd4 : HasSec s4 s.p.lastSec := by rw [← p2]; exact e24.inDoc _ l2.last
      have hlist : Listable s4 t := by
        refine ⟨e24.notSec ht2 hns2, hr, _, hs4, hd4, fun u hub hm => ?_⟩
        have : u = t := below_self (fun c hc => by
          rcases q4.kids c hc with h | h
          · rw [o3.kids, hh2, h1] at h
            dsimp only at h
            rw [hkids] at h; cases h
          · exact h) hub
        rw [this]; exact hs4
      refine at_bind (at_sectionAddTerm (e24.lt ht2) hlist hs4) fun _ s5 _ e5 ⟨k5, m5⟩ => fin s5 ⟨q4.reading.step e5 k5.p k5.classes, ?_, fun _ => m5⟩
      rw [(k5.names t).2]; exact rt4

theorem at_loadTerm {t : Nat} (hns : (s.heap t).cls.isSection = false) (h : lower (s.heap t).pt = ROOT → t ∈ s.terms) :
    AT (loadBody t) (fun _ s' => s' = s) s := by
  unfold loadBody
  refine at_obj (at_ite (fun _ => at_pure rfl) fun _ => at_ite (fun _ => ?_) fun _ => at_ite (fun hr => ?_) fun _ => at_assert' fun _ => rfl)
  · unfold addSection
    refine at_bind (Q := fun _ _ => False) (at_obj (at_assert fun hc => ?_)) fun _ _ _ _ h => h.elim
    rw [hns] at hc; cases hc
  · unfold docAddTerm
    exact at_get (at_ite (fun _ => at_pure rfl) fun hn => absurd (h hr) hn)

theorem at_consumeTerm {t : Nat} (hn : Newcomer s t) (hl : Reading s) :
    AT (consume true t) (fun _ s' => Reading s' ∧ (s'.heap t).rt = remapRecord s.p.paramMap (s.heap t).rt) s := by
  unfold consume
  refine at_bind (at_iterTerm hn hl) fun y s1 _ e1 ⟨l1, r1, m1⟩ => at_ite (fun hy => ?_) fun _ => at_pure ⟨l1, r1⟩
  refine at_mono (at_loadTerm (e1.notSec hn.lt hn.notSec) (m1 (by simpa using hy))) fun _ s2 _ _ e => ?_
  subst e; exact ⟨l1, r1⟩

/-! ## Sections -/

/-- A section that the parser may go to: one of the document's, or an empty new one whose name is free. -/
structure Enterable (s : St) (x : Nat) : Prop where
  lt : x < s.next
  isSec : (s.heap x).cls.isSection = true
  free : HasSec s x ∨ ((s.heap x).terms = [] ∧ x ≠ s.root ∧ ∀ n, (s.heap x).value = .str n → s.sections.get? (lower n) = none)

theorem at_setSection {x : Nat} {v : Option Nat} (hx : x < s.next) (hc : (s.heap x).cls.isSection = true)
    (hv : ∀ y, v = some y → y < s.next ∧ (s.heap y).cls.isSection = true) :
    AT (setSection x v) (fun _ s' => s' = s.setObj x { s.heap x with sec := v }) s := by
  unfold setSection
  refine at_inv fun w => at_get ?_
  dsimp only
  obtain ⟨n1, n2, n3⟩ := w.noCol x hx hc
  have q2 : py!"section" ∉ (propertyNames s x).map lower := by
    unfold propertyNames Obj.secPropertyNames; rw [hc]; simp only [if_true]; split
    · exact noSection_lower n2
    · exact noSection_lower n1
  rw [if_neg n3, if_neg q2]
  refine at_upd' rfl (fun w => ?_) rfl
  refine w.setObj hx rfl rfl (fun h => ?_) (fun h => ⟨rfl, rfl, rfl, n1, n2, n3⟩) (w.kid x) hv rfl
  have := (w.termsLt x h).2.1
  rw [hc] at this; cases this

theorem at_consumeSection {x : Nat} (hn : Enterable s x) (hl : Reading s) :
    AT (consume true x) (fun _ s' => Reading s' ∧ HasSec s' x) s := by
  obtain ⟨hx, hc, hf⟩ := hn
  unfold consume iterBody
  refine at_inv fun w => ?_
  obtain ⟨hpt, hrt⟩ := w.secName x hx hc
  have hls := inDoc_sec w hl.last
  have hrm : remapRecord s.p.paramMap (s.heap x).rt = (s.heap x).rt := by
    rw [hrt]; unfold remapRecord; by_cases h : x = s.root <;> simp only [h, if_true, if_false] <;> rfl
  -- the whole round
  have round : AT (iterBody x) (fun y s' => y = true ∧ (s'.heap x).joinLc = (s.heap x).joinLc ∧ s'.sections = s.sections ∧
      (s'.heap x).terms = (s.heap x).terms ∧ (s'.heap x).value = (s.heap x).value ∧ s'.classes = s.classes ∧
      s'.p.declTerms = s.p.declTerms ∧ s'.p.declSecs = s.p.declSecs ∧ s'.p.lastMap = s.p.lastMap ∧ s'.p.lastSec = x) s := by
    unfold iterBody
    refine at_get (at_lift fun ⟨p, r⟩ hpr => ?_)
    rw [hl.dt, substSynonym_init] at hpr
    cases hpr
    dsimp only
    rw [hrm]
    have hnt : x ∉ s.terms := fun h => by have := (w.termsLt x h).2.1; rw [hc] at this; cases this
    have same : s.setObj x { s.heap x with pt := (s.heap x).pt, rt := (s.heap x).rt } = s := by
      unfold St.setObj
      congr 1; funext j; split
      · next e => rw [e]
      · rfl
    refine at_upd rfl (fun w => by rw [same]; exact w) ?_
    rw [same]
    refine at_bind (at_setSection hx hc (fun y e => by cases e; exact hls)) fun _ s1 w1 e1 h1 => ?_
    have hh1 : s1.heap x = { s.heap x with sec := some s.p.lastSec } := by rw [h1, heap_setObj, if_pos rfl]
    have hj : (s1.heap x).joinLc = if x = s.root then py!"root.root" else py!"root.section" := by
      rw [hh1]; unfold Obj.joinLc; dsimp only; rw [hpt, hrt]; split <;> rfl
    have hj0 : (s.heap x).joinLc = if x = s.root then py!"root.root" else py!"root.section" := by
      unfold Obj.joinLc; rw [hpt, hrt]; split <;> rfl
    have hc1 : (s1.heap x).cls.isSection = true := e1.isSec hx hc
    refine at_obj (at_ite (fun h => ?_) fun _ => ?_)
    · rw [hj] at h; split at h <;> cases h
    · have last : ∀ g : PSt → PSt, (∀ p, (g p).declTerms = p.declTerms ∧ (g p).declSecs = p.declSecs ∧ (g p).lastMap = p.lastMap ∧ (g p).lastSec = x) →
          AT (do
            updP g
            setSection x none
            if (s1.heap x).isDecl = true then do
              manageDeclare x
              return false
            else return true) (fun y s' => y = true ∧ (s'.heap x).joinLc = (s.heap x).joinLc ∧ s'.sections = s.sections ∧
              (s'.heap x).terms = (s.heap x).terms ∧ (s'.heap x).value = (s.heap x).value ∧ s'.classes = s.classes ∧
              s'.p.declTerms = s.p.declTerms ∧ s'.p.declSecs = s.p.declSecs ∧ s'.p.lastMap = s.p.lastMap ∧ s'.p.lastSec = x) s1 := by
        intro g hg
        refine at_modify (fun w => w.same rfl rfl rfl rfl rfl rfl rfl rfl) (Evo.same rfl rfl rfl rfl) ?_
        refine at_bind (at_setSection (s := { s1 with p := g s1.p }) (e1.lt hx) hc1 (fun y e => by cases e)) fun _ s2 _ _ h2 => ?_
        rw [w1.noDecl x]
        have hh2 : s2.heap x = { s.heap x with sec := none } := by
          rw [h2, heap_setObj, if_pos rfl]; dsimp only; rw [hh1]
        obtain ⟨g1, g2, g3, g4⟩ := hg s1.p
        have sp : s1.p = s.p := by rw [h1]; rfl
        refine at_pure ⟨rfl, by rw [hh2]; rfl, by rw [h2, h1]; rfl, by rw [hh2], by rw [hh2], by rw [h2, h1]; rfl, ?_, ?_, ?_, ?_⟩
        · rw [h2]; show (g s1.p).declTerms = _; rw [g1, sp]
        · rw [h2]; show (g s1.p).declSecs = _; rw [g2, sp]
        · rw [h2]; show (g s1.p).lastMap = _; rw [g3, sp]
        · rw [h2]; exact g4
      rw [hc1]
      refine at_ite (fun _ => ?_) fun hnot => at_ite (fun _ => ?_) fun hnot2 => ?_
      · exact last _ fun p => ⟨rfl, rfl, rfl, rfl⟩
      · exact last _ fun p => ⟨rfl, rfl, rfl, rfl⟩
      · rw [hj] at hnot hnot2
        exfalso
        by_cases e : x = s.root
        · rw [if_pos e] at hnot2; exact hnot2 rfl
        · rw [if_neg e] at hnot; exact hnot rfl
  refine at_bind round fun y s1 w1 e1 ⟨hy, hj, h2, h3, h4, h5, h6, h7, h8, h9⟩ => ?_
  rw [hy]
  simp only [Bool.and_true, if_true]
  have hj0 : (s.heap x).joinLc = if x = s.root then py!"root.root" else py!"root.section" := by
    unfold Obj.joinLc; rw [hpt, hrt]; split <;> rfl
  have reading : ∀ s', Evo s1 s' → s'.p = s1.p → s'.classes = s1.classes → HasSec s' x → Reading s' := by
    intro s' e hp hcl hd
    refine ⟨by rw [hp, h6]; exact hl.dt, by rw [hp, h7]; exact hl.ds, by rw [hp, h9]; exact hd, ?_, by rw [hcl, h5]; exact hl.cls, ?_⟩
    · rw [(e1.trans e).root]; exact (e1.trans e).inDoc _ hl.root
    · intro k q hq
      rw [hp, h8] at hq
      exact (e1.trans e).lt (hl.map k q hq)
  unfold loadBody
  refine at_obj ?_
  rw [hj, hj0]
  by_cases hr : x = s.root
  · rw [if_pos hr]
    simp only [if_true]
    have hd : HasSec s1 x := by rw [hr]; exact e1.inDoc _ hl.root
    exact at_pure ⟨reading s1 (Evo.refl _) rfl rfl hd, hd⟩
  · rw [if_neg hr]
    have q : (py!"root.section" : Str) ≠ py!"root.root" := by decide
    simp only [if_neg q, if_true]
    have hfree : HasSec s1 x ∨ (s1.heap x).terms = [] := by
      rcases hf with h | h
      · exact .inl (e1.inDoc x h)
      · rw [h3]; exact .inr h.1
    refine at_bind (at_addSection (e1.lt hx) hfree) fun y s2 _ e2 ⟨a1, a2, a3, a4, a5, a6⟩ => ?_
    have hyx : y = x := by
      refine a6 fun n hv => ?_
      rw [h4] at hv
      rw [h2]
      rcases hf with ⟨k, hk⟩ | h
      · obtain ⟨_, _, m, hv', e⟩ := w.secOk k x hk
        rw [hv] at hv'; cases hv'
        rw [e]; exact .inr hk
      · exact .inl (h.2.2 n hv)
    rw [hyx] at a1
    exact at_pure ⟨reading s2 e2 a4 a5 a1, a1⟩

/-! ## Rows -/

theorem parserTermClass_section (w : Inv s) (hl : Reading s) {name : Str} (h : parserTermClass s name = .section) : lower name = py!"root.section" := by
  unfold parserTermClass at h
  rw [superTerms_init w hl.dt] at h
  simp only [Dict.get?_nil] at h
  split at h
  · next c hc => subst h; exact hl.cls _ hc
  · cases h

theorem normalizeTerm_lower_self {c name : Str} (h : normalizeTerm c = .ok name) : lower name = name := by
  unfold normalizeTerm at h
  cases hs : splitTermLower c with
  | error e => rw [hs] at h; cases h
  | ok pr =>
    obtain ⟨p, r⟩ := pr
    rw [hs] at h; cases h
    obtain ⟨h1, h2⟩ := splitTermLower_low hs
    unfold dotJoin
    simp only [lower_append, lower_cons]
    rw [h1, h2]; rfl

theorem splitTermLower_cell {c p r : Str} (h : splitTermLower c = .ok (p, r)) : ∃ q, cellNames c = some (q, r) := by
  unfold splitTermLower splitTerm at h
  unfold cellNames
  by_cases hd : '.' ∈ c
  · rw [if_pos hd] at h
    split at h
    · next a b hab =>
      simp only [bind, Except.bind, pure, Except.pure, Except.ok.injEq, Prod.mk.injEq] at h
      obtain ⟨-, rfl⟩ := h
      rw [hab]
      exact ⟨_, rfl⟩
    · cases h
  · rw [if_neg hd] at h
    simp only [bind, Except.bind, pure, Except.pure, Except.ok.injEq, Prod.mk.injEq] at h
    obtain ⟨-, rfl⟩ := h
    rw [splitOn_not_mem hd]
    exact ⟨_, rfl⟩

theorem normalizeTerm_cell {c name p r : Str} (h : normalizeTerm c = .ok name) (hs : splitTermLower name = .ok (p, r)) :
    ∃ q, cellNames c = some (q, r) := by
  unfold normalizeTerm at h
  cases hc : splitTermLower c with
  | error e => rw [hc] at h; cases h
  | ok pr =>
    obtain ⟨p', r'⟩ := pr
    rw [hc] at h; cases h
    have := splitTermLower_again hc
    have e : splitTermLower (dotJoin p' r') = .ok (p, r) := hs
    rw [this] at e
    cases e
    exact splitTermLower_cell hc

theorem at_rowTerm {row : List Str} (hl : Reading s) (hr : NoSectionRow row) (hk : kind row ≠ .noise) :
    AT (rowTerm false row) (fun t s' => Reading s' ∧ ((s'.heap t).joinLc ≠ py!"root.section" → Newcomer s' t) ∧
      (∀ x, resolveSection s' t = .ok x → Enterable s' x) ∧ '.' ∉ (s'.heap t).pt ∧ Low (s'.heap t).pt ∧ Low (s'.heap t).rt) s := by
  unfold rowTerm
  refine at_inv fun w => at_lift fun name hname => at_get ?_
  dsimp only
  have plain : ∀ c : Cls, c.isSection = false → AT (newTermObj c name (Val.str ((row[1]?).getD [])) (row.drop 2) none none 1 false)
      (fun t s' => Reading s' ∧ ((s'.heap t).joinLc ≠ py!"root.section" → Newcomer s' t) ∧
      (∀ x, resolveSection s' t = .ok x → Enterable s' x) ∧ '.' ∉ (s'.heap t).pt ∧ Low (s'.heap t).pt ∧ Low (s'.heap t).rt) s := by
    intro c hc
    refine at_mono (at_newTermObj (fun h => by rw [hc] at h; cases h) (fun q h => by cases h)) fun t s' _ e f => ?_
    have hsp := f.at_.2.2.2.2.2.2.2.2.2.2 rfl
    obtain ⟨q, hq⟩ := normalizeTerm_cell hname hsp
    have hn := f.newcomer w hc fun h => hr hk q _ hq (by
      cases hi : pyInt (s'.heap t).rt with
      | none =>
        unfold remapRecord at h
        rw [hi] at h
        exact .inr (.inl (by rw [← h]; exact (splitTermLower_low hsp).2.symm))
      | some k => exact .inr (.inr (by simp)))
    refine ⟨f.reading hl e, fun _ => hn, fun x hx => ?_, (splitTermLower_cases hsp).2.2.2.1, splitTermLower_low hsp⟩
    unfold resolveSection at hx
    rw [hn.notSec] at hx
    cases hx
  cases hc : parserTermClass s name with
  | «section» =>
    have hsec := parserTermClass_section w hl hc
    rw [normalizeTerm_lower_self hname] at hsec
    subst hsec
    refine at_mono (at_newSectionObj rfl (by
      obtain ⟨q, hq⟩ := normalizeTerm_cell hname (p := py!"root") (r := py!"section") rfl
      exact hr hk q _ hq (.inl rfl))) fun t s' w' e ⟨a, f⟩ => ?_
    have hsp := f.at_.2.2.2.2.2.2.2.2.2.2 rfl
    have e1 : splitTermLower (py!"root.section") = .ok (py!"root", py!"section") := rfl
    rw [e1] at hsp
    injection hsp with hsp
    injection hsp with h1 h2
    refine ⟨f.reading hl e, fun h => absurd ?_ h, fun x hx => ?_, ?_, ?_, ?_⟩
    · unfold Obj.joinLc; rw [← h1, ← h2]; rfl
    · unfold resolveSection at hx
      split at hx
      · next n hcl hv =>
        cases hx
        cases hg : s'.sections.get? (lower n) with
        | some y =>
          obtain ⟨a, b⟩ := inDoc_sec w' ⟨_, hg⟩
          exact ⟨a, b, .inl ⟨_, hg⟩⟩
        | none =>
          refine ⟨f.lt, hcl, .inr ⟨f.at_.2.1, ?_, fun m hm => ?_⟩⟩
          · show t ≠ s'.root
            rw [e.root, f.eq]; exact Nat.ne_of_gt w.rootLt
          · have hm' : (s'.heap t).value = .str m := hm
            rw [hv] at hm'; cases hm'; exact hg
      · cases hx
    · rw [← h1]; decide
    · rw [← h1]; rfl
    · rw [← h2]; rfl
  | root => exact at_raise
  | term => exact plain _ rfl
  | user n => exact plain _ rfl

theorem at_argTerm {t col : Nat} {v : Str} (hl : Reading s) : AT (argTerm false t col v) (fun c s' => Reading s' ∧ Newcomer s' c) s := by
  unfold argTerm
  refine at_inv fun w => at_get ?_
  dsimp only
  have plain : ∀ (c : Cls) n, c.isSection = false → AT (newTermObj c n (Val.str v) [] (some t) none (col + 2) false)
      (fun c s' => Reading s' ∧ Newcomer s' c) s := by
    intro c n hc
    refine at_mono (at_newTermObj (fun h => by rw [hc] at h; cases h) (fun q h => by cases h)) fun t s' _ e f => ?_
    exact ⟨f.reading hl e, f.newcomer w hc fun _ => noSection_nil⟩
  split
  · exact at_raise
  · exact at_raise
  · next h1 h2 =>
    refine plain _ _ ?_
    cases hc : parserTermClass s (lower (s.heap t).rt ++ '.' :: natStr col) with
    | «section» => exact absurd hc h1
    | root => exact absurd hc h2
    | term => rfl
    | user n => rfl

theorem at_argLoop {t : Nat} : ∀ {vs : List Str} {col : Nat} {s : St}, Reading s → AT (argLoop true false t col vs) (fun _ s' => Reading s') s
  | [], _, _, hl => at_pure hl
  | v :: vs, col, s, hl => by
    unfold argLoop
    refine at_ite (fun _ => ?_) fun _ => at_argLoop hl
    refine at_bind (at_argTerm hl) fun c s1 _ _ ⟨l1, n1⟩ => ?_
    exact at_bind (at_consumeTerm n1 l1) fun _ s2 _ _ h2 => at_argLoop h2.1

theorem at_yieldTerm {t : Nat} (hn : Newcomer s t) (hl : Reading s) : AT (yieldWithArgs true false t) (fun _ s' => Reading s') s := by
  unfold yieldWithArgs
  refine at_bind (at_consumeTerm hn hl) fun _ s1 _ _ h1 => at_obj ?_
  exact at_ite (fun _ => at_pure h1.1) fun _ => at_argLoop h1.1

theorem at_yieldSection {x : Nat} (hn : Enterable s x) (hl : Reading s) :
    AT (yieldWithArgs true false x) (fun _ s' => Reading s' ∧ HasSec s' x) s := by
  unfold yieldWithArgs
  refine at_bind (at_consumeSection hn hl) fun _ s1 _ _ h1 => at_obj ?_
  refine at_ite (fun _ => at_pure h1) fun _ => ?_
  exact at_mono (at_argLoop h1.1) fun _ s2 _ e2 h2 => ⟨h2, e2.inDoc x h1.2⟩

theorem at_genRows {files : Files} {sub : Str → Bool → M Unit} {dir ref : Str} (hd : ∀ d n, files.decl d n = none)
    (hsub : ∀ target s', Reading s' → AT (sub target false) (fun _ s'' => Reading s'') s') : ∀ {rows : List (List Str)} {ls : Nat} {s : St},
    (∀ row ∈ rows, NoSectionRow row) → HasSec s ls → Reading s →
    AT (genRows files sub true false dir ref ls rows) (fun _ s' => Reading s') s
  | [], _, _, _, _, hl => at_pure hl
  | row :: rows, ls, s, hrows, hls, hl => by
    unfold genRows
    have rest : ∀ {ls s'}, HasSec s' ls → Reading s' → AT (genRows files sub true false dir ref ls rows) (fun _ s' => Reading s') s' :=
      fun h1 h2 => at_genRows hd hsub (fun row h => hrows row (List.mem_cons_of_mem _ h)) h1 h2
    refine at_ite (fun _ => rest hls hl) fun hskip => ?_
    refine at_bind (at_rowTerm hl (hrows row List.mem_cons_self) fun hk => hskip (kind_noise hk)) fun t s1 w1 e1 ⟨l1, n1, x1, dot1, low1⟩ => at_obj ?_
    have hls1 := e1.inDoc ls hls
    refine at_ite (fun hi => ?_) fun _ => at_ite (fun _ => ?_) fun hns => ?_
    · have hinc : (s1.heap t).joinLc = py!"root.include" ∨ ∃ e, resolveTarget files dir (s1.heap t) = .error e := by
        rcases hi with h | h
        · exact .inl h
        · refine .inr ?_
          unfold resolveTarget
          have q : (py!"root.declare" : Str) ≠ py!"root.include" := by decide
          rw [h]
          cases (s1.heap t).value <;> simp only [if_neg q, hd] <;> exact ⟨_, rfl⟩
      refine at_lift fun target htarget => ?_
      have hinc : (s1.heap t).joinLc = py!"root.include" := by
        rcases hinc with h | ⟨e, h⟩
        · exact h
        · rw [h] at htarget; cases htarget
      refine at_ite (fun _ => at_raise) fun _ => ?_
      have hn1 := n1 (by rw [hinc]; decide)
      refine at_bind (at_consumeTerm hn1 l1) fun _ s2 _ e2 ⟨l2, r2⟩ => at_obj ?_
      have hrt : (s1.heap t).rt = py!"include" := by
        have h := hinc
        unfold Obj.joinLc at h
        have := (dotJoin_left (a := py!"root") (b := py!"include") (by rw [low1.1]; exact dot1) (by decide) h).2
        rw [low1.2] at this; exact this
      have hrt2 : (s2.heap t).rt = py!"include" := by rw [r2, hrt]; rfl
      rw [hrt2]
      have q : decide (lower (py!"include") = py!"declare") = false := by decide
      rw [q]
      refine at_bind (hsub target s2 l2) fun _ s3 w3 e3 l3 => ?_
      have hls3 := (e2.trans e3).inDoc ls hls1
      obtain ⟨a, b⟩ := inDoc_sec w3 hls3
      refine at_bind (at_consumeSection ⟨a, b, .inl hls3⟩ l3) fun _ s4 _ e4 ⟨l4, d4⟩ => rest d4 l4
    · refine at_lift fun x hx => ?_
      exact at_bind (at_yieldSection (x1 x hx) l1) fun _ s2 _ _ ⟨l2, d2⟩ => rest d2 l2
    · exact at_bind (at_yieldTerm (n1 hns) l1) fun _ s2 _ e2 l2 => rest (e2.inDoc ls hls1) l2

theorem at_gen {files : Files} (hd : ∀ d n, files.decl d n = none)
    (ho : ∀ p rs, files.rows p = some rs → ∀ row ∈ rs, NoSectionRow row) :
    ∀ {f : Nat} {dir ref : Str} {rows : List (List Str)} {s : St}, (∀ row ∈ rows, NoSectionRow row) → Reading s →
    AT (gen files true f false dir ref rows) (fun _ s' => Reading s') s
  | 0, _, _, _, _, _, _ => at_raise
  | f + 1, dir, ref, rows, s, hr, hl => by
    unfold gen
    refine at_get (at_bind (at_genRows hd (fun target s' l' => ?_) hr hl.root hl) fun _ _ _ _ h => at_pure h)
    split
    · exact at_raise
    · next rs hrs => exact at_gen hd ho (ho _ _ hrs) l'

theorem derivedOf_nil : derivedOf [] = [] := by decide

theorem at_parseRows {files : Files} {fuel : Nat} {path : Str} {rows : List (List Str)} (hp : PlainFiles files rows) (hroot : HasSec s s.root)
    (hcls : ∀ n, s.classes.get? n = some .section → n = py!"root.section") : AT (parseRows files fuel path rows) (fun _ _ => True) s := by
  unfold parseRows
  refine at_inv fun w => at_modify (fun w => w.same rfl rfl rfl rfl rfl rfl rfl rfl) (Evo.same rfl rfl rfl rfl) ?_
  refine at_bind (at_gen hp.decl hp.others hp.main ⟨rfl, rfl, hroot, hroot, hcls, fun k q hq => ?_⟩) fun _ s1 w1 _ l1 => ?_
  · have : q = s.root := by
      have := Dict.mem_of_get? hq
      simp only [initP, List.mem_cons, List.not_mem_nil, or_false] at this
      rcases this with h | h <;> cases h <;> rfl
    rw [this]; exact w.rootLt
  · unfold finishLoad
    refine at_modify' (fun w => ?_) (Evo.same rfl rfl rfl rfl) trivial
    have hs : s1.superTerms.update (parserSuperTerms s1) = [] := by rw [superTerms_init w1 l1.dt, w1.noSuper]; rfl
    dsimp only
    rw [hs]
    obtain ⟨a1, a2, a3, a4, a5, a6, a7, a8, a9, a10, a11, a12, a13, a14, a15, a16, a17⟩ := w
    refine ⟨a1, a2, a3, a4, a5, a6, a7, a8, a9, a10, a11, a12, a13, fun k d hk => ?_, rfl, derivedOf_nil, a17⟩
    dsimp only at hk
    rw [Dict.get?_update, l1.ds] at hk
    cases hi : Dict.get? (initDeclSecs.reverse) k with
    | some d' =>
      rw [hi] at hk
      cases hk
      have := Dict.mem_of_get? hi
      simp only [initDeclSecs, List.reverse_cons, List.reverse_nil, List.nil_append, List.cons_append, List.mem_cons, List.not_mem_nil, or_false] at this
      rcases this with h | h | h <;> cases h <;> exact noSection_nil
    | none => rw [hi] at hk; exact a14 k d hk

end Metatab
