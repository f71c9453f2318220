import Verif.Spec.Build
import Verif.Props.NewChild
import Verif.Props.Sections
import Verif.Props.RoundTrip
import Verif.Props.LineFile
/-! # C94: documents built by calls -/
namespace Metatab
open Py _root_.Spec

/-- Names without a dot have no section class, and declared value names are usable. -/
structure _root_.Spec.Usable (s : St) : Prop where
  cls : ∀ n, '.' ∉ n → (docTermClass s n).isSection = false
  tvn : ∀ n, lower (declProp s.declTerms n (py!"termvaluename") (py!"@value")) ∉ reservedTvn

theorem _root_.Spec.Usable.congr {s s' : St} (h : Usable s) (h1 : s'.classes = s.classes) (h2 : s'.superTerms = s.superTerms) (h3 : s'.declTerms = s.declTerms) :
    Usable s' := by
  refine ⟨fun n hn => ?_, fun n => ?_⟩
  · unfold docTermClass; rw [h1, h2]; exact h.cls n hn
  · rw [h3]; exact h.tvn n

/-- New objects below `t`, and nothing else. -/
structure Grown (s s' : St) (t : Nat) (l : List Nat) : Prop where
  rest : s' = { s with next := s'.next, heap := s'.heap }
  le : s.next ≤ s'.next
  old : ∀ j, j < s.next → j ≠ t → s'.heap j = s.heap j
  par : s'.heap t = { s.heap t with children := (s.heap t).children ++ l }

theorem Grown.usable {s s' : St} {t : Nat} {l : List Nat} (g : Grown s s' t l) (h : Usable s) : Usable s' := by
  have e := g.rest
  exact h.congr (by rw [e]) (by rw [e]) (by rw [e])

theorem asVal_mk {v : Option Str} (h : cleanValue v = true) : ∃ w, textOf (asVal v) = some w ∧ w.mk = asVal v := by
  cases v with
  | none => exact ⟨.none, rfl, rfl⟩
  | some y =>
    unfold cleanValue at h
    rw [Bool.and_eq_true, decide_eq_true_eq, decide_eq_true_eq] at h
    refine ⟨.str y, rfl, ?_⟩
    show Val.mk (.str y) = .str y
    unfold Val.mk
    rw [if_pos (by simp [Val.truthy, h.1])]
    simp [h.2]

theorem asVal_stored {v : Option Str} (h : cleanValue v = true) : (asVal v).mk = asVal v := by
  obtain ⟨w, h1, h2⟩ := asVal_mk h
  cases v with
  | none => rfl
  | some y => cases h1; exact h2

theorem reach_newChild {s s' : St} {t c : Nat} {n : Str} {v : Val} (h : Reach Op.noAddChild s) (ht : t < s.next) (e : newChild t n v [] s = .ok c s') :
    Reach Op.noAddChild s' := by
  have := Reach.step (.newChild t n v []) h trivial ht
  have e' : after (Op.newChild t n v []).run s = s' := by
    show after (do let _ ← newChild t n v []) s = s'
    unfold after
    rw [bind_run, e]
    rfl
  rw [e'] at this
  exact this

mutual
theorem addKid_run : ∀ (i : Item) {s : St} {t x : Nat}, t < s.next → Usable s → (s.heap t).sec = some x → i.given →
    ∃ s', addKid t i s = .ok () s' ∧ Grown s s' t [s.next] ∧ s.next < s'.next ∧ (s'.heap s.next).parent = some t ∧
      (s'.heap s.next).pt = (s.heap t).rt ∧ (Reach Op.noAddChild s → Reach Op.noAddChild s') ∧
      ∀ s'' : St, (∀ j, s.next ≤ j → j < s'.next → s''.heap j = s'.heap j) → ShowsItem s'' x i.low s.next
  | .mk n v ks, s, t, x, ht, hu, hx, hg => by
    unfold Item.given at hg
    obtain ⟨hn, hsec, hv, hks⟩ := hg
    obtain ⟨w, hw1, hw2⟩ := asVal_mk hv
    have hk : KidOk s t n (s.heap t).rt (lower n) :=
      ⟨⟨ROOT, splitTermLower_plain hn, .inl ⟨rfl, rfl⟩⟩, hu.cls _ (fun h => hn.nodot (dot_mem_lower.1 h)), hsec, hu.tvn _⟩
    have e1 := C68_new ht hk hw1
    obtain ⟨o, ho⟩ : ∃ o, o = kidObj s t n (s.heap t).rt (lower n) w := ⟨_, rfl⟩
    rw [← ho] at e1
    obtain ⟨s1, hs1⟩ : ∃ s1, s1 = withChild s t o := ⟨_, rfl⟩
    rw [← hs1] at e1
    have hh : ∀ j, s1.heap j = if j = s.next then o else if j = t then { s.heap t with children := (s.heap t).children ++ [s.next] } else s.heap j :=
      fun j => by rw [hs1]; rfl
    have hn1 : s1.next = s.next + 1 := by rw [hs1]; rfl
    have hc1 : s1.heap s.next = o := by rw [hh, if_pos rfl]
    obtain ⟨s', l, e2, g, hl, hr, hsh⟩ := addKids_run ks (s := s1) (t := s.next) (x := x) (by omega)
      (hu.congr (by rw [hs1]; rfl) (by rw [hs1]; rfl) (by rw [hs1]; rfl)) (by rw [hc1, ho]; exact hx) hks
    have hso : s'.heap s.next = { o with children := l } := by
      rw [g.par, hc1, ho]; rfl
    refine ⟨s', ?_, ⟨?_, by have := g.le; omega, ?_, ?_⟩, by have := g.le; omega, by rw [hso, ho]; rfl, by rw [hso, ho]; rfl,
      fun h => hr (reach_newChild h ht e1), ?_⟩
    · unfold addKid
      rw [bind_run, e1]
      exact e2
    · rw [g.rest, hs1]; rfl
    · intro j hj hjt
      rw [g.old j (by omega) (by omega), hh, if_neg (by omega), if_neg hjt]
    · rw [g.old t (by omega) (by omega), hh, if_neg (by omega), if_pos rfl]
    · intro s'' hs''
      have hc : s''.heap s.next = { o with children := l } := by rw [hs'' _ (Nat.le_refl _) (by have := g.le; omega), hso]
      unfold Item.low
      rw [showsItem_mk, hc]
      refine ⟨by rw [ho]; rfl, by rw [ho]; exact hw2, by rw [ho]; exact hx, ?_, ?_⟩
      · intro c hcm
        obtain ⟨a, b, p1, p2⟩ := hl c hcm
        rw [hs'' c (by omega) b]
        rw [hc1, ho] at p2
        exact ⟨p1, p2⟩
      · exact hsh s'' fun j h1 h2 => hs'' j (by omega) h2
theorem addKids_run : ∀ (ks : List Item) {s : St} {t x : Nat}, t < s.next → Usable s → (s.heap t).sec = some x → givenL ks →
    ∃ s' l, addKids t ks s = .ok () s' ∧ Grown s s' t l ∧
      (∀ c ∈ l, s.next ≤ c ∧ c < s'.next ∧ (s'.heap c).parent = some t ∧ (s'.heap c).pt = (s.heap t).rt) ∧
      (Reach Op.noAddChild s → Reach Op.noAddChild s') ∧
      ∀ s'' : St, (∀ j, s.next ≤ j → j < s'.next → s''.heap j = s'.heap j) → ShowsItems s'' x (lowL ks) l
  | [], s, t, x, ht, hu, hx, hg => by
    refine ⟨s, [], by unfold addKids; rfl, ⟨rfl, Nat.le_refl _, fun _ _ _ => rfl, by simp⟩, fun c h => absurd h (List.not_mem_nil), id, ?_⟩
    intro s'' _
    unfold lowL ShowsItems
    rfl
  | k :: ks, s, t, x, ht, hu, hx, hg => by
    unfold givenL at hg
    obtain ⟨s1, e1, g1, hlt, hp, hpt, hr1, hs1⟩ := addKid_run k ht hu hx hg.1
    have hx1 : (s1.heap t).sec = some x := by rw [g1.par]; exact hx
    obtain ⟨s', l, e2, g2, hl, hr2, hs2⟩ := addKids_run ks (s := s1) (t := t) (x := x) (by have := g1.le; omega) (g1.usable hu) hx1 hg.2
    have h1 := g1.le
    have h2 := g2.le
    have hnt : s.next ≠ t := by omega
    refine ⟨s', s.next :: l, ?_, ⟨?_, by omega, ?_, ?_⟩, ?_, fun h => hr2 (hr1 h), ?_⟩
    · unfold addKids
      rw [bind_run, e1]
      exact e2
    · rw [g2.rest, g1.rest]
    · intro j hj hjt
      rw [g2.old j (by omega) hjt, g1.old j hj hjt]
    · rw [g2.par, g1.par]; simp
    · intro c hc
      rcases List.mem_cons.1 hc with rfl | hc
      · refine ⟨Nat.le_refl _, by omega, ?_, ?_⟩
        · rw [g2.old _ hlt hnt]; exact hp
        · rw [g2.old _ hlt hnt]; exact hpt
      · obtain ⟨a, b, c1, c2⟩ := hl c hc
        refine ⟨by omega, b, c1, ?_⟩
        rw [c2, g1.par]
    · intro s'' hs''
      unfold lowL ShowsItems
      refine ⟨s.next, l, rfl, ?_, hs2 s'' fun j a b => hs'' j (by omega) b⟩
      refine hs1 s'' fun j a b => ?_
      rw [hs'' j a (by omega), g2.old j b (by omega)]
end

/-- What an outline depends on. -/
def core (o : Obj) : Str × Val × Option Nat × List Nat × Option Nat × Str := (o.rt, o.value, o.sec, o.children, o.parent, o.pt)

mutual
theorem showsItem_frame {F : Prop} {s s' : St} (w : WF F s) (h : ∀ j, j < s.next → core (s'.heap j) = core (s.heap j)) {x : Nat} :
    ∀ (i : Item) {t : Nat}, t < s.next → ShowsItem s x i t → ShowsItem s' x i t
  | .mk n v ks, t, ht, hs => by
    rw [showsItem_mk] at hs ⊢
    have e := h t ht
    simp only [core, Prod.mk.injEq] at e
    obtain ⟨a, b, c, d, f⟩ := hs
    refine ⟨e.1.trans a, e.2.1.trans b, e.2.2.1.trans c, ?_, ?_⟩
    · rw [e.2.2.2.1]
      intro k hk
      have e2 := h k (w.kidLt t k hk)
      simp only [core, Prod.mk.injEq] at e2
      exact ⟨e2.2.2.2.2.1.trans (d k hk).1, e2.2.2.2.2.2.trans (d k hk).2⟩
    · rw [e.2.2.2.1]
      exact showsItems_frame w h ks (w.kidLt t) f
theorem showsItems_frame {F : Prop} {s s' : St} (w : WF F s) (h : ∀ j, j < s.next → core (s'.heap j) = core (s.heap j)) {x : Nat} :
    ∀ (ks : List Item) {l : List Nat}, (∀ c ∈ l, c < s.next) → ShowsItems s x ks l → ShowsItems s' x ks l
  | [], l, _, hs => by
    unfold ShowsItems at hs ⊢
    exact hs
  | k :: ks, l, hl, hs => by
    unfold ShowsItems at hs ⊢
    obtain ⟨t, r, rfl, h1, h2⟩ := hs
    exact ⟨t, r, rfl, showsItem_frame w h k (hl t (by simp)) h1, showsItems_frame w h ks (fun c hc => hl c (by simp [hc])) h2⟩
end

/-- A section that keeps its name, columns and terms. -/
theorem showsPart_frame {F : Prop} {s s' : St} (w : WF F s) (h : ∀ j, j < s.next → core (s'.heap j) = core (s.heap j)) (hr : s'.root = s.root)
    {kv : Str × Nat} {d : Part} (hx : kv.2 < s.next) (hp : (s'.heap kv.2).secPropertyNames = (s.heap kv.2).secPropertyNames)
    (ht : (s'.heap kv.2).terms = (s.heap kv.2).terms) (hs : ShowsPart s kv d) : ShowsPart s' kv d := by
  have e := h kv.2 hx
  simp only [core, Prod.mk.injEq] at e
  refine ⟨hs.key, e.2.1.trans hs.name, hp.trans hs.cols, ?_, ?_⟩
  · rw [ht]; exact showsItems_frame w h _ (w.secTermsLt kv.2) hs.items
  · rw [ht, hr]
    intro t hm
    have e2 := h t (w.secTermsLt kv.2 t hm)
    simp only [core, Prod.mk.injEq] at e2
    rw [e2.2.2.2.2.1, e2.2.2.2.2.2]
    exact hs.rootLevel t hm

theorem forall₂_set {α β : Type} {R R' : α → β → Prop} : ∀ {l : List α} {m : List β} {i : Nat} {b b' : β}, List.Forall₂ R l m → m[i]? = some b →
    (∀ a, l[i]? = some a → R' a b') → (∀ j a c, j ≠ i → l[j]? = some a → m[j]? = some c → R a c → R' a c) → List.Forall₂ R' l (m.set i b')
  | [], _, _, _, _, h, hi, _, _ => by cases h; cases hi
  | a :: l, _, 0, _, b', .cons (b := c) h1 h2, hi, ha, ho => by
    refine .cons (ha a rfl) ?_
    clear hi ha
    have : ∀ j a c, l[j]? = some a → _ → R a c → R' a c := fun j a c e1 e2 => ho (j + 1) a c (by omega) e1 e2
    clear ho h1
    induction h2 with
    | nil => exact .nil
    | @cons a' c' l m h _ ih =>
      exact .cons (this 0 a' c' rfl rfl h) (ih fun j a c e1 e2 => this (j + 1) a c e1 e2)
  | a :: l, _, i + 1, _, b', .cons h1 h2, hi, ha, ho => by
    refine .cons (ho 0 _ _ (by omega) rfl rfl h1) ?_
    exact forall₂_set h2 hi ha fun j a c hj e1 e2 => ho (j + 1) a c (by omega) e1 e2

theorem showsItems_append {s : St} {x : Nat} {ks ks' : List Item} {l l' : List Nat} (h : ShowsItems s x ks l) (h' : ShowsItems s x ks' l') :
    ShowsItems s x (ks ++ ks') (l ++ l') := by
  rw [showsItems_forall] at *
  exact List.rel_append h h'

theorem reach_newTerm {s s' : St} {x c : Nat} {n : Str} {v : Val} (h : Reach Op.noAddChild s) (hx : s.isSec x) (e : newTerm x n v [] s = .ok c s') :
    Reach Op.noAddChild s' := by
  have := Reach.step (.newTerm x n v []) h trivial hx
  have e' : after (Op.newTerm x n v []).run s = s' := by
    show after (do let _ ← newTerm x n v []) s = s'
    unfold after
    rw [bind_run, e]
    rfl
  rw [e'] at this
  exact this

theorem addItem_full {s : St} (h : Reach Op.noAddChild s) (hu : Usable s) {D : List Part} (hD : Shows s D) {i : Nat} {k : Str} {x : Nat} {d : Part}
    (hi : s.sections[i]? = some (k, x)) (hd : D[i]? = some d) (hf : py!"section" ∉ d.cols.map lower) {it : Item} (hg : it.given) :
    ∃ s', addItem x it s = .ok () s' ∧ Shows s' (D.set i { d with items := d.items ++ [it.low] }) ∧ Reach Op.noAddChild s' ∧ Usable s' ∧
      s'.sections = s.sections ∧ s'.declTerms = s.declTerms ∧ s'.declSecs = s.declSecs ∧ s'.root = s.root ∧ (TermsOnly s → TermsOnly s') ∧ (SecTvn s → SecTvn s') ∧ (AllListed s → AllListed s') ∧ s'.classes = s.classes ∧ s'.superTerms = s.superTerms := by
  have w : WF False s := h.wf fun f => f.elim
  obtain ⟨n, v, ks⟩ := it
  unfold Item.given at hg
  obtain ⟨hn, hsec, hv, hks⟩ := hg
  have hm : (k, x) ∈ s.sections := List.mem_of_getElem? hi
  have hp : ShowsPart s (k, x) d := by
    obtain ⟨hl, hr⟩ := List.forall₂_iff_get.1 hD.parts
    obtain ⟨a1, a2⟩ := List.getElem?_eq_some_iff.1 hi
    obtain ⟨b1, b2⟩ := List.getElem?_eq_some_iff.1 hd
    have := hr i a1 b1
    rw [List.get_eq_getElem, List.get_eq_getElem, a2, b2] at this
    exact this
  obtain ⟨hxlt, hxc, -⟩ := w.secsLt _ hm
  have hreg : Registered s x d.name := by
    refine ⟨hxc, hp.name, ?_, ?_⟩
    · have := hp.key
      dsimp only at this
      rw [← this]
      exact Dict.get?_of_mem w.secsNodup hm
    · rw [hp.cols]; exact hf
  have e1 := newTerm_root w hreg (splitTermLower_plain hn) (hu.cls _ (fun h => hn.nodot (dot_mem_lower.1 h))) (by
    unfold newTvn
    split
    · next e => rw [← e]; exact hu.tvn _
    · decide) (asVal v)
  obtain ⟨o, ho⟩ : ∃ o, o = newObj s x (docTermClass s (lower n)) n n (asVal v) := ⟨_, rfl⟩
  rw [← ho] at e1
  obtain ⟨s1, hs1⟩ : ∃ s1, s1 = withTerm s x o := ⟨_, rfl⟩
  rw [← hs1] at e1
  have hh : ∀ j, s1.heap j = if j = s.next then o else if j = x then { s.heap x with terms := (s.heap x).terms ++ [s.next] } else s.heap j :=
    fun j => by rw [hs1]; rfl
  have hn1 : s1.next = s.next + 1 := by rw [hs1]; rfl
  have ht1 : s1.heap s.next = o := by rw [hh, if_pos rfl]
  have hu1 : Usable s1 := hu.congr (by rw [hs1]; rfl) (by rw [hs1]; rfl) (by rw [hs1]; rfl)
  obtain ⟨s', l, e2, g, hl, hr, hsh⟩ := addKids_run ks (s := s1) (t := s.next) (x := x) (by omega) hu1 (by rw [ht1, ho]; rfl) hks
  have hle := g.le
  have hso : s'.heap s.next = { o with children := l } := by rw [g.par, ht1, ho]; rfl
  have hx' : s'.heap x = { s.heap x with terms := (s.heap x).terms ++ [s.next] } := by
    rw [g.old x (by omega) (by omega), hh, if_neg (by omega), if_pos rfl]
  have hj' : ∀ j, j < s.next → j ≠ x → s'.heap j = s.heap j := by
    intro j hj hjx
    rw [g.old j (by omega) (by omega), hh, if_neg (by omega), if_neg hjx]
  have hcore : ∀ j, j < s.next → core (s'.heap j) = core (s.heap j) := by
    intro j hj
    by_cases hjx : j = x
    · subst hjx; rw [hx']; rfl
    · rw [hj' j hj hjx]
  have hroot : s'.root = s.root := by rw [g.rest, hs1]; rfl
  have hsecs : s'.sections = s.sections := by rw [g.rest, hs1]; rfl
  refine ⟨s', ?_, ⟨?_, ?_⟩, hr (reach_newTerm h ⟨hxlt, hxc⟩ e1), g.usable hu1, hsecs, by rw [g.rest, hs1]; rfl, by rw [g.rest, hs1]; rfl, hroot, ?_, ?_, ?_, by rw [g.rest, hs1]; rfl, by rw [g.rest, hs1]; rfl⟩
  · show (do let t ← newTerm x n (asVal v) []; addKids t ks) s = _
    rw [bind_run, e1]
    exact e2
  · rw [hroot]
    have := hcore s.root w.rootLt
    simp only [core, Prod.mk.injEq] at this
    rw [this.1]
    exact hD.rootName
  · rw [hsecs]
    refine forall₂_set hD.parts hd ?_ ?_
    · intro a ha
      rw [hi] at ha
      cases ha
      refine ⟨hp.key, by rw [hx']; exact hp.name, by rw [hx']; exact hp.cols, ?_, ?_⟩
      · rw [hx']
        refine showsItems_append (showsItems_frame w hcore _ (w.secTermsLt x) hp.items) ?_
        unfold ShowsItems
        refine ⟨s.next, [], rfl, ?_, by unfold ShowsItems; rfl⟩
        unfold Item.low
        rw [showsItem_mk, hso]
        refine ⟨by rw [ho]; rfl, by rw [ho]; exact asVal_stored hv, by rw [ho]; rfl, ?_, hsh s' fun _ _ _ => rfl⟩
        intro c hc
        obtain ⟨-, -, p1, p2⟩ := hl c hc
        rw [ht1, ho] at p2
        exact ⟨p1, p2⟩
      · rw [hx', hroot]
        intro t ht
        rcases List.mem_append.1 ht with ht | ht
        · have e := hcore t (w.secTermsLt x t ht)
          simp only [core, Prod.mk.injEq] at e
          rw [e.2.2.2.2.1, e.2.2.2.2.2]
          exact hp.rootLevel t ht
        · rw [List.mem_singleton.1 ht, hso, ho]
          exact ⟨rfl, .inl rfl⟩
    · intro j a c hji ha hc hac
      have hma : a ∈ s.sections := List.mem_of_getElem? ha
      have hne : a.2 ≠ x := by
        intro e
        have h1 := hac.name
        rw [e, hp.name] at h1
        have h1' : d.name = c.name := by injection h1
        have h2 : a.1 = k := hac.key.trans (by rw [← h1']; exact hp.key.symm)
        have h3 : a = (k, x) := Prod.ext h2 e
        have hnd := w.secsNodup
        obtain ⟨a1, a2⟩ := List.getElem?_eq_some_iff.1 hi
        obtain ⟨b1, b2⟩ := List.getElem?_eq_some_iff.1 ha
        unfold Dict.keys at hnd
        have := List.Nodup.getElem_inj_iff hnd (i := j) (j := i) (hi := by simpa using b1) (hj := by simpa using a1)
        rw [List.getElem_map, List.getElem_map, a2, b2] at this
        exact hji (this.1 h2)
      have hlt := (w.secsLt a hma).1
      exact showsPart_frame w hcore hroot hlt (by rw [hj' _ hlt hne]) (by rw [hj' _ hlt hne]) hac
  · intro hT kv hkv t ht
    rw [hsecs] at hkv
    have hold : ∀ t ∈ (s.heap kv.2).terms, (s'.heap t).cls.isSection = false := by
      intro t ht
      have hc : (s'.heap t).cls = (s.heap t).cls := by
        by_cases e : t = x
        · subst e; rw [hx']
        · rw [hj' t (w.secTermsLt _ _ ht) e]
      rw [hc]
      exact hT kv hkv t ht
    by_cases e : kv.2 = x
    · rw [e, hx'] at ht
      rcases List.mem_append.1 ht with ht | ht
      · exact hold t (e ▸ ht)
      · rw [List.mem_singleton.1 ht, hso, ho]
        exact hu.cls _ (fun h => hn.nodot (dot_mem_lower.1 h))
    · rw [hj' _ (w.secsLt _ hkv).1 e] at ht
      exact hold t ht
  · intro hT
    refine ⟨by rw [show s'.declTerms = s.declTerms by rw [g.rest, hs1]; rfl]; exact hT.decl, fun kv hkv t ht => ?_⟩
    rw [hsecs] at hkv
    have hold : ∀ t ∈ (s.heap kv.2).terms, (s'.heap t).rt ≠ py!"declaresection" → lower (s'.heap t).tvn ≠ py!"section" := by
      intro t ht
      have hc : (s'.heap t).rt = (s.heap t).rt ∧ (s'.heap t).tvn = (s.heap t).tvn := by
        by_cases e : t = x
        · subst e; rw [hx']; exact ⟨rfl, rfl⟩
        · rw [hj' t (w.secTermsLt _ _ ht) e]; exact ⟨rfl, rfl⟩
      rw [hc.1, hc.2]
      exact hT.terms kv hkv t ht
    by_cases e : kv.2 = x
    · rw [e, hx'] at ht
      rcases List.mem_append.1 ht with ht | ht
      · exact hold t (e ▸ ht)
      · rw [List.mem_singleton.1 ht, hso, ho]
        show lower n ≠ _ → lower (newTvn s x n) ≠ _
        intro hne
        unfold newTvn
        split
        · next e => rw [← e]; exact hT.decl _ fun h => hne (List.append_cancel_left (as := py!"root.") h)
        · decide
    · rw [hj' _ (w.secsLt _ hkv).1 e] at ht
      exact hold t ht
  · intro hT kv hkv t ht
    rw [hsecs] at hkv
    have hterms : s'.terms = s.terms ++ [s.next] := by rw [g.rest, hs1]; rfl
    rw [hterms]
    by_cases e : kv.2 = x
    · rw [e, hx'] at ht
      rcases List.mem_append.1 ht with ht | ht
      · exact List.mem_append_left _ (hT kv hkv t (e ▸ ht))
      · exact List.mem_append_right _ ht
    · rw [hj' _ (w.secsLt _ hkv).1 e] at ht
      exact List.mem_append_left _ (hT kv hkv t ht)

/-- **C94** (terms). In any document, `new_term` in one of its sections and `new_child` for everything below the term succeed and add
exactly this term, with its children and values, at the end of the section; everything else in the document is as before. -/
theorem C94_term {s : St} (h : Reach Op.noAddChild s) (hu : Usable s) {D : List Part} (hD : Shows s D) {i : Nat} {k : Str} {x : Nat} {d : Part}
    (hi : s.sections[i]? = some (k, x)) (hd : D[i]? = some d) (hf : py!"section" ∉ d.cols.map lower) {it : Item} (hg : it.given) :
    ∃ s', addItem x it s = .ok () s' ∧ Shows s' (D.set i { d with items := d.items ++ [it.low] }) ∧ Reach Op.noAddChild s' ∧ Usable s' ∧
      s'.sections = s.sections ∧ s'.declTerms = s.declTerms ∧ s'.declSecs = s.declSecs ∧ s'.root = s.root := by
  obtain ⟨s', h1, h2, h3, h4, h5, h6, h7, h8, -⟩ := addItem_full h hu hD hi hd hf hg
  exact ⟨s', h1, h2, h3, h4, h5, h6, h7, h8⟩

theorem newSection_full {s : St} (h : Reach Op.noAddChild s) {D : List Part} (hD : Shows s D) {d : Part} (hg : d.given)
    (hnew : ∀ e ∈ D, lower e.name ≠ lower d.name) (hdecl : s.declSecs.get? (lower d.name) = none) :
    ∃ s', newSection d.name d.cols s = .ok s.next s' ∧ Shows s' (D ++ [{ d with items := [] }]) ∧ Reach Op.noAddChild s' ∧
      s'.sections = s.sections ++ [(lower d.name, s.next)] ∧ s'.declTerms = s.declTerms ∧ s'.declSecs = s.declSecs ∧ s'.classes = s.classes ∧
      s'.superTerms = s.superTerms ∧ s'.root = s.root ∧ (TermsOnly s → TermsOnly s') ∧ (SecTvn s → SecTvn s') ∧ (AllListed s → AllListed s') := by
  have w : WF False s := h.wf fun f => f.elim
  obtain ⟨o, ho⟩ : ∃ o, o = sectionObj s d.name d.cols := ⟨_, rfl⟩
  obtain ⟨s', hs'⟩ : ∃ s' : St, s' = { s with next := s.next + 1, heap := fun j => if j = s.next then o else s.heap j,
                                              sections := s.sections.set (lower d.name) s.next } := ⟨_, rfl⟩
  have e : newSection d.name d.cols s = .ok s.next s' := by
    unfold newSection
    rw [bind_run, newSectionObj_run, ← ho]
    simp only [bind_run, modify_run, get_run]
    have : Dict.get? (St.setObj { s with next := s.next + 1 } s.next o).declSecs (lower d.name) = none := hdecl
    simp only [this, pure_run, hs']
    rfl
  have hkey : lower d.name ∉ s.sections.keys := by
    intro hm
    obtain ⟨kv, hkv, e⟩ := List.mem_map.1 hm
    have key : ∀ {l : Dict Nat} {m : List Part}, List.Forall₂ (ShowsPart s) l m → kv ∈ l → ∃ c ∈ m, ShowsPart s kv c := by
      intro l m hf
      induction hf with
      | nil => intro h; cases h
      | @cons a b l m h1 _ ih =>
        intro h
        rcases List.mem_cons.1 h with rfl | h
        · exact ⟨b, by simp, h1⟩
        · obtain ⟨c, hc, hp⟩ := ih h
          exact ⟨c, by simp [hc], hp⟩
    obtain ⟨c, hc, hp⟩ := key hD.parts hkv
    exact hnew c hc (hp.key.symm.trans e)
  have hsecs : s'.sections = s.sections ++ [(lower d.name, s.next)] := by rw [hs']; exact Dict.set_append hkey _
  have hj : ∀ j, j < s.next → s'.heap j = s.heap j := fun j hj => by rw [hs']; exact if_neg (by omega)
  have hn : s'.heap s.next = o := by rw [hs']; exact if_pos rfl
  have hroot : s'.root = s.root := by rw [hs']
  refine ⟨s', e, ⟨by rw [hroot, hj _ w.rootLt]; exact hD.rootName, ?_⟩, ?_, hsecs, by rw [hs'], by rw [hs'], by rw [hs'], by rw [hs'], hroot, ?_, ?_, ?_⟩
  · rw [hsecs]
    refine List.rel_append (R := ShowsPart s') ?_ (.cons ?_ .nil)
    · have : ∀ {l : Dict Nat} {m : List Part}, List.Forall₂ (ShowsPart s) l m → (∀ a ∈ l, a ∈ s.sections) → List.Forall₂ (ShowsPart s') l m := by
        intro l m hf
        induction hf with
        | nil => intro _; exact .nil
        | @cons a b l m h1 _ ih =>
          intro hm
          have hlt := (w.secsLt a (hm a (by simp))).1
          exact .cons (showsPart_frame w (fun j hlt => by rw [hj j hlt]) hroot hlt (by rw [hj _ hlt]) (by rw [hj _ hlt]) h1) (ih fun a ha => hm a (by simp [ha]))
      exact this hD.parts fun _ h => h
    · refine ⟨rfl, ?_, ?_, ?_, ?_⟩
      · show (s'.heap s.next).value = _
        rw [hn, ho]
        show Val.mk (.str d.name) = .str d.name
        unfold Val.mk
        rw [if_pos (by simp [Val.truthy, hg.name])]
        simp [hg.stripped]
      · show (s'.heap s.next).secPropertyNames = d.cols
        rw [hn, ho]
        show (sectionObj s d.name d.cols).args = d.cols
        unfold sectionObj
        dsimp only
        rw [hdecl]
        have hm : d.cols.map strip = d.cols := by
          conv => rhs; rw [← List.map_id d.cols]
          exact List.map_congr_left hg.cols
        by_cases hc : d.cols = []
        · rw [hc]; rfl
        · rw [if_pos hc]; exact hm
      · show ShowsItems s' s.next [] (s'.heap s.next).terms
        rw [hn, ho]
        unfold ShowsItems
        rfl
      · show ∀ t ∈ (s'.heap s.next).terms, _
        rw [hn, ho]
        intro t ht
        cases ht
  · have := Reach.step (.newSection d.name d.cols) h trivial trivial
    have e' : after (Op.newSection d.name d.cols).run s = s' := by
      show after (do let _ ← newSection d.name d.cols) s = s'
      unfold after
      rw [bind_run, e]
      rfl
    rw [e'] at this
    exact this
  · intro hT kv hkv t ht
    rw [hsecs] at hkv
    rcases List.mem_append.1 hkv with hkv | hkv
    · rw [hj _ (w.secsLt _ hkv).1] at ht
      rw [hj _ (w.secTermsLt _ _ ht)]
      exact hT kv hkv t ht
    · rw [List.mem_singleton.1 hkv, hn, ho] at ht
      cases ht
  · intro hT
    refine ⟨by rw [show s'.declTerms = s.declTerms by rw [hs']]; exact hT.decl, fun kv hkv t ht => ?_⟩
    rw [hsecs] at hkv
    rcases List.mem_append.1 hkv with hkv | hkv
    · rw [hj _ (w.secsLt _ hkv).1] at ht
      rw [hj _ (w.secTermsLt _ _ ht)]
      exact hT.terms kv hkv t ht
    · rw [List.mem_singleton.1 hkv, hn, ho] at ht
      cases ht
  · intro hT kv hkv t ht
    rw [hsecs] at hkv
    rw [show s'.terms = s.terms by rw [hs']]
    rcases List.mem_append.1 hkv with hkv | hkv
    · rw [hj _ (w.secsLt _ hkv).1] at ht
      exact hT kv hkv t ht
    · rw [List.mem_singleton.1 hkv, hn, ho] at ht
      cases ht

/-- **C94** (sections). In any document without a section of that name and no declaration of it, `new_section` adds an empty section
with the name and the columns at the end. -/
theorem C94_section {s : St} (h : Reach Op.noAddChild s) {D : List Part} (hD : Shows s D) {d : Part} (hg : d.given)
    (hnew : ∀ e ∈ D, lower e.name ≠ lower d.name) (hdecl : s.declSecs.get? (lower d.name) = none) :
    ∃ s', newSection d.name d.cols s = .ok s.next s' ∧ Shows s' (D ++ [{ d with items := [] }]) ∧ Reach Op.noAddChild s' ∧
      s'.sections = s.sections ++ [(lower d.name, s.next)] ∧ s'.declTerms = s.declTerms ∧ s'.declSecs = s.declSecs ∧ s'.classes = s.classes ∧
      s'.superTerms = s.superTerms ∧ s'.root = s.root := by
  obtain ⟨s', h1, h2, h3, h4, h5, h6, h7, h8, h9, -, -, -⟩ := newSection_full h hD hg hnew hdecl
  exact ⟨s', h1, h2, h3, h4, h5, h6, h7, h8, h9⟩

theorem addItems_run : ∀ (is : List Item) {s : St}, Reach Op.noAddChild s → Usable s → ∀ {D : List Part}, Shows s D → ∀ {i : Nat} {k : Str} {x : Nat}
    {d : Part}, s.sections[i]? = some (k, x) → D[i]? = some d → py!"section" ∉ d.cols.map lower → givenL is →
    ∃ s', addItems x is s = .ok () s' ∧ Shows s' (D.set i { d with items := d.items ++ lowL is }) ∧ Reach Op.noAddChild s' ∧ Usable s' ∧
      s'.sections = s.sections ∧ s'.declTerms = s.declTerms ∧ s'.declSecs = s.declSecs ∧ s'.root = s.root ∧ (TermsOnly s → TermsOnly s') ∧ (SecTvn s → SecTvn s') ∧ (AllListed s → AllListed s') ∧ s'.classes = s.classes ∧ s'.superTerms = s.superTerms
  | [], s, h, hu, D, hD, i, k, x, d, hi, hd, hf, hg => by
    refine ⟨s, rfl, ?_, h, hu, rfl, rfl, rfl, rfl, id, id, id, rfl, rfl⟩
    unfold lowL
    rw [List.append_nil]
    obtain ⟨b1, b2⟩ := List.getElem?_eq_some_iff.1 hd
    have : D.set i d = D := by rw [← b2]; exact List.set_getElem_self b1
    exact this.symm ▸ hD
  | it :: is, s, h, hu, D, hD, i, k, x, d, hi, hd, hf, hg => by
    unfold givenL at hg
    obtain ⟨s1, e1, h1, h2, h3, h4, h5, h6, h7, h8, h9, h10, h11, h12⟩ := addItem_full h hu hD hi hd hf hg.1
    obtain ⟨b1, -⟩ := List.getElem?_eq_some_iff.1 hd
    obtain ⟨s2, e2, g1, g2, g3, g4, g5, g6, g7, g8, g9, g10, g11, g12⟩ := addItems_run is h2 h3 h1 (h4 ▸ hi) (List.getElem?_set_self b1) hf hg.2
    refine ⟨s2, ?_, ?_, g2, g3, g4.trans h4, g5.trans h5, g6.trans h6, g7.trans h7, fun h => g8 (h8 h), fun h => g9 (h9 h), fun h => g10 (h10 h), g11.trans h11, g12.trans h12⟩
    · unfold addItems
      rw [bind_run, e1]
      exact e2
    · rw [List.set_set] at g1
      unfold lowL
      simp only [List.append_assoc, List.singleton_append] at g1
      exact g1

theorem addParts_run : ∀ (ds : List Part) {s : St}, Reach Op.noAddChild s → Usable s → ∀ {D : List Part}, Shows s D → s.declSecs = [] →
    (∀ d ∈ ds, d.given) → ((D ++ ds).map fun d => lower d.name).Nodup →
    ∃ s', addParts ds s = .ok () s' ∧ Shows s' (D ++ ds.map Part.low) ∧ Reach Op.noAddChild s' ∧ s'.declTerms = s.declTerms
  | [], s, h, hu, D, hD, hd, hg, hn => ⟨s, rfl, by simpa using hD, h, rfl⟩
  | d :: ds, s, h, hu, D, hD, hd, hg, hn => by
    have hdg := hg d (by simp)
    have hlen : s.sections.length = D.length := hD.parts.length_eq
    obtain ⟨s1, e1, h1, h2, h3, h4, h5, h6, h7, h8⟩ := C94_section h hD hdg (by
      intro e he heq
      rw [List.map_append, List.nodup_append] at hn
      exact hn.2.2 _ (List.mem_map.2 ⟨e, he, rfl⟩) _ (List.mem_map.2 ⟨d, by simp, rfl⟩) heq) (by rw [hd]; rfl)
    have hx1 : s1.sections[D.length]? = some (lower d.name, s.next) := by rw [h3, ← hlen]; simp
    obtain ⟨s2, e2, g1, g2, g3, g4, g5, g6, g7, -⟩ := addItems_run d.items h2 (hu.congr h6 h7 h4) h1 (i := D.length) (d := { d with items := [] }) hx1 (by simp) hdg.free hdg.items
    have hset : (D ++ [({ d with items := [] } : Part)]).set D.length { d with items := [] ++ lowL d.items } = D ++ [d.low] := by
      rw [List.set_append_right _ _ (Nat.le_refl _)]
      simp [Part.low]
    rw [hset] at g1
    obtain ⟨s3, e3, k1, k2, k3⟩ := addParts_run ds g2 g3 g1 (by rw [g6, h5, hd]) (fun d hd => hg d (by simp [hd])) (by
      have : ((D ++ [d.low] ++ ds).map fun d => lower d.name) = (D ++ d :: ds).map fun d => lower d.name := by simp [Part.low]
      rw [this]; exact hn)
    refine ⟨s3, ?_, by simpa using k1, k2, k3.trans (g5.trans h4)⟩
    unfold addParts
    rw [bind_run, e1]
    dsimp only
    rw [bind_run, e2]
    exact e3

/-- Documents without super-terms. -/
theorem usable_of {s : St} (hcl : PlainClasses s.classes) (hs : s.superTerms = [])
    (ht : ∀ n, lower (declProp s.declTerms n (py!"termvaluename") (py!"@value")) ∉ reservedTvn) : Usable s := by
  refine ⟨fun n hn => ?_, ht⟩
  unfold docTermClass
  cases hg : s.classes.get? (lower n) with
  | none => dsimp only; rw [hs]; rfl
  | some c =>
    dsimp only
    cases hc : c.isSection with
    | false => rfl
    | true =>
      have hd : '.' ∉ lower n := fun h => hn (dot_mem_lower.1 h)
      rcases hcl.only _ _ hg hc with e | e <;> rw [e] at hd <;> exact absurd (by decide) hd

theorem usable_new {env : Env} {classes : Dict Cls} (hcl : PlainClasses classes) : Usable (newDoc env classes) :=
  usable_of hcl rfl fun n => by
    show lower (py!"@value") ∉ reservedTvn
    decide

/-- **C94.** Starting from a new document, `new_section`, `new_term` and `new_child` succeed and make exactly the sections, columns,
terms, children and values asked for, in this order. -/
theorem C94_document {env : Env} {classes : Dict Cls} (hcl : PlainClasses classes) {r : Part} {ds : List Part} (hr : r.name = py!"Root")
    (hc : r.cols = []) (hi : givenL r.items) (hg : ∀ d ∈ ds, d.given) (hn : ((r :: ds).map fun d => lower d.name).Nodup) :
    ∃ s, buildDoc (r :: ds) (newDoc env classes) = .ok () s ∧ Shows s ((r :: ds).map Part.low) ∧ Reach Op.noAddChild s ∧ s.declTerms = [] := by
  have h0 : Shows (newDoc env classes) [({ r with items := [] } : Part)] := by
    refine ⟨rfl, .cons ⟨?_, ?_, ?_, ?_, ?_⟩ .nil⟩
    · show py!"root" = lower r.name; rw [hr]; decide
    · show Val.str (py!"Root") = .str r.name; rw [hr]
    · show _ = r.cols; rw [hc]; rfl
    · unfold ShowsItems; rfl
    · intro t ht; cases ht
  obtain ⟨s1, e1, h1, h2, h3, h4, h5, h6, h7, -⟩ := addItems_run r.items (.new env classes) (usable_new hcl) h0 (i := 0) (k := py!"root") (x := 0) rfl rfl
    (by show py!"section" ∉ r.cols.map lower; rw [hc]; simp) hi
  have e0 : ([({ r with items := [] } : Part)]).set 0 { ({ r with items := [] } : Part) with items := ([] : List Item) ++ lowL r.items } = [r.low] := rfl
  obtain ⟨s2, e2, g1, g2, g3⟩ := addParts_run ds h2 h3 (e0 ▸ h1) (by rw [h6]; rfl) hg (by
    have : (([r.low] ++ ds).map fun d => lower d.name) = (r :: ds).map fun d => lower d.name := by simp [Part.low]
    rw [this]; exact hn)
  refine ⟨s2, ?_, by simpa using g1, g2, by rw [g3, h5]; rfl⟩
  show (do let s ← M.get; addItems s.root r.items; addParts ds) _ = _
  rw [bind_run, get_run]
  dsimp only
  rw [bind_run]
  have : (newDoc env classes).root = 0 := rfl
  rw [this, e1]
  exact e2

theorem build_writable {env : Env} {classes : Dict Cls} (hcl : PlainClasses classes) {r : Part} {ds : List Part}
    (hi : givenL r.items) (hg : ∀ d ∈ ds, d.given) (hw : writable ((r :: ds).map Part.low) = true) :
    ∃ s, buildDoc (r :: ds) (newDoc env classes) = .ok () s ∧ Shows s ((r :: ds).map Part.low) ∧ Reach Op.noAddChild s ∧ PlainTvn s := by
  have hw' := hw
  rw [List.map_cons] at hw'
  unfold writable at hw'
  simp only [Bool.and_eq_true, decide_eq_true_eq] at hw'
  obtain ⟨⟨⟨⟨hr, hc⟩, -⟩, hok⟩, hnd⟩ := hw'
  have hn : ((r :: ds).map fun d => lower d.name).Nodup := by
    rw [List.map_cons, List.nodup_cons]
    refine ⟨?_, by simpa [Part.low, Function.comp_def] using hnd⟩
    intro hm
    obtain ⟨d, hd, e⟩ := List.mem_map.1 hm
    have := List.all_eq_true.1 hok d.low (List.mem_map.2 ⟨d, hd, rfl⟩)
    unfold Part.ok at this
    simp only [Bool.and_eq_true, decide_eq_true_eq] at this
    have hne : lower d.name ≠ py!"root" := this.1.1.1.1.2
    have hr' : r.name = py!"Root" := hr
    rw [hr'] at e
    exact hne (e.trans (by decide))
  obtain ⟨s, e1, h1, h2, h3⟩ := C94_document (env := env) (r := r) hcl hr hc hi hg hn
  exact ⟨s, e1, h1, h2, fun p n _ _ => by unfold writtenTvn; rw [h3]; rfl⟩

/-- **C94** (files). The document is written as CSV text that is read as a document with the same sections, columns, terms, children and
values; only the order of the children of a term may differ. -/
theorem C94_written {env env' : Env} {classes classes' : Dict Cls} (hcl : PlainClasses classes) (hcl' : PlainClasses classes') {r : Part} {ds : List Part}
    (hi : givenL r.items) (hg : ∀ d ∈ ds, d.given) (hw : writable ((r :: ds).map Part.low) = true) (files : Files) (fuel : Nat) (path : Str) :
    ∃ s text s' D', buildDoc (r :: ds) (newDoc env classes) = .ok () s ∧ docCsv s = .ok text ∧
      parseRows files (fuel + 1) path (readCsv text) (newDoc env' classes') = .ok () s' ∧ Shows s' D' ∧
      List.Forall₂ PartReordered ((r :: ds).map Part.low) D' := by
  obtain ⟨s, e1, h1, h2, hpt⟩ := build_writable (env := env) hcl hi hg hw
  obtain ⟨text, s', D', a, b, c, d⟩ := C50_roundtrip_partial h2 h1 hw (hpt.named fun d hd => (writable_part hw d hd).2) (env := env') hcl' files fuel path
  exact ⟨s, text, s', D', e1, a, b, c, d⟩

/-- **C94** (Lines format). The same for the Lines format, for values without `|` and line breaks and names without `:`. -/
theorem C94_lines {env env' : Env} {classes classes' : Dict Cls} (hcl : PlainClasses classes) (hcl' : PlainClasses classes') {r : Part} {ds : List Part}
    (hi : givenL r.items) (hg : ∀ d ∈ ds, d.given) (hw : lineWritable ((r :: ds).map Part.low) = true) (files : Files) (fuel : Nat) (path : Str) :
    ∃ s text s' D', buildDoc (r :: ds) (newDoc env classes) = .ok () s ∧ docText s = .ok text ∧
      parseRows files (fuel + 1) path (textRows text) (newDoc env' classes') = .ok () s' ∧ Shows s' D' ∧
      List.Forall₂ PartReordered ((r :: ds).map Part.low) D' := by
  have hwr : writable ((r :: ds).map Part.low) = true := by unfold lineWritable at hw; exact (Bool.and_eq_true _ _ ▸ hw).1
  obtain ⟨s, e1, h1, h2, hpt⟩ := build_writable (env := env) hcl hi hg hwr
  obtain ⟨text, s', D', a, b, c, d⟩ := C63_roundtrip_partial h2 h1 hw (hpt.named fun d hd => (writable_part hwr d hd).2) (env := env') hcl' files fuel path
  exact ⟨s, text, s', D', e1, a, b, c, d⟩

/-! A concrete document -/

/-- A root section with three terms, one of them with children and grandchildren, and a section with columns. -/
def bldParts : List Part :=
  [⟨py!"Root", [], [.mk (py!"Title") (some (py!"T 1")) [], .mk (py!"Author") (some (py!"Ann")) [.mk (py!"Email") (some (py!"a@b")) [],
      .mk (py!"Org") (some (py!"Acme")) [.mk (py!"City") (some (py!"X, Y")) []]], .mk (py!"Note") none []]⟩,
   ⟨py!"Resources", [py!"Url", py!"Title"], [.mk (py!"Datafile") (some (py!"f.csv")) [.mk (py!"title") (some (py!"F")) [], .mk (py!"Rows") (some (py!"3")) []]]⟩]

theorem bld_given : givenL (bldParts.head (by decide)).items ∧ ∀ d ∈ bldParts.tail, d.given := by
  have p : ∀ {n : Str}, '.' ∉ n → n ≠ [] → strip n = n → PlainPart n := fun a b c => ⟨a, b, c⟩
  constructor
  · simp only [bldParts, List.head_cons, givenL, Item.given]
    refine ⟨⟨p ?_ ?_ ?_, ?_, ?_, trivial⟩, ⟨p ?_ ?_ ?_, ?_, ?_, ⟨p ?_ ?_ ?_, ?_, ?_, trivial⟩, ⟨p ?_ ?_ ?_, ?_, ?_, ⟨p ?_ ?_ ?_, ?_, ?_, trivial⟩, trivial⟩, trivial⟩,
      ⟨p ?_ ?_ ?_, ?_, ?_, trivial⟩, trivial⟩ <;> decide
  · intro d hd
    have : d = bldParts[1] := by simpa [bldParts] using hd
    subst this
    refine ⟨by decide, by decide, by decide, by decide, ?_⟩
    simp only [bldParts, List.getElem_cons_succ, List.getElem_cons_zero, givenL, Item.given]
    refine ⟨⟨p ?_ ?_ ?_, ?_, ?_, ⟨p ?_ ?_ ?_, ?_, ?_, trivial⟩, ⟨p ?_ ?_ ?_, ?_, ?_, trivial⟩, trivial⟩, trivial⟩ <;> decide

example : (buildDoc bldParts (newDoc exEnv initClasses)).val = .ok () ∧ docCsv (after (buildDoc bldParts) (newDoc exEnv initClasses)) = .ok
    (py!"Title,T 1\r\nAuthor,Ann\r\nAuthor.Email,a@b\r\nAuthor.Org,Acme\r\nOrg.City,\"X, Y\"\r\nNote,\r\n" ++
     py!"\"\"\r\nSection,Resources,Url,Title\r\nDatafile,f.csv,,F\r\nDatafile.Rows,3\r\n") := by decide +kernel

example : ∃ s text s' D', buildDoc bldParts (newDoc exEnv initClasses) = .ok () s ∧ docCsv s = .ok text ∧
    parseRows noFiles 1 [] (readCsv text) (newDoc exEnv initClasses) = .ok () s' ∧ Shows s' D' ∧
      List.Forall₂ PartReordered (bldParts.map Part.low) D' :=
  C94_written plainClasses_init plainClasses_init bld_given.1 bld_given.2 (by decide +kernel) noFiles 0 []

/-- A term can also be added to a document that was read. -/
example : let s := exParse [[py!"Title", py!"T"], [py!"Section", py!"Data", py!"Unit"], [py!"Table", py!"t", py!"m"]]
    ∃ s', addItem 2 (.mk (py!"Table") (some (py!"u")) [.mk (py!"Unit") (some (py!"kg")) []]) s = .ok () s' ∧
      Shows s' [⟨py!"Root", [], [.mk (py!"title") (some (py!"T")) []]⟩,
        ⟨py!"Data", [py!"Unit"], [.mk (py!"table") (some (py!"t")) [.mk (py!"unit") (some (py!"m")) []],
          .mk (py!"table") (some (py!"u")) [.mk (py!"unit") (some (py!"kg")) []]]⟩] := by
  intro s
  have p : ∀ {n : Str}, '.' ∉ n → n ≠ [] → strip n = n → PlainPart n := fun a b c => ⟨a, b, c⟩
  obtain ⟨s', h1, h2, -⟩ := C94_term (s := s) (exParse_reach _ trivial)
    (usable_of ((show s.classes = initClasses by decide +kernel) ▸ plainClasses_init) (by decide +kernel)
      ((show s.declTerms = initDeclTerms by decide +kernel) ▸ initDecl_tvn))
    (D := [⟨py!"Root", [], [.mk (py!"title") (some (py!"T")) []]⟩, ⟨py!"Data", [py!"Unit"], [.mk (py!"table") (some (py!"t")) [.mk (py!"unit") (some (py!"m")) []]]⟩])
    (showsB_sound (by decide +kernel)) (i := 1) (k := py!"data") (x := 2) (by decide +kernel) rfl (by decide)
    (it := .mk (py!"Table") (some (py!"u")) [.mk (py!"Unit") (some (py!"kg")) []])
    (by simp only [Item.given, givenL]; refine ⟨p ?_ ?_ ?_, ?_, ?_, ⟨p ?_ ?_ ?_, ?_, ?_, trivial⟩, trivial⟩ <;> decide)
  exact ⟨s', h1, h2⟩

end Metatab
