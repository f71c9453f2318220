import Verif.Lemmas.Pieces
import Mathlib.Data.List.Forall2
/-! Documents read from files made of pieces. -/
namespace Metatab
open Py _root_.Spec

/-- The objects in `I` are the terms of a piece, and its sections are as the piece says. -/
structure Local (s : St) (b : Bk) (I : List Nat) : Prop where
  count : I.length = b.nodes.length
  exist : ∀ t ∈ I, t < s.next ∧ (s.heap t).cls.isSection = false
  term : ∀ n t, (n, t) ∈ b.nodes.zip I → (s.heap t).pt = n.pt ∧ (s.heap t).rt = n.rt ∧ (s.heap t).value = n.value ∧
    (s.heap t).tvn = n.valueName ∧ (s.heap t).cpt = py!"any" ∧ (s.heap t).parent = some (ref s I n.parent) ∧
    (s.heap t).sec = s.sections.get? n.sec
  children : ∀ i, i < I.length → (s.heap (ref s I (some i))).children = pick b.nodes I fun n => n.parent = some i
  columns : ∀ k ∈ b.names, ∀ x, s.sections.get? k = some x → ∃ n, (s.heap x).value = .str n ∧ b.secs.get? k = some (n, (s.heap x).args)
  sectionTerms : ∀ k ∈ b.names, ∀ x, s.sections.get? k = some x → (s.heap x).terms = pick b.nodes I fun n => n.pt = py!"root" && n.sec = k

theorem pick_join {A B : List Node} {I J : List Nat} (f : Node → Bool) (h : I.length = A.length) :
    pick (A ++ B) (I ++ J) f = pick A I f ++ pick B J f := by
  unfold pick
  rw [List.zip_append h.symm, List.filter_append, List.map_append]

theorem pick_map_left {A : List Node} {I : List Nat} (g : Node → Node) (f : Node → Bool) : pick (A.map g) I f = pick A I fun n => f (g n) := by
  unfold pick
  rw [List.zip_map_left, List.filter_map, List.map_map]
  rfl

theorem pick_none {A : List Node} {I : List Nat} {f : Node → Bool} (h : ∀ n ∈ A, f n = false) : pick A I f = [] := by
  unfold pick
  rw [List.filter_eq_nil_iff.2]
  · rfl
  · intro nt hm hf
    rw [h nt.1 (List.of_mem_zip (show (nt.1, nt.2) ∈ _ from hm)).1] at hf
    cases hf

theorem pick_congr {A : List Node} {I : List Nat} {f g : Node → Bool} (h : ∀ n ∈ A, f n = g n) : pick A I f = pick A I g := by
  unfold pick
  rw [List.filter_congr]
  intro nt hm
  exact h nt.1 (List.of_mem_zip (show (nt.1, nt.2) ∈ _ from hm)).1

theorem local_of {s : St} {a : Reader} {ids : List Nat} (h : _root_.Spec.Holds s a ids) {P Q : List Node} {b : Bk} (hok : b.Ok)
    (hn : a.nodes = P ++ (b.nodes.map (shift P.length) ++ Q)) (hP : ∀ n ∈ P, RefOk P.length n.parent)
    (hQ : ∀ n ∈ Q, ∀ j, n.parent = some j → P.length + b.nodes.length ≤ j) (hPs : ∀ n ∈ P, n.sec ∉ b.names) (hQs : ∀ n ∈ Q, n.sec ∉ b.names)
    (hsec : ∀ k ∈ b.names, a.secs.get? k = b.secs.get? k) {J I L : List Nat} (hids : ids = J ++ (I ++ L)) (hJ : J.length = P.length)
    (hI : I.length = b.nodes.length) : Local s b I := by
  have hpick : ∀ f, pick a.nodes ids f = pick P J f ++ ((pick b.nodes I fun n => f (shift P.length n)) ++ pick Q L f) := by
    intro f
    rw [hn, hids, pick_join f hJ, pick_join f (by rw [hI, List.length_map]), pick_map_left]
  have href : ∀ i, RefOk b.nodes.length i → ref s ids (i.map (· + P.length)) = ref s I i := by
    intro i hi
    cases i with
    | none => rfl
    | some i =>
      have hi : i < I.length := by rw [hI]; exact hi
      have hlt : i + P.length < ids.length := by rw [hids]; simp only [List.length_append]; omega
      rw [Option.map_some, ref_some hlt, ref_some hi]
      subst hids
      rw [List.getElem_append_right (by omega), List.getElem_append_left (by omega)]
      congr 1
      omega
  refine ⟨hI, ?_, ?_, ?_, ?_, ?_⟩
  · intro t ht
    exact h.exist t (by rw [hids]; exact List.mem_append_right _ (List.mem_append_left _ ht))
  · intro n t hm
    obtain ⟨a1, a2, a3, a4, a5, a6, a7⟩ := h.term (shift P.length n) t (by
      rw [hn, hids, List.zip_append hJ.symm, List.zip_append (by rw [hI, List.length_map]), List.zip_map_left]
      refine List.mem_append_right _ (List.mem_append_left _ ?_)
      exact List.mem_map.2 ⟨(n, t), hm, rfl⟩)
    refine ⟨a1, a2, a3, a4, a5, ?_, a7⟩
    rw [a6, ← href n.parent (hok.refs n (List.of_mem_zip hm).1)]
    rfl
  · intro i hi
    have hlt : i + P.length < ids.length := by rw [hids]; simp only [List.length_append]; omega
    have := h.children _ hlt
    rw [show ref s ids (some (i + P.length)) = ref s I (some i) from href (some i) (by show i < _; omega)] at this
    rw [this, hpick, pick_none (A := P), pick_none (A := Q), List.nil_append, List.append_nil]
    · refine pick_congr ?_
      intro n _
      refine decide_eq_decide.2 ?_
      show n.parent.map (· + P.length) = _ ↔ _
      cases n.parent with
      | none => simp
      | some j => simp
    · intro n hm
      refine decide_eq_false ?_
      intro e
      have := hQ n hm _ e
      omega
    · intro n hm
      refine decide_eq_false ?_
      intro e
      have hr := hP n hm
      rw [e] at hr
      have : i + P.length < P.length := hr
      omega
  · intro k hk x hx
    obtain ⟨n, h1, h2⟩ := h.columns k x hx
    exact ⟨n, h1, by rw [← hsec k hk]; exact h2⟩
  · intro k hk x hx
    rw [h.sectionTerms k x hx, hpick, pick_none (A := P), pick_none (A := Q), List.nil_append, List.append_nil]
    · rfl
    · intro n hm
      rw [show (decide (n.sec = k)) = false from decide_eq_false fun e => hQs n hm (by rw [e]; exact hk), Bool.and_false]
    · intro n hm
      rw [show (decide (n.sec = k)) = false from decide_eq_false fun e => hPs n hm (by rw [e]; exact hk), Bool.and_false]

theorem cat_parents : ∀ {bs : List Bk} {o : Nat}, ∀ n ∈ cat o bs, ∀ j, n.parent = some j → o ≤ j
  | [], _, n, h, _, _ => by cases h
  | b :: bs, o, n, h, j, e => by
    rw [cat] at h
    rcases List.mem_append.1 h with h | h
    · obtain ⟨m, -, rfl⟩ := List.mem_map.1 h
      have e : m.parent.map (· + o) = some j := e
      cases hp : m.parent with
      | none => rw [hp] at e; cases e
      | some i =>
        rw [hp] at e
        have e : i + o = j := by injection e
        omega
    · have := cat_parents n h j e
      omega

theorem cat_secs : ∀ {bs : List Bk} {o : Nat}, (∀ b ∈ bs, b.Ok) → ∀ n ∈ cat o bs, ∃ b ∈ bs, n.sec ∈ b.names
  | [], _, _, n, h => by cases h
  | b :: bs, o, hok, n, h => by
    rw [cat] at h
    rcases List.mem_append.1 h with h | h
    · obtain ⟨m, hm, rfl⟩ := List.mem_map.1 h
      exact ⟨b, List.mem_cons_self, (hok b List.mem_cons_self).secs m hm⟩
    · obtain ⟨c, hc, hn⟩ := cat_secs (fun b hb => hok b (List.mem_cons_of_mem _ hb)) n h
      exact ⟨c, List.mem_cons_of_mem _ hc, hn⟩

/-- Each piece has its objects. -/
theorem split_pieces {s : St} {a : Reader} {ids : List Nat} (h : _root_.Spec.Holds s a ids) : ∀ {bs : List Bk} {P : List Node} {J L : List Nat},
    (∀ b ∈ bs, b.Ok) → (bs.map (·.names)).Pairwise List.Disjoint → (∀ n ∈ P, RefOk P.length n.parent) → (∀ n ∈ P, ∀ b ∈ bs, n.sec ∉ b.names) →
    a.nodes = P ++ cat P.length bs → ids = J ++ L → J.length = P.length → (∀ b ∈ bs, ∀ k ∈ b.names, a.secs.get? k = b.secs.get? k) →
    ∃ ps : List (Bk × List Nat), ps.map (·.1) = bs ∧ ps.flatMap (·.2) = L ∧ ∀ p ∈ ps, Local s p.1 p.2
  | [], P, J, L, _, _, _, _, hn, hids, hJ, _ => by
    have : ids.length = a.nodes.length := h.count
    rw [hn, hids, cat] at this
    have : L = [] := by
      rw [← List.length_eq_zero_iff]
      simp only [List.length_append, List.append_nil] at this
      omega
    exact ⟨[], rfl, this.symm, by intro p hp; cases hp⟩
  | b :: bs, P, J, L, hok, hd, hP, hPs, hn, hids, hJ, hsec => by
    rw [cat] at hn
    rw [List.map_cons, List.pairwise_cons] at hd
    have hlen : b.nodes.length ≤ L.length := by
      have : ids.length = a.nodes.length := h.count
      rw [hn, hids] at this
      simp only [List.length_append, List.length_map] at this
      omega
    have hL : L = L.take b.nodes.length ++ L.drop b.nodes.length := (List.take_append_drop _ _).symm
    have hI : (L.take b.nodes.length).length = b.nodes.length := by rw [List.length_take]; omega
    have hother : ∀ c ∈ bs, ∀ k, k ∈ c.names → k ∉ b.names := fun c hc k h1 h2 => hd.1 _ (List.mem_map_of_mem hc) h2 h1
    have hloc : Local s b (L.take b.nodes.length) := by
      refine local_of h (hok b List.mem_cons_self) hn hP (fun n hm j e => cat_parents n hm j e) (fun n hm => hPs n hm b List.mem_cons_self) ?_
        (hsec b List.mem_cons_self) (J := J) (L := L.drop b.nodes.length) (by rw [← hL]; exact hids) hJ hI
      intro n hm
      obtain ⟨c, hc, hk⟩ := cat_secs (fun b hb => hok b (List.mem_cons_of_mem _ hb)) n hm
      exact hother c hc _ hk
    have hlP : (P ++ b.nodes.map (shift P.length)).length = P.length + b.nodes.length := by simp
    obtain ⟨ps, e1, e2, e3⟩ := split_pieces h (bs := bs) (P := P ++ b.nodes.map (shift P.length)) (J := J ++ L.take b.nodes.length)
      (L := L.drop b.nodes.length) (fun c hc => hok c (List.mem_cons_of_mem _ hc)) hd.2 (by
        rw [hlP]
        intro n hm
        rcases List.mem_append.1 hm with hm | hm
        · have := hP n hm
          cases hp : n.parent with
          | none => trivial
          | some i =>
            rw [hp] at this
            have : i < P.length := this
            show i < _
            omega
        · obtain ⟨m, hm', rfl⟩ := List.mem_map.1 hm
          have := (hok b List.mem_cons_self).refs m hm'
          show RefOk _ (m.parent.map (· + P.length))
          cases hp : m.parent with
          | none => trivial
          | some i =>
            rw [hp] at this
            have : i < b.nodes.length := this
            show i + P.length < _
            omega) (by
        intro n hm c hc
        rcases List.mem_append.1 hm with hm | hm
        · exact hPs n hm c (List.mem_cons_of_mem _ hc)
        · obtain ⟨m, hm', rfl⟩ := List.mem_map.1 hm
          intro hin
          exact hother c hc _ hin ((hok b List.mem_cons_self).secs m hm'))
      (by rw [hlP, List.append_assoc]; exact hn) (by rw [List.append_assoc, ← hL]; exact hids) (by rw [List.length_append, hI, hJ, hlP])
      (fun c hc => hsec c (List.mem_cons_of_mem _ hc))
    refine ⟨(b, L.take b.nodes.length) :: ps, by rw [List.map_cons, e1], by rw [List.flatMap_cons, e2]; exact hL.symm, ?_⟩
    intro p hp
    rcases List.mem_cons.1 hp with rfl | hp
    · exact hloc
    · exact e3 p hp

theorem pick_cat {s : St} {f : Node → Bool} (hf : ∀ o n, f (shift o n) = f n) : ∀ {ps : List (Bk × List Nat)} {o : Nat}, (∀ p ∈ ps, Local s p.1 p.2) →
    pick (cat o (ps.map (·.1))) (ps.flatMap (·.2)) f = ps.flatMap fun p => pick p.1.nodes p.2 f
  | [], _, _ => rfl
  | p :: ps, o, h => by
    rw [List.map_cons, cat, List.flatMap_cons, List.flatMap_cons, pick_join f (by rw [(h p List.mem_cons_self).count, List.length_map]), pick_map_left,
      pick_cat hf fun p hp => h p (List.mem_cons_of_mem _ hp)]
    congr 1
    exact pick_congr fun n _ => hf o n

/-- The document is made of the pieces, with their objects, in some order. -/
structure Holding (s : St) (ps : List (Bk × List Nat)) : Prop where
  ok : ∀ p ∈ ps, p.1.Ok
  each : ∀ p ∈ ps, Local s p.1 p.2
  nodup : (ps.flatMap (·.2)).Nodup
  terms : s.terms.Perm (ps.flatMap fun p => pick p.1.nodes p.2 fun n => n.pt = py!"root")
  rootChildren : (s.heap s.root).children.Perm (ps.flatMap fun p => pick p.1.nodes p.2 fun n => n.parent = none)
  sections : s.sections.keys.Perm (ps.flatMap fun p => p.1.secs.keys)

theorem Holding.perm {s : St} {ps qs : List (Bk × List Nat)} (h : Holding s ps) (hp : ps.Perm qs) : Holding s qs :=
  ⟨fun p hq => h.ok p (hp.mem_iff.2 hq), fun p hq => h.each p (hp.mem_iff.2 hq), (hp.flatMap_right _).nodup_iff.1 h.nodup,
    h.terms.trans (hp.flatMap_right _), h.rootChildren.trans (hp.flatMap_right _), h.sections.trans (hp.flatMap_right _)⟩

theorem get?_flatMap {k : Str} : ∀ {bs : List Bk} {b : Bk}, (∀ c ∈ bs, c.Ok) → (bs.map (·.names)).Pairwise List.Disjoint → b ∈ bs → k ∈ b.names →
    Dict.get? (bs.flatMap (·.secs)) k = Dict.get? b.secs k
  | [], b, _, _, hb, _ => by cases hb
  | c :: bs, b, hok, hd, hb, hk => by
    rw [List.map_cons, List.pairwise_cons] at hd
    rw [List.flatMap_cons]
    rcases List.mem_cons.1 hb with rfl | hb
    · refine get?_append_left ?_
      intro hm
      unfold Dict.keys at hm
      rw [List.map_flatMap] at hm
      obtain ⟨c, hc, hm⟩ := List.mem_flatMap.1 hm
      exact hd.1 _ (List.mem_map_of_mem hc) hk ((hok c (List.mem_cons_of_mem _ hc)).keys k hm)
    · rw [get?_append_right, get?_flatMap (fun c hc => hok c (List.mem_cons_of_mem _ hc)) hd.2 hb hk]
      intro hm
      exact hd.1 _ (List.mem_map_of_mem hb) ((hok c List.mem_cons_self).keys k hm) hk

theorem holding_of {s : St} {a : Reader} {ids : List Nat} (h : _root_.Spec.Holds s a ids) {bs : List Bk} (hok : ∀ b ∈ bs, b.Ok)
    (hd : (bs.map (·.names)).Pairwise List.Disjoint) (hn : a.nodes = cat 0 bs) (hs : a.secs = bs.flatMap (·.secs)) :
    ∃ ps, ps.map (·.1) = bs ∧ Holding s ps := by
  obtain ⟨ps, e1, e2, e3⟩ := split_pieces h (bs := bs) (P := []) (J := []) (L := ids) hok hd (by intro n hm; cases hm) (by intro n hm; cases hm)
    hn rfl rfl (by intro b hb k hk; rw [hs]; exact get?_flatMap hok hd hb hk)
  subst e1
  subst e2
  refine ⟨ps, rfl, fun p hp => hok _ (List.mem_map_of_mem hp), e3, h.distinct.imp fun hlt => Nat.ne_of_lt hlt, ?_, ?_, ?_⟩
  · rw [h.terms, hn, pick_cat (fun _ _ => rfl) e3]
  · rw [h.rootChildren, hn, pick_cat (fun o n => ?_) e3]
    show decide (n.parent.map _ = none) = _
    cases n.parent <;> rfl
  · rw [h.sections, hs]
    unfold Dict.keys
    rw [List.map_flatMap, List.flatMap_map]

/-! ## Two documents made of the same pieces -/

theorem blocks_map {α : Type} {f : Nat → Nat} : ∀ {ts : List (α × List Nat × List Nat)}, (∀ t ∈ ts, t.2.1.length = t.2.2.length) →
    ts.flatMap (·.2.2) = (ts.flatMap (·.2.1)).map f → ∀ t ∈ ts, t.2.2 = t.2.1.map f
  | [], _, _, t, ht => by cases ht
  | u :: ts, hl, h, t, ht => by
    rw [List.flatMap_cons, List.flatMap_cons, List.map_append] at h
    obtain ⟨h1, h2⟩ := List.append_inj h (by rw [List.length_map, hl u List.mem_cons_self])
    rcases List.mem_cons.1 ht with rfl | ht
    · exact h1
    · exact blocks_map (fun t ht => hl t (List.mem_cons_of_mem _ ht)) h2 t ht

theorem blocks_length {α : Type} : ∀ {ts : List (α × List Nat × List Nat)}, (∀ t ∈ ts, t.2.1.length = t.2.2.length) →
    (ts.flatMap (·.2.2)).length = (ts.flatMap (·.2.1)).length
  | [], _ => rfl
  | u :: ts, hl => by
    rw [List.flatMap_cons, List.flatMap_cons, List.length_append, List.length_append, hl u List.mem_cons_self,
      blocks_length fun t ht => hl t (List.mem_cons_of_mem _ ht)]

theorem rename_nodup {s s' : St} {ids ids' : List Nat} (hnd : ids.Nodup) (hr : s.root ∉ ids) (hl : ids'.length = ids.length) :
    ids' = ids.map (rename s s' ids ids') := by
  refine (List.ext_getElem (by simp [hl]) ?_).symm
  intro i h1 h2
  have hi : i < ids.length := by omega
  rw [List.getElem_map]
  unfold rename
  rw [if_neg (fun e => hr (by rw [← e]; exact List.getElem_mem hi)), hnd.idxOf_getElem]
  simp [h2]

theorem Holding.mem {s : St} {ps : List (Bk × List Nat)} (h : Holding s ps) {t : Nat} (ht : InDoc s t) : ∃ p ∈ ps, t ∈ p.2 := by
  induction ht with
  | top hm =>
    obtain ⟨p, hp, hm⟩ := List.mem_flatMap.1 (h.terms.mem_iff.1 hm)
    exact ⟨p, hp, mem_pick hm⟩
  | @listed t x k hk hm =>
    have hkeys : k ∈ s.sections.keys := by
      by_contra hn
      rw [Dict.get?_eq_none.2 hn] at hk
      cases hk
    obtain ⟨p, hp, hin⟩ := List.mem_flatMap.1 (h.sections.mem_iff.1 hkeys)
    rw [(h.each p hp).sectionTerms k ((h.ok p hp).keys k hin) x hk] at hm
    exact ⟨p, hp, mem_pick hm⟩
  | root hm =>
    obtain ⟨p, hp, hm⟩ := List.mem_flatMap.1 (h.rootChildren.mem_iff.1 hm)
    exact ⟨p, hp, mem_pick hm⟩
  | child _ hm ih =>
    obtain ⟨p, hp, hin⟩ := ih
    obtain ⟨i, hi, rfl⟩ := List.getElem_of_mem hin
    have := (h.each p hp).children i hi
    rw [ref_some hi] at this
    rw [this] at hm
    exact ⟨p, hp, mem_pick hm⟩

theorem sections_iso {s s' : St} {ts : List (Bk × List Nat × List Nat)} (h : Holding s (ts.map fun t => (t.1, t.2.1)))
    (h' : Holding s' (ts.map fun t => (t.1, t.2.2))) (hr : (s.heap s.root).cls.isSection = true) (hr' : (s'.heap s'.root).cls.isSection = true) :
    SameSections s s' := by
  have hL : ∀ t ∈ ts, Local s t.1 t.2.1 := fun t ht => h.each (t.1, t.2.1) (List.mem_map.2 ⟨t, ht, rfl⟩)
  have hL' : ∀ t ∈ ts, Local s' t.1 t.2.2 := fun t ht => h'.each (t.1, t.2.2) (List.mem_map.2 ⟨t, ht, rfl⟩)
  have hO : ∀ t ∈ ts, t.1.Ok := fun t ht => h.ok (t.1, t.2.1) (List.mem_map.2 ⟨t, ht, rfl⟩)
  have hlen : ∀ t ∈ ts, t.2.1.length = t.2.2.length := fun t ht => by rw [(hL t ht).count, (hL' t ht).count]
  obtain ⟨ids, hids⟩ : ∃ ids, ids = ts.flatMap (·.2.1) := ⟨_, rfl⟩
  obtain ⟨ids', hids'⟩ : ∃ ids', ids' = ts.flatMap (·.2.2) := ⟨_, rfl⟩
  have hnd : ids.Nodup := by have := h.nodup; rw [List.flatMap_map] at this; rw [hids]; exact this
  have hnd' : ids'.Nodup := by have := h'.nodup; rw [List.flatMap_map] at this; rw [hids']; exact this
  have hroot : s.root ∉ ids := by
    intro hm
    rw [hids] at hm
    obtain ⟨t, ht, hm⟩ := List.mem_flatMap.1 hm
    have := ((hL t ht).exist _ hm).2
    rw [hr] at this; cases this
  have hll : ids'.length = ids.length := by rw [hids, hids']; exact blocks_length hlen
  obtain ⟨f, hf⟩ : ∃ f, f = rename s s' ids ids' := ⟨_, rfl⟩
  have hfr : f s.root = s'.root := by rw [hf]; exact if_pos rfl
  have hmap : ids' = ids.map f := by rw [hf]; exact rename_nodup hnd hroot hll
  have hblk : ∀ t ∈ ts, t.2.2 = t.2.1.map f := blocks_map hlen (by rw [← hids, ← hids']; exact hmap)
  have hpick : ∀ t ∈ ts, ∀ g, pick t.1.nodes t.2.2 g = (pick t.1.nodes t.2.1 g).map f := by
    intro t ht g; rw [hblk t ht, pick_map]
  have href : ∀ t ∈ ts, ∀ i, RefOk t.1.nodes.length i → f (ref s t.2.1 i) = ref s' t.2.2 i := by
    intro t ht i hi
    cases i with
    | none => exact hfr
    | some i =>
      have hi : i < t.2.1.length := by rw [(hL t ht).count]; exact hi
      have hi' : i < t.2.2.length := by rw [← hlen t ht]; exact hi
      rw [ref_some hi, ref_some hi']
      have := List.getElem_of_eq (hblk t ht) hi'
      rw [this, List.getElem_map]
  have hmem : ∀ u, InDoc s u → ∃ t ∈ ts, ∃ i, ∃ hi : i < t.2.1.length, ∃ hi' : i < t.2.2.length, ∃ n, u = t.2.1[i] ∧ f u = t.2.2[i] ∧
      n ∈ t.1.nodes ∧ (n, u) ∈ t.1.nodes.zip t.2.1 ∧ (n, f u) ∈ t.1.nodes.zip t.2.2 := by
    intro u hu
    obtain ⟨p, hp, hin⟩ := h.mem hu
    obtain ⟨t, ht, rfl⟩ := List.mem_map.1 hp
    obtain ⟨i, hi, rfl⟩ := List.getElem_of_mem hin
    have hi : i < t.2.1.length := hi
    have hi' : i < t.2.2.length := by rw [← hlen t ht]; exact hi
    have hin : i < t.1.nodes.length := by rw [← (hL t ht).count]; exact hi
    have e : f t.2.1[i] = t.2.2[i] := by
      rw [List.getElem_of_eq (hblk t ht) hi', List.getElem_map]
    refine ⟨t, ht, i, hi, hi', t.1.nodes[i], rfl, e, List.getElem_mem hin, ?_, ?_⟩
    · rw [List.mem_iff_getElem]
      exact ⟨i, by rw [List.length_zip]; omega, by simp⟩
    · show (_, f t.2.1[i]) ∈ _
      rw [e, List.mem_iff_getElem]
      exact ⟨i, by rw [List.length_zip]; omega, by simp⟩
  have hkeys : ∀ k x, s.sections.get? k = some x → ∃ t ∈ ts, k ∈ t.1.names := by
    intro k x hk
    have hkeys : k ∈ s.sections.keys := by
      by_contra hn
      rw [Dict.get?_eq_none.2 hn] at hk
      cases hk
    obtain ⟨p, hp, hin⟩ := List.mem_flatMap.1 (h.sections.mem_iff.1 hkeys)
    obtain ⟨t, ht, rfl⟩ := List.mem_map.1 hp
    exact ⟨t, ht, (hO t ht).keys k hin⟩
  have hflat : ∀ g, (ts.flatMap fun t => pick t.1.nodes t.2.2 g) = (ts.flatMap fun t => pick t.1.nodes t.2.1 g).map f := by
    intro g
    rw [List.map_flatMap]
    exact List.flatMap_congr fun t ht => hpick t ht g
  refine ⟨f, hfr, ?_, ?_, ?_, ?_, ?_, ?_, ?_, ?_, ?_, ?_, ?_⟩
  · intro u v hu hv e
    obtain ⟨t, ht, i, hi, -, -, rfl, -⟩ := hmem u hu
    obtain ⟨t2, ht2, j, hj, -, -, rfl, -⟩ := hmem v hv
    have m1 : t.2.1[i] ∈ ids := by rw [hids]; exact List.mem_flatMap.2 ⟨t, ht, List.getElem_mem hi⟩
    have m2 : t2.2.1[j] ∈ ids := by rw [hids]; exact List.mem_flatMap.2 ⟨t2, ht2, List.getElem_mem hj⟩
    rw [hmap] at hnd'
    exact List.inj_on_of_nodup_map hnd' m1 m2 e
  · intro u hu e
    obtain ⟨t, ht, i, hi, hi', -, -, e1, -⟩ := hmem u hu
    have := ((hL' t ht).exist _ (List.getElem_mem hi')).2
    rw [← e1, e, hr'] at this; cases this
  · intro u hu
    obtain ⟨t, ht, i, hi, hi', n, -, -, -, m1, m2⟩ := hmem u hu
    obtain ⟨a1, a2, a3, a4, a5, -, -⟩ := (hL t ht).term _ _ m1
    obtain ⟨b1, b2, b3, b4, b5, -, -⟩ := (hL' t ht).term _ _ m2
    exact ⟨b1.trans a1.symm, b2.trans a2.symm, b3.trans a3.symm, b4.trans a4.symm, b5.trans a5.symm⟩
  · intro u hu
    obtain ⟨t, ht, i, hi, hi', n, -, -, hn, m1, m2⟩ := hmem u hu
    obtain ⟨-, -, -, -, -, a6, -⟩ := (hL t ht).term _ _ m1
    obtain ⟨-, -, -, -, -, b6, -⟩ := (hL' t ht).term _ _ m2
    rw [a6, b6, Option.map_some, href t ht _ ((hO t ht).refs n hn)]
  · intro u hu
    obtain ⟨t, ht, i, hi, hi', n, e1, e2, -⟩ := hmem u hu
    rw [e2, e1, ← ref_some (s := s') hi', ← ref_some (s := s) hi, (hL' t ht).children i hi', (hL t ht).children i hi]
    exact hpick t ht _
  · have h1 := h'.rootChildren
    have h2 := h.rootChildren
    rw [List.flatMap_map] at h1 h2
    refine h1.trans ?_
    rw [hflat]
    exact (h2.map f).symm
  · have h1 := h'.terms
    have h2 := h.terms
    rw [List.flatMap_map] at h1 h2
    refine h1.trans ?_
    rw [hflat]
    exact (h2.map f).symm
  · have h1 := h'.sections
    have h2 := h.sections
    rw [List.flatMap_map] at h1 h2
    exact h1.trans h2.symm
  · intro k x x' hx hx'
    obtain ⟨t, ht, hk⟩ := hkeys k x hx
    obtain ⟨n, v, c⟩ := (hL t ht).columns k hk x hx
    obtain ⟨n', v', c'⟩ := (hL' t ht).columns k hk x' hx'
    rw [c] at c'
    simp only [Option.some.injEq, Prod.mk.injEq] at c'
    rw [v, v', c'.1, c'.2]
    exact ⟨rfl, rfl⟩
  · intro k x x' hx hx'
    obtain ⟨t, ht, hk⟩ := hkeys k x hx
    rw [(hL t ht).sectionTerms k hk x hx, (hL' t ht).sectionTerms k hk x' hx']
    exact hpick t ht _
  · intro u hu
    obtain ⟨t, ht, i, hi, hi', n, -, -, -, m1, m2⟩ := hmem u hu
    obtain ⟨-, -, -, -, -, -, a7⟩ := (hL t ht).term _ _ m1
    obtain ⟨-, -, -, -, -, -, b7⟩ := (hL' t ht).term _ _ m2
    exact ⟨n.sec, a7, b7⟩

theorem perm_lift {α β : Type} {f : α → β} {l : List α} {m : List β} (h : (l.map f).Perm m) : ∃ l', l.Perm l' ∧ l'.map f = m := by
  generalize he : l.map f = k at h
  induction h generalizing l with
  | nil => exact ⟨l, .refl _, he⟩
  | cons x _ ih =>
    cases l with
    | nil => cases he
    | cons a l =>
      injection he with e1 e2
      obtain ⟨l', p, e⟩ := ih e2
      exact ⟨a :: l', p.cons a, by rw [List.map_cons, e1, e]⟩
  | swap x y k =>
    cases l with
    | nil => cases he
    | cons a l =>
      injection he with e1 e2
      cases l with
      | nil => cases e2
      | cons b l =>
        injection e2 with e2 e3
        exact ⟨b :: a :: l, .swap _ _ _, by rw [List.map_cons, List.map_cons, e1, e2, e3]⟩
  | trans _ _ ih1 ih2 =>
    obtain ⟨l1, p1, e1⟩ := ih1 he
    obtain ⟨l2, p2, e2⟩ := ih2 e1
    exact ⟨l2, p1.trans p2, e2⟩

theorem triples {α : Type} : ∀ {ps ps' : List (α × List Nat)}, ps'.map (·.1) = ps.map (·.1) →
    ∃ ts : List (α × List Nat × List Nat), (ts.map fun t => (t.1, t.2.1)) = ps ∧ (ts.map fun t => (t.1, t.2.2)) = ps'
  | [], [], _ => ⟨[], rfl, rfl⟩
  | [], _ :: _, h => by cases h
  | _ :: _, [], h => by cases h
  | p :: ps, p' :: ps', h => by
    injection h with h1 h2
    obtain ⟨ts, e1, e2⟩ := triples h2
    refine ⟨(p.1, p.2, p'.2) :: ts, by rw [List.map_cons, e1], ?_⟩
    have h1 : p'.1 = p.1 := h1
    rw [List.map_cons, e2]
    show (p.1, p'.2) :: ps' = _
    rw [← h1]

/-- Documents made of the same pieces in any order have the same sections. -/
theorem same_pieces {s s' : St} {ps ps' : List (Bk × List Nat)} (h : Holding s ps) (h' : Holding s' ps') (hp : (ps'.map (·.1)).Perm (ps.map (·.1)))
    (hr : (s.heap s.root).cls.isSection = true) (hr' : (s'.heap s'.root).cls.isSection = true) : SameSections s s' := by
  obtain ⟨qs, p, e⟩ := perm_lift hp
  obtain ⟨ts, e1, e2⟩ := triples e
  exact sections_iso (ts := ts) (by rw [e1]; exact h) (by rw [e2]; exact h'.perm p) hr hr'

end Metatab
