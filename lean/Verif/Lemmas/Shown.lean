import Verif.Lemmas.ReadDoc
import Verif.Lemmas.SameDoc
import Verif.Lemmas.Track
/-! Documents read from written outlines show the outline. -/
namespace Metatab
open Py _root_.Spec

/-! ## Without header rows, the columns are those of the section rows -/

def NoHeaders (s : St) : Prop := ∀ j, (s.heap j).headerArgs = []

theorem noHeaders_addTerm {s : St} {o : Obj} {p r : Str} {q : Nat} (h : NoHeaders s) (ho : o.headerArgs = []) : NoHeaders (addTerm s o p r q) := by
  intro j
  have hf : (finalObj s o p r q).headerArgs = [] := by
    unfold finalObj finish dress
    split <;> exact ho
  unfold addTerm
  simp only
  split
  · exact hf
  · exact h j

theorem noHeaders_args {t : Nat} : ∀ {vs : List Str} {k : Nat} {s : St}, NoHeaders s → NoHeaders (argsEffect t k vs s)
  | [], _, _, h => h
  | v :: vs, k, s, h => by
    rw [argsEffect]
    refine noHeaders_args ?_
    unfold argEffect
    split
    · exact h
    · exact noHeaders_addTerm h rfl

theorem noHeaders_rows {s s' : St} {rows : List (List Str)} (hr : PlainRows s rows s') (hn : ∀ row ∈ rows, kind row ≠ .special ∧ ∀ n c, kind row ≠ .header n c)
    (h : NoHeaders s) : NoHeaders s' := by
  induction hr with
  | nil => exact h
  | cons hr _ ih =>
    refine ih (fun row hrow => hn row (List.mem_cons_of_mem _ hrow)) ?_
    rcases hr.by_kind with ⟨-, rfl⟩ | ⟨c, rest, rfl, -, -, rfl⟩ | ⟨c, rest, rfl, -, e, -⟩ | ⟨c, x, rest, rfl, -, -, rfl⟩ | ⟨c, p, r, rest, rfl, -, -, -, rfl⟩ | e
    · exact h
    · intro j
      rw [sectionEffect_heap]
      simp only
      split
      · rfl
      · exact h j
    · exact absurd e ((hn _ List.mem_cons_self).2 _ _)
    · exact noHeaders_args (noHeaders_addTerm h rfl)
    · exact noHeaders_args (noHeaders_addTerm h rfl)
    · exact absurd e (hn _ List.mem_cons_self).1

/-! ## Declarations -/

theorem argsEffect_declTerms {t : Nat} : ∀ {vs : List Str} {k : Nat} {s : St}, (argsEffect t k vs s).declTerms = s.declTerms
  | [], _, _ => rfl
  | v :: vs, k, s => by
    rw [argsEffect, argsEffect_declTerms]
    unfold argEffect
    split <;> rfl

theorem plainRow_declTerms {s s' : St} {row : List Str} (h : PlainRow s row s') : s'.declTerms = s.declTerms ∧ s'.p.declTerms = s.p.declTerms := by
  cases h with
  | noise => exact ⟨rfl, rfl⟩
  | term hc =>
    unfold termEffect
    rw [argsEffect_declTerms, argsEffect_p]
    exact ⟨rfl, nextP_declTerms ..⟩
  | «section» hc => exact ⟨rfl, rfl⟩
  | header hc => exact ⟨rfl, rfl⟩

theorem plainRows_declTerms {s s' : St} {rows : List (List Str)} (h : PlainRows s rows s') :
    s'.declTerms = s.declTerms ∧ s'.p.declTerms = s.p.declTerms := by
  induction h with
  | nil => exact ⟨rfl, rfl⟩
  | cons hr _ ih => exact ⟨ih.1.trans (plainRow_declTerms hr).1, ih.2.trans (plainRow_declTerms hr).2⟩

theorem plainTvn_of {s : St} (h : s.declTerms = [] ∨ s.declTerms = initDeclTerms) : PlainTvn s := by
  intro p n hp hn
  unfold writtenTvn declProp
  rcases h with h | h
  · rw [h]; rfl
  · have key : ∀ a b : Str, '.' ∉ a → (a = p → b ≠ n) → dotJoin a b ≠ dotJoin p n := by
      intro a b ha hne e
      obtain ⟨e1, e2⟩ := dotJoin_left ha hp.dot e
      exact hne e1 e2
    have ho := hn.ord
    unfold ordinary at ho
    simp only [Bool.and_eq_true, Bool.not_eq_true'] at ho
    have hns : ∀ b, b ∈ [py!"section", py!"root", py!"header", py!"include", py!"declare", py!"<elided_term>", py!"synonym", py!"declareterm",
        py!"declaresection", py!"declarevalueset"] → b ≠ n := by
      rintro b hb rfl
      have := ho.1.2
      rw [List.contains_iff_mem.2 hb] at this
      cases this
    have hvs : py!"declarevalueset" ≠ p := by
      rintro rfl
      rcases hp with hp | hp
      · exact absurd hp (by decide)
      · have := hp.ord
        revert this
        decide +kernel
    have h0 : Dict.get? s.declTerms (dotJoin p n) = none := by
      rw [h]
      unfold initDeclTerms
      have c1 := key (py!"root") (py!"section") (by decide) fun _ => hns _ (by decide)
      have c2 := key (py!"root") (py!"synonym") (by decide) fun _ => hns _ (by decide)
      have c3 := key (py!"root") (py!"declareterm") (by decide) fun _ => hns _ (by decide)
      have c4 := key (py!"root") (py!"declaresection") (by decide) fun _ => hns _ (by decide)
      have c5 := key (py!"root") (py!"declarevalueset") (by decide) fun _ => hns _ (by decide)
      have c6 := key (py!"declarevalueset") (py!"value") (by decide) fun e => absurd e hvs
      rw [Dict.get?_cons, if_neg (by exact c1), Dict.get?_cons, if_neg (by exact c2), Dict.get?_cons, if_neg (by exact c3), Dict.get?_cons,
        if_neg (by exact c4), Dict.get?_cons, if_neg (by exact c5), Dict.get?_cons, if_neg (by exact c6)]
      rfl
    rw [h0]

/-- Reading rows without headers. -/
theorem plain_shown {env : Env} {classes : Dict Cls} (hcl : PlainClasses classes) {rows : List (List Str)} (h : plainFile rows = true)
    (hn : ∀ row ∈ rows, kind row ≠ .special ∧ ∀ n c, kind row ≠ .header n c) (files : Files) (fuel : Nat) (path : Str) :
    ∃ s ids, parseRows files (fuel + 1) path rows (newDoc env classes) = .ok () s ∧ Holds s (readAll rows) ids ∧
      (s.heap s.root).rt = py!"root" ∧ NoHeaders s ∧ PlainTvn s := by
  obtain ⟨s', h'⟩ := plainFile_rows (env := env) hcl h
  have i0 := pinv_new (F := True) (env := env) hcl
  obtain ⟨ids, hs⟩ := sim_rows i0 (sim_start env classes) h' h
  refine ⟨_, ids, parse_plain hcl h' files fuel path, holds_finish hs.toHolds, (h'.inv i0).rootName, ?_⟩
  have : NoHeaders s' := noHeaders_rows h' hn fun j => by
    show ((newDoc env classes).heap j).headerArgs = []
    unfold newDoc
    simp only
    split <;> rfl
  refine ⟨this, plainTvn_of (.inr ?_)⟩
  show Dict.update s'.declTerms s'.p.declTerms = _
  rw [(plainRows_declTerms h').1, (plainRows_declTerms h').2]
  show Dict.update [] initDeclTerms = initDeclTerms
  rfl

/-! ## The flat list of an outline -/

mutual
/-- Parents of the nodes of an item are the item's parent or nodes of the item. -/
theorem flatI_parent {sec p : Str} {pi : Option Nat} : ∀ (i : Item) {b : Nat}, ∀ n ∈ (flatI sec p pi b i).tail,
    ∃ j, n.parent = some j ∧ b ≤ j ∧ j < b + (flatI sec p pi b i).length
  | .mk n v ks, b => by
    intro x hx
    rw [flatI] at hx ⊢
    rcases flatL_parent ks x hx with e | ⟨j, e, h1, h2⟩
    · exact ⟨b, e, Nat.le_refl _, by simp⟩
    · refine ⟨j, e, by omega, ?_⟩
      rw [List.length_cons]; omega
theorem flatL_parent {sec p : Str} {pi : Option Nat} : ∀ (ks : List Item) {b : Nat}, ∀ n ∈ flatL sec p pi b ks,
    n.parent = pi ∨ ∃ j, n.parent = some j ∧ b ≤ j ∧ j < b + (flatL sec p pi b ks).length
  | [], b => by
    intro x hx
    rw [flatL] at hx
    cases hx
  | k :: ks, b => by
    intro x hx
    rw [flatL] at hx ⊢
    rw [List.length_append]
    rcases List.mem_append.1 hx with hx | hx
    · cases hf : flatI sec p pi b k with
      | nil => rw [hf] at hx; cases hx
      | cons y ys =>
        rw [hf] at hx
        rcases List.mem_cons.1 hx with rfl | hx
        · left
          cases k with
          | mk n v l => rw [flatI] at hf; injection hf with e _; rw [← e]
        · obtain ⟨j, e, h1, h2⟩ := flatI_parent (sec := sec) (p := p) (pi := pi) k (b := b) x (by rw [hf]; exact hx)
          rw [hf] at h2
          exact .inr ⟨j, e, h1, by omega⟩
    · rcases flatL_parent ks x hx with e | ⟨j, e, h1, h2⟩
      · exact .inl e
      · exact .inr ⟨j, e, by omega, by omega⟩
end

mutual
theorem flatI_sec {sec p : Str} {pi : Option Nat} : ∀ (i : Item) {b : Nat}, ∀ n ∈ flatI sec p pi b i, n.sec = sec
  | .mk n v ks, b => by
    intro x hx
    rw [flatI] at hx
    rcases List.mem_cons.1 hx with rfl | hx
    · rfl
    · exact flatL_sec ks x hx
theorem flatL_sec {sec p : Str} {pi : Option Nat} : ∀ (ks : List Item) {b : Nat}, ∀ n ∈ flatL sec p pi b ks, n.sec = sec
  | [], b => by
    intro x hx
    rw [flatL] at hx
    cases hx
  | k :: ks, b => by
    intro x hx
    rw [flatL] at hx
    rcases List.mem_append.1 hx with hx | hx
    · exact flatI_sec k x hx
    · exact flatL_sec ks x hx
end

/-- Nodes directly below the parent have its name. -/
theorem flatL_pt {sec p : Str} {pi : Option Nat} : ∀ (ks : List Item) {b : Nat}, (∀ j, pi = some j → j < b) → ∀ n ∈ flatL sec p pi b ks, n.parent = pi → n.pt = p
  | [], b => by
    intro _ x hx
    rw [flatL] at hx
    cases hx
  | k :: ks, b => by
    intro hb x hx he
    rw [flatL] at hx
    rcases List.mem_append.1 hx with hx | hx
    · cases k with
      | mk n v l =>
        have ht := flatI_parent (sec := sec) (p := p) (pi := pi) (.mk n v l) (b := b) x
        rw [flatI] at hx ht
        rcases List.mem_cons.1 hx with rfl | hx
        · rfl
        · obtain ⟨j, e, h1, -⟩ := ht hx
          have := hb j (he.symm.trans e)
          omega
    · exact flatL_pt ks (fun j e => by have := hb j e; omega) x hx he

theorem pick_app {n1 n2 : List Node} {i1 i2 : List Nat} (h : i1.length = n1.length) (f : Node → Bool) :
    pick (n1 ++ n2) (i1 ++ i2) f = pick n1 i1 f ++ pick n2 i2 f := by
  unfold pick
  rw [List.zip_append h.symm, List.filter_append, List.map_append]

theorem pick_none {ns : List Node} {is : List Nat} {f : Node → Bool} (h : ∀ n ∈ ns, f n = false) : pick ns is f = [] := by
  unfold pick
  rw [List.map_eq_nil_iff, List.filter_eq_nil_iff]
  intro nt hnt
  rw [h nt.1 (List.of_mem_zip hnt).1]
  simp

theorem pick_congr {ns : List Node} {is : List Nat} {f g : Node → Bool} (h : ∀ n ∈ ns, f n = g n) : pick ns is f = pick ns is g := by
  unfold pick
  rw [List.filter_congr]
  intro nt hnt
  exact h nt.1 (List.of_mem_zip hnt).1

theorem zip_of_pick {ns : List Node} {is : List Nat} {f : Node → Bool} {t : Nat} (h : t ∈ pick ns is f) : ∃ n, (n, t) ∈ ns.zip is ∧ f n = true := by
  unfold pick at h
  obtain ⟨⟨n, t'⟩, h1, rfl⟩ := List.mem_map.1 h
  obtain ⟨h2, h3⟩ := List.mem_filter.1 h1
  exact ⟨n, h2, h3⟩

theorem split_ids {α : Type} {ids : List α} {a b : Nat} (h : ids.length = a + b) : ∃ x y, ids = x ++ y ∧ x.length = a ∧ y.length = b :=
  ⟨ids.take a, ids.drop a, (List.take_append_drop a ids).symm, by rw [List.length_take]; omega, by rw [List.length_drop]; omega⟩

mutual
theorem shown_item {s : St} {a : Reader} {ids : List Nat} (H : Tracks s a ids) {sec : Str} {x : Nat} (hx : s.sections.get? sec = some x) :
    ∀ (i : Item) {p : Str} {pi : Option Nat} {b : Nat} {pre post : List Node} {ipre seg ipost : List Nat},
    a.nodes = pre ++ (flatI sec p pi b i ++ post) → ids = ipre ++ (seg ++ ipost) → pre.length = b → ipre.length = b →
    seg.length = (flatI sec p pi b i).length → (∀ j, pi = some j → j < b) →
    (∀ n ∈ pre ++ post, ∀ j, n.parent = some j → j < b ∨ b + (flatI sec p pi b i).length ≤ j) →
    ∃ t r, seg = t :: r ∧ ShowsItem s x i t
  | .mk n v ks, p, pi, b, pre, post, ipre, seg, ipost => by
    intro hn hi hb hib hseg hpi hout
    rw [flatI] at hn hseg hout
    cases seg with
    | nil => simp at hseg
    | cons t r =>
      refine ⟨t, r, rfl, ?_⟩
      have hr : r.length = (flatL sec n (some b) (b + 1) ks).length := by simpa using hseg
      have hlen : b < ids.length := by rw [hi]; simp; omega
      have hget : ref s ids (some b) = t := by
        show ids.getD b s.root = t
        rw [List.getD_eq_getElem?_getD, hi, List.getElem?_append_right (by omega), hib, Nat.sub_self]
        rfl
      have hzip : (⟨p, n, asVal v, pi, sec, py!"@value"⟩, t) ∈ a.nodes.zip ids := by
        rw [hn, hi, List.zip_append (by omega)]
        simp
      obtain ⟨t1, t2, t3, t6, t7⟩ := H.term _ _ hzip
      have hch := H.children b hlen
      rw [hget] at hch
      have hch' : (s.heap t).children = pick (flatL sec n (some b) (b + 1) ks) r fun m => decide (m.parent = some b) := by
        rw [hch, hn, hi, pick_app (by omega), List.cons_append, List.cons_append]
        rw [pick_none (ns := pre), List.nil_append]
        · have e1 : pick (⟨p, n, asVal v, pi, sec, py!"@value"⟩ :: (flatL sec n (some b) (b + 1) ks ++ post)) (t :: (r ++ ipost)) (fun m => decide (m.parent = some b)) =
              pick (flatL sec n (some b) (b + 1) ks ++ post) (r ++ ipost) fun m => decide (m.parent = some b) := by
            unfold pick
            rw [List.zip_cons_cons, List.filter_cons_of_neg]
            simp only [decide_eq_true_eq]
            intro e
            have := hpi b e
            omega
          rw [e1, pick_app hr, pick_none (ns := post), List.append_nil]
          intro m hm
          simp only [decide_eq_false_iff_not]
          intro e
          have := hout m (List.mem_append_right _ hm) b e
          simp at this
          omega
        · intro m hm
          simp only [decide_eq_false_iff_not]
          intro e
          have := hout m (List.mem_append_left _ hm) b e
          simp at this
          omega
      rw [showsItem_mk]
      refine ⟨t2, t3, by rw [t7, hx], ?_, ?_⟩
      · intro c hc
        have hc' := hc
        rw [hch'] at hc
        obtain ⟨m, hm, hf⟩ := zip_of_pick hc
        have hpar : m.parent = some b := by simpa using hf
        have hz : (m, c) ∈ a.nodes.zip ids := by
          rw [hn, hi, List.zip_append (by omega), List.cons_append, List.cons_append, List.zip_cons_cons, List.zip_append hr.symm]
          simp [hm]
        obtain ⟨u1, -, -, u6, -⟩ := H.term _ _ hz
        refine ⟨by rw [u6, hpar, hget], ?_⟩
        rw [u1]
        exact flatL_pt ks (fun j e => by injection e with e; omega) m (List.of_mem_zip hm).1 hpar
      · rw [hch']
        refine shown_items H hx ks (pre := pre ++ [⟨p, n, asVal v, pi, sec, py!"@value"⟩]) (post := post) (ipre := ipre ++ [t]) (seg := r) (ipost := ipost)
          (by rw [hn]; simp) (by rw [hi]; simp) (by simp; omega) (by simp; omega) hr (fun j e => by injection e with e; omega) ?_
        intro m hm j e
        rcases List.mem_append.1 hm with hm | hm
        · rcases List.mem_append.1 hm with hm | hm
          · have := hout m (List.mem_append_left _ hm) j e
            rw [List.length_cons] at this
            omega
          · obtain rfl := List.mem_singleton.1 hm
            have := hpi j e
            omega
        · have := hout m (List.mem_append_right _ hm) j e
          rw [List.length_cons] at this
          omega
theorem shown_items {s : St} {a : Reader} {ids : List Nat} (H : Tracks s a ids) {sec : Str} {x : Nat} (hx : s.sections.get? sec = some x) :
    ∀ (ks : List Item) {p : Str} {pi : Option Nat} {b : Nat} {pre post : List Node} {ipre seg ipost : List Nat},
    a.nodes = pre ++ (flatL sec p pi b ks ++ post) → ids = ipre ++ (seg ++ ipost) → pre.length = b → ipre.length = b →
    seg.length = (flatL sec p pi b ks).length → (∀ j, pi = some j → j < b) →
    (∀ n ∈ pre ++ post, ∀ j, n.parent = some j → j < b ∨ b + (flatL sec p pi b ks).length ≤ j) →
    ShowsItems s x ks (pick (flatL sec p pi b ks) seg fun m => decide (m.parent = pi))
  | [], p, pi, b, pre, post, ipre, seg, ipost => by
    intro _ _ _ _ hseg _ _
    rw [flatL] at hseg ⊢
    rw [ShowsItems]
    rfl
  | k :: ks, p, pi, b, pre, post, ipre, seg, ipost => by
    intro hn hi hb hib hseg hpi hout
    rw [flatL] at hn hseg hout ⊢
    rw [List.length_append] at hseg hout
    obtain ⟨s1, s2, rfl, l1, l2⟩ := split_ids hseg
    have tl := fun n hn => flatI_parent (sec := sec) (p := p) (pi := pi) k (b := b) n hn
    have pl := fun n hn => flatL_parent (sec := sec) (p := p) (pi := pi) ks (b := b + (flatI sec p pi b k).length) n hn
    obtain ⟨t, r, rfl, ht⟩ := shown_item H hx k (pre := pre) (post := flatL sec p pi (b + (flatI sec p pi b k).length) ks ++ post) (ipre := ipre)
      (seg := s1) (ipost := s2 ++ ipost) (by rw [hn, List.append_assoc]) (by rw [hi, List.append_assoc]) hb hib l1 hpi (by
        intro n hn j e
        rcases List.mem_append.1 hn with hn | hn
        · have := hout n (List.mem_append_left _ hn) j e; omega
        · rcases List.mem_append.1 hn with hn | hn
          · rcases pl n hn with e' | ⟨j', e', h1, h2⟩
            · exact .inl (hpi j (e'.symm.trans e))
            · rw [e] at e'; injection e' with e'; omega
          · have := hout n (List.mem_append_right _ hn) j e; omega)
    have hrest := shown_items H hx ks (p := p) (pi := pi) (b := b + (flatI sec p pi b k).length) (pre := pre ++ flatI sec p pi b k) (post := post)
      (ipre := ipre ++ t :: r) (seg := s2) (ipost := ipost) (by rw [hn]; simp) (by rw [hi]; simp) (by rw [List.length_append]; omega)
      (by rw [List.length_append]; omega) l2 (fun j e => by have := hpi j e; omega) (by
        intro n hn j e
        rcases List.mem_append.1 hn with hn | hn
        · rcases List.mem_append.1 hn with hn | hn
          · have := hout n (List.mem_append_left _ hn) j e; omega
          · cases hf : flatI sec p pi b k with
            | nil => rw [hf] at hn; cases hn
            | cons y ys =>
              rw [hf] at hn tl
              have hy : y.parent = pi := by
                cases k with
                | mk _ _ _ => rw [flatI] at hf; injection hf with e _; rw [← e]
              rcases List.mem_cons.1 hn with rfl | hn
              · have := hpi j (hy.symm.trans e); omega
              · obtain ⟨j', e', h1, h2⟩ := tl n hn
                rw [e] at e'; injection e' with e'
                subst e'
                left; omega
        · have := hout n (List.mem_append_right _ hn) j e; omega)
    rw [ShowsItems]
    refine ⟨t, _, ?_, ht, hrest⟩
    suffices e : pick (flatI sec p pi b k) (t :: r) (fun m => decide (m.parent = pi)) = [t] by
      rw [pick_app l1, e]; rfl
    cases hf : flatI sec p pi b k with
    | nil => rw [hf] at l1; simp at l1
    | cons y ys =>
      rw [hf] at tl
      have hy : y.parent = pi := by
        cases k with
        | mk _ _ _ => rw [flatI] at hf; injection hf with e _; rw [← e]
      unfold pick
      rw [List.zip_cons_cons, List.filter_cons_of_pos (by simpa using hy), List.map_cons]
      have := pick_none (ns := ys) (is := r) (f := fun m => decide (m.parent = pi)) (by
        intro m hm
        obtain ⟨j, e, h1, -⟩ := tl m hm
        simp only [decide_eq_false_iff_not]
        intro e'
        have := hpi j (e'.symm.trans e)
        omega)
      unfold pick at this
      rw [this]
end

/-! ## Sections -/

mutual
/-- At root level, exactly the terms directly below the root section have the parent name `root`. -/
theorem flatI_root {cols : List Str} {sec p : Str} {pi : Option Nat} : ∀ (i : Item) {b : Nat}, i.ok cols p = true → ∀ n ∈ (flatI sec p pi b i).tail, n.pt ≠ py!"root"
  | .mk n v ks, b => by
    intro h x hx
    rw [flatI] at hx
    exact flatL_root ks (okItem_iff.1 h).kids (ordinary_facts (okItem_iff.1 h).clean.ord).2.2.1 x hx
theorem flatL_root {cols : List Str} {sec p : Str} {pi : Option Nat} : ∀ (ks : List Item) {b : Nat}, okKids cols p ks = true → p ≠ py!"root" →
    ∀ n ∈ flatL sec p pi b ks, n.pt ≠ py!"root"
  | [], b => by
    intro _ _ x hx
    rw [flatL] at hx
    cases hx
  | k :: ks, b => by
    intro h hp x hx
    rw [flatL] at hx
    have hk := okKids_mem h (k := k) List.mem_cons_self
    have h' : okKids cols p ks = true := by unfold okKids at h; rw [Bool.and_eq_true] at h; exact h.2
    rcases List.mem_append.1 hx with hx | hx
    · cases k with
      | mk n v l =>
        rcases hk with ⟨g, -⟩ | ⟨-, g, -⟩
        · have : l = [] := by simpa [Item.leaf, Item.kids] using (inCols_iff.1 g).1
          subst this
          rw [flatI, flatL] at hx
          obtain rfl := List.mem_singleton.1 hx
          exact hp
        · have ht := flatI_root (sec := sec) (p := p) (pi := pi) (.mk n v l) (b := b) g x
          rw [flatI] at hx ht
          rcases List.mem_cons.1 hx with rfl | hx
          · exact hp
          · exact ht hx
    · exact flatL_root ks h' hp x hx
end

theorem flatL_level {cols : List Str} {sec : Str} : ∀ (is : List Item) {b : Nat}, is.all (Item.ok cols (py!"root")) = true →
    ∀ n ∈ flatL sec (py!"root") none b is, (n.pt = py!"root" ↔ n.parent = none)
  | [], b => by
    intro _ x hx
    rw [flatL] at hx
    cases hx
  | k :: ks, b => by
    intro h x hx
    rw [List.all_cons, Bool.and_eq_true] at h
    rw [flatL] at hx
    rcases List.mem_append.1 hx with hx | hx
    · cases k with
      | mk n v l =>
        have h1 := flatI_root (sec := sec) (p := py!"root") (pi := none) (.mk n v l) (b := b) h.1 x
        have h2 := flatI_parent (sec := sec) (p := py!"root") (pi := none) (.mk n v l) (b := b) x
        rw [flatI] at hx h1 h2
        rcases List.mem_cons.1 hx with rfl | hx
        · simp
        · obtain ⟨j, e, -⟩ := h2 hx
          rw [e]
          simp only [reduceCtorEq, iff_false]
          exact h1 hx
    · exact flatL_level ks h.2 x hx

theorem flatD_parent : ∀ (ds : List Part) {b : Nat}, ∀ n ∈ flatD b ds, ∀ j, n.parent = some j → b ≤ j ∧ j < b + (flatD b ds).length
  | [], b => by
    intro x hx
    cases hx
  | d :: ds, b => by
    intro x hx j e
    rw [flatD] at hx ⊢
    rw [List.length_append]
    rcases List.mem_append.1 hx with hx | hx
    · rcases flatL_parent d.items x hx with e' | ⟨j', e', h1, h2⟩
      · rw [e] at e'; cases e'
      · rw [e] at e'; injection e' with e'; omega
    · have := flatD_parent ds x hx j e
      omega

theorem flatD_sec : ∀ (ds : List Part) {b : Nat}, ∀ n ∈ flatD b ds, n.sec ∈ ds.map fun d => lower d.name
  | [], b => by
    intro x hx
    cases hx
  | d :: ds, b => by
    intro x hx
    rw [flatD] at hx
    rcases List.mem_append.1 hx with hx | hx
    · rw [flatL_sec d.items x hx]; exact List.mem_cons_self
    · exact List.mem_cons_of_mem _ (flatD_sec ds x hx)

/-- Exactly the terms directly below the root section have the parent name `root`. -/
def Level (d : Part) : Prop := ∀ b, ∀ n ∈ flatL (lower d.name) (py!"root") none b d.items, (n.pt = py!"root" ↔ n.parent = none)

theorem level_ok {d : Part} {cols : List Str} (h : d.items.all (Item.ok cols (py!"root")) = true) : Level d := fun _ => flatL_level d.items h

/-- The objects at root level of a part. -/
theorem shown_parts {s : St} {a : Reader} {ids : List Nat} (H : Tracks s a ids) {all : List Part}
    (hall : ∀ d ∈ all, Level d) (hnd : (all.map fun d => lower d.name).Nodup)
    (hsecs : ∀ d ∈ all, ∃ x, s.sections.get? (lower d.name) = some x ∧ (s.heap x).value = .str d.name ∧ (s.heap x).secPropertyNames = d.cols) :
    ∀ (ds ds0 : List Part) {pre : List Node} {ipre seg : List Nat}, all = ds0 ++ ds → a.nodes = pre ++ flatD pre.length ds → ids = ipre ++ seg →
    ipre.length = pre.length → seg.length = (flatD pre.length ds).length → (∀ n ∈ pre, ∀ j, n.parent = some j → j < pre.length) →
    (∀ n ∈ pre, n.sec ∈ ds0.map fun d => lower d.name) →
    ∀ d ∈ ds, ∃ x, s.sections.get? (lower d.name) = some x ∧ ShowsPart s (lower d.name, x) d
  | [], _, _, _, _ => fun _ _ _ _ _ _ _ d hd => by cases hd
  | d :: ds, ds0, pre, ipre, seg => by
    intro hall' hn hi hil hseg hpre hpsec e he
    have hd : d ∈ all := by rw [hall']; simp
    rw [flatD] at hn hseg
    rw [List.length_append] at hseg
    obtain ⟨s1, s2, rfl, l1, l2⟩ := split_ids hseg
    have par1 := fun n hn => flatL_parent (sec := lower d.name) (p := py!"root") (pi := none) d.items (b := pre.length) n hn
    rcases List.mem_cons.1 he with rfl | he
    · obtain ⟨x, hx, hv, hc⟩ := hsecs e hd
      refine ⟨x, hx, rfl, hv, hc, ?_, ?_⟩
      · have hterms := H.sectionTerms _ _ hx
        have h1 := shown_items H hx e.items (p := py!"root") (pi := none) (b := pre.length) (pre := pre)
          (post := flatD (pre.length + (flatL (lower e.name) (py!"root") none pre.length e.items).length) ds) (ipre := ipre) (seg := s1) (ipost := s2)
          hn hi rfl hil l1 (fun j h => by cases h) (by
            intro n hn j ej
            rcases List.mem_append.1 hn with hn | hn
            · exact .inl (hpre n hn j ej)
            · exact .inr (flatD_parent ds n hn j ej).1)
        show ShowsItems s x e.items (s.heap x).terms
        rw [hterms]
        have hnot : ∀ (ns : List Node) (ks : List Part), (∀ n ∈ ns, n.sec ∈ ks.map fun d => lower d.name) → lower e.name ∉ ks.map (fun d => lower d.name) →
            ∀ n ∈ ns, (decide (n.pt = py!"root") && decide (n.sec = lower e.name)) = false := by
          intro ns ks h h' n hn
          rw [Bool.and_eq_false_iff]
          right
          simp only [decide_eq_false_iff_not]
          intro ee
          exact h' (ee ▸ h n hn)
        rw [hall', List.map_append, List.map_cons, List.nodup_append] at hnd
        obtain ⟨n1, n2, n3⟩ := hnd
        rw [List.nodup_cons] at n2
        rw [hn, hi, pick_app hil, pick_app l1, pick_none (ns := pre) (hnot pre ds0 hpsec ?_), pick_none (ns := flatD _ ds) (hnot _ ds ?_ n2.1),
          List.nil_append, List.append_nil]
        · rw [pick_congr (g := fun m => decide (m.parent = none))]
          · exact h1
          · intro n hn
            rw [flatL_sec e.items n hn]
            have := hall e hd _ n hn
            simp [this]
        · exact fun n hn => flatD_sec ds n hn
        · intro hm
          exact n3 _ hm _ List.mem_cons_self rfl
      · intro t ht
        have ht' := ht
        rw [H.sectionTerms _ _ hx] at ht
        obtain ⟨n, hz, hf⟩ := zip_of_pick ht
        simp only [Bool.and_eq_true, decide_eq_true_eq] at hf
        obtain ⟨u1, -, -, u6, -⟩ := H.term _ _ hz
        refine ⟨u1.trans hf.1, .inr ?_⟩
        have hnn := (List.of_mem_zip hz).1
        rw [hn] at hnn
        have hsec : n ∈ flatL (lower e.name) (py!"root") none pre.length e.items := by
          rw [hall', List.map_append, List.map_cons, List.nodup_append] at hnd
          obtain ⟨n1, n2, n3⟩ := hnd
          rw [List.nodup_cons] at n2
          rcases List.mem_append.1 hnn with h | h
          · exact absurd rfl (n3 _ (hf.2 ▸ hpsec n h) _ List.mem_cons_self)
          · rcases List.mem_append.1 h with h | h
            · exact h
            · exact absurd (hf.2 ▸ flatD_sec ds n h) n2.1
        have := (hall e hd _ n hsec).1 hf.1
        rw [u6, this]
        rfl
    · refine shown_parts H hall hnd hsecs ds (ds0 ++ [d]) (pre := pre ++ flatL (lower d.name) (py!"root") none pre.length d.items) (ipre := ipre ++ s1)
        (seg := s2) (by rw [hall']; simp) ?_ (by rw [hi]; simp) (by rw [List.length_append, List.length_append]; omega)
        (by rw [List.length_append]; exact l2) ?_ ?_ e he
      · rw [hn, List.length_append]; simp
      · intro n hn j ej
        rw [List.length_append]
        rcases List.mem_append.1 hn with hn | hn
        · have := hpre n hn j ej; omega
        · rcases par1 n hn with e' | ⟨j', e', h1, h2⟩
          · rw [ej] at e'; cases e'
          · rw [ej] at e'; injection e' with e'; omega
      · intro n hn
        rw [List.map_append]
        rcases List.mem_append.1 hn with hn | hn
        · exact List.mem_append_left _ (hpsec n hn)
        · rw [flatL_sec d.items n hn]; simp

/-- A document that holds the nodes of an outline shows the outline. -/
theorem tracks_shows {s : St} {a : Reader} {ids : List Nat} (H : Tracks s a ids) (hroot : (s.heap s.root).rt = py!"root") {D : List Part}
    (hD : ∀ d ∈ D, Level d) (hnd : (D.map fun d => lower d.name).Nodup)
    (hn : a.nodes = flatD 0 D) (hs : a.secs = D.map fun d => (lower d.name, d.name, d.cols)) : Shows s D := by
  have hkeys : a.secs.keys = D.map fun d => lower d.name := by rw [hs]; unfold Dict.keys; rw [List.map_map]; rfl
  have hsecs : ∀ d ∈ D, ∃ x, s.sections.get? (lower d.name) = some x ∧ (s.heap x).value = .str d.name ∧ (s.heap x).secPropertyNames = d.cols := by
    intro d hd
    have hk : lower d.name ∈ s.sections.keys := by rw [H.sections, hkeys]; exact List.mem_map.2 ⟨d, hd, rfl⟩
    obtain ⟨x, hx⟩ : ∃ x, s.sections.get? (lower d.name) = some x := by
      obtain ⟨kv, hkv, e⟩ := List.mem_map.1 hk
      refine ⟨kv.2, Dict.get?_of_mem ?_ (by rw [← e]; exact hkv)⟩
      rw [H.sections, hkeys]
      exact hnd
    obtain ⟨n, hv, hg⟩ := H.columns _ _ hx
    have : a.secs.get? (lower d.name) = some (d.name, d.cols) := by
      refine Dict.get?_of_mem ?_ ?_
      · rw [hkeys]; exact hnd
      · rw [hs]; exact List.mem_map.2 ⟨d, hd, rfl⟩
    rw [hg] at this
    injection this with this
    injection this with e1 e2
    refine ⟨x, hx, by rw [hv, e1], ?_⟩
    unfold Obj.secPropertyNames
    rw [if_neg (by rw [H.noHeader _ _ hx]; simp), e2]
  have hparts := shown_parts H hD hnd hsecs D [] (pre := []) (ipre := []) (seg := ids) rfl (by rw [hn]; rfl) rfl rfl (by rw [H.count, hn]; rfl)
    (fun n hn => by cases hn) (fun n hn => by cases hn)
  refine ⟨hroot, ?_⟩
  have hk : s.sections.keys = D.map fun d => lower d.name := H.sections.trans hkeys
  have hnds : s.sections.keys.Nodup := by rw [hk]; exact hnd
  have : s.sections.length = D.length := by
    have := congrArg List.length hk
    simpa [Dict.keys] using this
  refine forall₂_of_get this ?_
  intro j kv d h1 h2
  have hkj : kv.1 = lower d.name := by
    have e1 : s.sections.keys[j]? = some kv.1 := by unfold Dict.keys; rw [List.getElem?_map, h1]; rfl
    have e2 : (D.map fun d => lower d.name)[j]? = some (lower d.name) := by rw [List.getElem?_map, h2]; rfl
    rw [hk, e2] at e1
    injection e1 with e1
    exact e1.symm
  obtain ⟨x, hx, hp⟩ := hparts d (List.mem_of_getElem? h2)
  have hg : s.sections.get? kv.1 = some kv.2 := Dict.get?_of_mem hnds (List.mem_of_getElem? h1)
  rw [hkj, hx] at hg
  injection hg with hg
  have : kv = (lower d.name, x) := by rw [hg, ← hkj]
  rw [this]
  exact hp

theorem _root_.Spec.Holds.tracks {s : St} {a : Reader} {ids : List Nat} (H : Holds s a ids) (hh : NoHeaders s) : Tracks s a ids where
  count := H.count
  distinct := H.distinct.imp Nat.ne_of_lt
  exist := H.exist
  term := fun n t hm => by
    obtain ⟨t1, t2, t3, -, -, t6, t7⟩ := H.term n t hm
    exact ⟨t1, t2, t3, t6, t7⟩
  children := H.children
  sections := H.sections
  columns := H.columns
  noHeader := fun _ x _ => hh x
  sectionTerms := H.sectionTerms

theorem holds_shows {s : St} {a : Reader} {ids : List Nat} (H : Holds s a ids) (hroot : (s.heap s.root).rt = py!"root") (hh : NoHeaders s) {D : List Part}
    (hD : ∀ d ∈ D, d.items.all (Item.ok d.cols (py!"root")) = true) (hnd : (D.map fun d => lower d.name).Nodup)
    (hn : a.nodes = flatD 0 D) (hs : a.secs = D.map fun d => (lower d.name, d.name, d.cols)) : Shows s D :=
  tracks_shows (H.tracks hh) hroot (fun d hd => level_ok (hD d hd)) hnd hn hs

end Metatab
