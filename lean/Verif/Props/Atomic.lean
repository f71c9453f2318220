import Verif.Props.NewChild
import Verif.Props.Move
import Verif.Lemmas.Reach
import Verif.Lemmas.Examples
/-! # C74: a call that is refused leaves the document as it was -/
namespace Metatab
open Py _root_.Spec

/-- Nothing of the document has changed: no object that was there, no list and no table. New objects may have been made; nothing that was
there refers to them. -/
structure _root_.Spec.Untouched (s s' : St) : Prop where
  objs : ∀ i, i < s.next → s'.heap i = s.heap i
  next : s.next ≤ s'.next
  rest : s' = { s with heap := s'.heap, next := s'.next }

theorem err_after {α : Type} {m : M α} {s : St} {e : Err} (h : (m s).val = .error e) : m s = .err e (after m s) := by
  unfold after
  cases hm : m s <;> rw [hm] at h <;> cases h
  rfl
theorem err_val {α : Type} {m : M α} {s : St} {e : Err} (h : (m s).val = .error e) : ∃ s', m s = .err e s' := ⟨_, err_after h⟩

/-- No object below `n` has changed, and no list and no table. -/
structure Above (n : Nat) (s s' : St) : Prop where
  objs : ∀ i, i < n → s'.heap i = s.heap i
  next : s.next ≤ s'.next
  rest : s' = { s with heap := s'.heap, next := s'.next }

theorem Above.refl (n : Nat) (s : St) : Above n s s := ⟨fun _ _ => rfl, Nat.le_refl _, rfl⟩
theorem Above.trans {n : Nat} {a b c : St} (h : Above n a b) (k : Above n b c) : Above n a c :=
  ⟨fun i hi => (k.objs i hi).trans (h.objs i hi), Nat.le_trans h.next k.next, by rw [k.rest, h.rest]⟩
theorem Above.untouched {s s' : St} (h : Above s.next s s') : Untouched s s' := ⟨h.objs, h.next, h.rest⟩
theorem _root_.Spec.Untouched.refl (s : St) : Untouched s s := ⟨fun _ _ => rfl, Nat.le_refl _, rfl⟩

/-- A computation that, from states with at least `n` objects, touches none of the first `n`. -/
def Ab {α : Type} (n : Nat) (m : M α) : Prop := ∀ s, n ≤ s.next → Above n s (m s).st

namespace Ab
variable {α β : Type} {n : Nat}
theorem bind {m : M α} {f : α → M β} (hm : Ab n m) (hf : ∀ a, Ab n (f a)) : Ab n (m >>= f) := by
  intro s hs
  rw [bind_run]
  have h1 := hm s hs
  cases h : m s with
  | ok a s' => rw [h] at h1; exact h1.trans (hf a s' (Nat.le_trans hs h1.next))
  | err e s' => rw [h] at h1; exact h1
theorem pure (a : α) : Ab n (Pure.pure a : M α) := fun s _ => .refl n s
theorem raise (e : Err) : Ab n (M.raise e : M α) := fun s _ => .refl n s
theorem get : Ab n M.get := fun s _ => .refl n s
theorem obj (i : Nat) : Ab n (Metatab.obj i) := fun s _ => .refl n s
theorem lift (f : St → Except Err α) : Ab n (M.lift f) := by
  intro s _; rw [lift_run]; cases f s <;> exact .refl n s
theorem assert (b : Bool) : Ab n (M.assert b) := by
  intro s _; rw [assert_run]; cases b <;> exact .refl n s
theorem alloc (o : Obj) : Ab n (Metatab.alloc o) := by
  intro s hs
  refine ⟨fun i hi => ?_, Nat.le_succ _, rfl⟩
  show (if i = s.next then o else s.heap i) = _
  rw [if_neg (by omega)]
theorem upd {i : Nat} (hi : n ≤ i) (f : Obj → Obj) : Ab n (Metatab.upd i f) := by
  intro s _
  refine ⟨fun j hj => ?_, Nat.le_refl _, rfl⟩
  show (if j = i then _ else s.heap j) = _
  rw [if_neg (by omega)]
theorem forL {f : α → M Unit} (h : ∀ a, Ab n (f a)) (l : List α) : Ab n (forL f l) := by
  induction l with
  | nil => exact pure ()
  | cons a l ih => exact bind (h a) fun _ => ih
end Ab

theorem ab_newTermObj (n : Nat) (cls : Cls) (term : Str) (v : Val) (args : List Str) (parent sec : Option Nat) (col : Nat) (d : Bool) :
    Ab n (newTermObj cls term v args parent sec col d) := by
  unfold newTermObj
  refine .bind (.lift _) fun pr => ?_
  cases parent with
  | none => exact .alloc _
  | some q => exact .bind (.obj _) fun po => .bind (.assert _) fun _ => .alloc _

theorem ab_newSectionObj (n : Nat) (term : Str) (v : Val) (args : List Str) (d : Bool) : Ab n (newSectionObj term v args d) := by
  unfold newSectionObj
  have tail : ∀ as, Ab n (do
      let i ← newTermObj .section term v as none none 1 d
      let o ← obj i
      M.assert (o.joinLc = py!"root.section" ∨ o.joinLc = py!"root.root")
      return i : M Nat) := fun as =>
    .bind (ab_newTermObj _ _ _ _ _ _ _ _ _) fun i => .bind (.obj _) fun o => .bind (.assert _) fun _ => .pure _
  dsimp only
  split
  · exact .bind (.pure _) tail
  · exact .bind (.lift _) tail

theorem ab_construct (n : Nat) (cls : Cls) (term : Str) (v : Val) (parent sec : Option Nat) : Ab n (construct cls term v parent sec) := by
  unfold construct
  cases cls with
  | term => exact ab_newTermObj _ _ _ _ _ _ _ _ _
  | user k => exact ab_newTermObj _ _ _ _ _ _ _ _ _
  | «section» =>
    dsimp only
    split
    · exact .bind (.lift _) fun _ => .raise _
    · exact ab_newSectionObj _ _ _ _ _
  | root => exact .raise _

/-- What `construct` gives is new. -/
theorem construct_new {cls : Cls} {term : Str} {v : Val} {parent sec : Option Nat} {s s' : St} {c : Nat}
    (h : construct cls term v parent sec s = .ok c s') : c = s.next := by
  have key : ∀ {s' : St} {c : Nat} cls args parent sec col d, newTermObj cls term v args parent sec col d s = .ok c s' → c = s.next := by
    intro s' c cls args parent sec col d h
    unfold newTermObj at h
    rw [bind_run, lift_run] at h
    cases hs : splitTermLower term with
    | error e => rw [hs] at h; cases h
    | ok pr =>
      rw [hs] at h
      dsimp only at h
      cases parent with
      | none => cases h; rfl
      | some q =>
        simp only [bind_run, obj_run, assert_run] at h
        by_cases hb : lower (s.heap q).rt = lower (if pr.fst = ROOT then (s.heap q).rt else pr.fst)
        · rw [if_pos (by simpa using hb)] at h; cases h; rfl
        · rw [if_neg (by simpa using hb)] at h; cases h
  unfold construct at h
  cases cls with
  | term => exact key _ _ _ _ _ _ h
  | user k => exact key _ _ _ _ _ _ h
  | root => cases h
  | «section» =>
    dsimp only at h
    split at h
    · rw [bind_run, lift_run] at h
      cases hs : sectionArgs s v <;> rw [hs] at h <;> cases h
    · unfold newSectionObj at h
      rw [if_neg (by simp), bind_run, lift_run] at h
      cases hs : sectionArgs s v with
      | error e => rw [hs] at h; cases h
      | ok as =>
        rw [hs] at h
        dsimp only at h
        rw [bind_run] at h
        cases ht : newTermObj .section term v as none none 1 false s with
        | err e s1 => rw [ht] at h; cases h
        | ok i s1 =>
          rw [ht] at h
          simp only [bind_run, obj_run] at h
          have hi := key _ _ _ _ _ _ ht
          generalize hb : decide ((s1.heap i).joinLc = py!"root.section" ∨ (s1.heap i).joinLc = py!"root.root") = b at h
          cases b <;> rw [assert_run] at h <;> cases h
          exact hi

theorem ab_setTvn {n t : Nat} (ht : n ≤ t) (v : Str) : Ab n (setTvn t v) := by
  unfold setTvn
  split
  · exact .raise _
  · exact .upd ht _

/-- Giving children to a new object touches nothing old. -/
theorem ab_newChild0 {n t : Nat} (ht : n ≤ t) (term : Str) (v : Val) : Ab n (newChild0 t term v) := by
  unfold newChild0
  refine .bind .get fun s => ?_
  have tail : ∀ w, Ab n (do
      let c ← construct (docTermClass s (lower term)) term w (some t) (s.heap t).sec
      let o ← obj c
      setTvn c (declProp s.declTerms o.join (py!"termvaluename") o.tvn)
      M.assert (lower o.rt ≠ py!"section")
      upd t fun o => { o with children := o.children ++ [c] }
      return c : M Nat) := by
    intro w s1 hs1
    rw [bind_run]
    have h1 := ab_construct n (docTermClass s (lower term)) term w (some t) (s.heap t).sec s1 hs1
    cases hc : construct (docTermClass s (lower term)) term w (some t) (s.heap t).sec s1 with
    | err e s2 => rw [hc] at h1; exact h1
    | ok c s2 =>
      rw [hc] at h1
      have hn : n ≤ c := construct_new hc ▸ hs1
      exact h1.trans (Ab.bind (.obj _) (fun o => .bind (ab_setTvn hn _) fun _ => .bind (.assert _) fun _ =>
        .bind (.upd ht _) fun _ => .pure _) s2 (Nat.le_trans hs1 h1.next))
  dsimp only
  cases v with
  | obj i => exact .bind (.raise _) tail
  | _ => exact .bind (.pure _) tail

theorem ab_newChildren {n t : Nat} (ht : n ≤ t) (kw : List (Str × Val)) : Ab n (newChildren t kw) :=
  .forL (fun _ => .bind (ab_newChild0 ht _ _) fun _ => .pure _) _

/-- **C74** `new_child` adds the child, or raises and changes nothing, whatever the name, the value and the properties are. -/
theorem C74_new_child {s s' : St} {t : Nat} {term : Str} {v : Val} {kw : List (Str × Val)} {e : Err}
    (h : newChild t term v kw s = .err e s') : Untouched s s' := by
  unfold newChild at h
  rw [bind_run, get_run] at h
  dsimp only at h
  have main : ∀ w, (do
      let c ← construct (docTermClass s (lower term)) term w (some t) (s.heap t).sec
      newChildren c kw
      let o ← obj c
      setTvn c (declProp s.declTerms o.join (py!"termvaluename") o.tvn)
      M.assert (lower o.rt ≠ py!"section")
      upd t fun o => { o with children := o.children ++ [c] }
      return c : M Nat) s = .err e s' → Untouched s s' := by
    intro w h
    rw [bind_run] at h
    have h1 := ab_construct s.next (docTermClass s (lower term)) term w (some t) (s.heap t).sec s (Nat.le_refl _)
    cases hc : construct (docTermClass s (lower term)) term w (some t) (s.heap t).sec s with
    | err e1 s1 => rw [hc] at h h1; cases h; exact h1.untouched
    | ok c s1 =>
      rw [hc] at h h1
      dsimp only at h
      have hn : s.next ≤ c := construct_new hc ▸ Nat.le_refl _
      rw [bind_run] at h
      have h2 := h1.trans (ab_newChildren hn kw s1 h1.next)
      cases hk : newChildren c kw s1 with
      | err e2 s2 => rw [hk] at h h2; cases h; exact h2.untouched
      | ok u s2 =>
        rw [hk] at h h2
        simp only [bind_run, obj_run] at h
        have h3 := h2.trans (ab_setTvn hn (declProp s.declTerms (s2.heap c).join (py!"termvaluename") (s2.heap c).tvn) s2 h2.next)
        cases ht : setTvn c (declProp s.declTerms (s2.heap c).join (py!"termvaluename") (s2.heap c).tvn) s2 with
        | err e3 s3 => rw [ht] at h h3; cases h; exact h3.untouched
        | ok u3 s3 =>
          rw [ht] at h h3
          simp only [upd_run, pure_run] at h
          generalize decide (lower (s2.heap c).rt ≠ py!"section") = b at h
          cases b <;> rw [assert_run] at h <;> cases h
          exact h3.untouched
  cases v with
  | none => exact main _ h
  | str x => exact main _ h
  | int i => exact main _ h
  | fls => exact main _ h
  | obj i =>
    simp only [Val.toStr, bind_run, raise_run] at h
    cases h; exact .refl _

/-- What `Term(...)` makes for a parent. -/
theorem construct_some {cls : Cls} {term : Str} {v : Val} {t : Nat} {sec : Option Nat} {s s' : St} {c : Nat}
    (h : construct cls term v (some t) sec s = .ok c s') :
    ∃ o p0, splitTermLower term = .ok (p0, o.rt) ∧ o.parent = some t ∧ o.sec = sec ∧ o.children = [] ∧ c = s.next ∧
      s' = { s with next := s.next + 1 }.setObj s.next o := by
  have key : ∀ cls, newTermObj cls term v [] (some t) sec 0 false s = .ok c s' →
      ∃ o p0, splitTermLower term = .ok (p0, o.rt) ∧ o.parent = some t ∧ o.sec = sec ∧ o.children = [] ∧ c = s.next ∧
        s' = { s with next := s.next + 1 }.setObj s.next o := by
    intro cls h
    unfold newTermObj at h
    rw [bind_run, lift_run] at h
    cases hs : splitTermLower term with
    | error e => rw [hs] at h; cases h
    | ok pr =>
      rw [hs] at h
      simp only [bind_run, obj_run] at h
      generalize decide (lower (s.heap t).rt = lower (if pr.fst = ROOT then (s.heap t).rt else pr.fst)) = b at h
      cases b <;> rw [assert_run] at h <;> cases h
      exact ⟨_, pr.1, rfl, rfl, rfl, rfl, rfl, rfl⟩
  unfold construct at h
  cases cls with
  | term => exact key _ h
  | user k => exact key _ h
  | root => cases h
  | «section» =>
    dsimp only at h
    rw [if_pos (.inl rfl), bind_run, lift_run] at h
    cases hs : sectionArgs s v <;> rw [hs] at h <;> cases h

/-- Children without children of their own have been added to `t`, and nothing else has happened. -/
structure KidsAdded (t : Nat) (s s' : St) : Prop where
  self : ∃ ks, s'.heap t = { s.heap t with children := (s.heap t).children ++ ks } ∧ ∀ c ∈ ks, s.next ≤ c ∧ c < s'.next ∧
    (s'.heap c).parent = some t ∧ (s'.heap c).sec = (s.heap t).sec ∧ (s'.heap c).children = []
  others : ∀ i, i < s.next → i ≠ t → s'.heap i = s.heap i
  next : s.next ≤ s'.next
  rest : s' = { s with heap := s'.heap, next := s'.next }

theorem KidsAdded.refl (t : Nat) (s : St) : KidsAdded t s s := ⟨⟨[], by simp, by simp⟩, fun _ _ _ => rfl, Nat.le_refl _, rfl⟩

theorem KidsAdded.trans {t : Nat} {a b c : St} (ht : t < a.next) (h : KidsAdded t a b) (k : KidsAdded t b c) : KidsAdded t a c := by
  obtain ⟨ks, e1, k1⟩ := h.self
  obtain ⟨ls, e2, k2⟩ := k.self
  refine ⟨⟨ks ++ ls, ?_, fun d hd => ?_⟩, fun i hi hit => (k.others i (Nat.lt_of_lt_of_le hi h.next) hit).trans (h.others i hi hit),
    Nat.le_trans h.next k.next, by rw [k.rest, h.rest]⟩
  · rw [e2, e1]; simp
  · rcases List.mem_append.1 hd with hd | hd
    · obtain ⟨q1, q2, q3, q4, q5⟩ := k1 d hd
      have := k.others d q2 (by omega)
      exact ⟨q1, Nat.lt_of_lt_of_le q2 k.next, by rw [this]; exact q3, by rw [this]; exact q4, by rw [this]; exact q5⟩
    · obtain ⟨q1, q2, q3, q4, q5⟩ := k2 d hd
      exact ⟨Nat.le_trans h.next q1, q2, q3, by rw [q4, e1], q5⟩

theorem newChild0_added {s s' : St} {t c : Nat} (ht : t < s.next) {term : Str} {v : Val} (h : newChild0 t term v s = .ok c s') :
    KidsAdded t s s' := by
  unfold newChild0 at h
  rw [bind_run, get_run] at h
  dsimp only at h
  have main : ∀ w, (do
      let c ← construct (docTermClass s (lower term)) term w (some t) (s.heap t).sec
      let o ← obj c
      setTvn c (declProp s.declTerms o.join (py!"termvaluename") o.tvn)
      M.assert (lower o.rt ≠ py!"section")
      upd t fun o => { o with children := o.children ++ [c] }
      return c : M Nat) s = .ok c s' → KidsAdded t s s' := by
    intro w h
    rw [bind_run] at h
    cases hc : construct (docTermClass s (lower term)) term w (some t) (s.heap t).sec s with
    | err e1 s1 => rw [hc] at h; cases h
    | ok c1 s1 =>
      rw [hc] at h
      obtain ⟨o, p0, -, h1, h2, h3, rfl, rfl⟩ := construct_some hc
      simp only [bind_run, obj_run, heap_setObj, if_true] at h
      unfold setTvn at h
      by_cases hv : lower (declProp s.declTerms o.join (py!"termvaluename") o.tvn) ∈ reservedTvn
      · rw [if_pos hv] at h; cases h
      · rw [if_neg hv, upd_run] at h
        simp only [upd_run, pure_run, heap_setObj, if_true] at h
        generalize decide (lower o.rt ≠ py!"section") = b at h
        cases b <;> rw [assert_run] at h
        · cases h
        · simp only [if_true] at h
          cases h
          refine ⟨⟨[s.next], ?_, ?_⟩, ?_, Nat.le_succ _, rfl⟩
          · simp [heap_setObj, show t ≠ s.next by omega]
          · intro c hc
            cases List.mem_singleton.1 hc
            refine ⟨Nat.le_refl _, Nat.lt_succ_self _, ?_⟩
            simp [heap_setObj, show s.next ≠ t by omega, h1, h2, h3]
          · intro i hi hit
            simp [heap_setObj, hit, show i ≠ s.next by omega]
  cases v with
  | obj i => cases h
  | _ => exact main _ h

theorem newChildren_added {t : Nat} : ∀ {kw : List (Str × Val)} {s s' : St}, t < s.next → newChildren t kw s = .ok () s' → KidsAdded t s s'
  | [], s, s', _, h => by cases h; exact .refl t s
  | kv :: kw, s, s', ht, h => by
    have h : ((do let _ ← newChild0 t kv.1 kv.2) >>= fun _ => newChildren t kw) s = .ok () s' := h
    rw [bind_run, bind_run] at h
    cases hc : newChild0 t kv.1 kv.2 s with
    | err e s1 => rw [hc] at h; cases h
    | ok c s1 =>
      rw [hc] at h
      have h1 := newChild0_added ht hc
      exact h1.trans ht (newChildren_added (Nat.lt_of_lt_of_le ht h1.next) h)

/-- A name made from two parts splits into the second part, if at all. -/
theorem splitTermLower_snd {a k p r : Str} (hk : strip k = k) (h : splitTermLower (a ++ '.' :: k) = .ok (p, r)) : r = lower k := by
  unfold splitTermLower splitTerm at h
  rw [if_pos (by simp)] at h
  split at h
  · next p1 r1 hs =>
    obtain ⟨e, h1, h2⟩ := split_pair hs
    have hcount := congrArg (List.count '.') e
    have : r1 = k := by
      have ha : '.' ∉ a := by
        intro hm
        have := List.count_pos_iff.2 hm
        have h3 := List.count_eq_zero.2 h1
        have h4 := List.count_eq_zero.2 h2
        simp [List.count_append, List.count_cons] at hcount
        omega
      rw [splitOn_append_sep ha] at hs
      have hkd : '.' ∉ k := by
        intro hm
        have := List.count_pos_iff.2 hm
        have h3 := List.count_eq_zero.2 h1
        have h4 := List.count_eq_zero.2 h2
        simp [List.count_append, List.count_cons] at hcount
        omega
      rw [splitOn_not_mem hkd] at hs
      cases hs; rfl
    subst this
    cases h
    rw [hk]
  · cases h

theorem splitTerm_strip {term p k : Str} (h : splitTerm term = .ok (p, k)) : strip k = k := by
  unfold splitTerm at h
  split at h
  · split at h
    · cases h; exact strip_strip _
    · cases h
  · cases h; exact strip_strip _

/-- **C74** `get_or_new_child` either does what is asked or changes nothing, when no properties are given or there is no such child yet.
What is missing: properties for a child that exists, see `C74_properties_witness`. -/
theorem C74_get_or_new_child_partial {s s' : St} (h : Reach (fun _ => True) s) {t : Nat} (ht : t < s.next) {term : Str} {v : Val}
    {kw : List (Str × Val)} {e : Err} (hk : kw = [] ∨ ∀ p k, splitTerm term = .ok (p, k) → NoChild s.heap t k)
    (he : getOrNewChild t term v kw s = .err e s') : Untouched s s' := by
  have w : WF False s := h.wf fun f => f.elim
  unfold getOrNewChild at he
  rw [bind_run, get_run] at he
  dsimp only at he
  by_cases hc : (s.heap t).cls.isSection = true
  · rw [if_pos hc] at he; cases he; exact .refl _
  rw [if_neg hc, bind_run, lift_run] at he
  cases hs : splitTerm term with
  | error e1 => rw [hs] at he; cases he; exact .refl _
  | ok pk =>
    obtain ⟨p, k⟩ := pk
    rw [hs] at he
    dsimp only at he
    cases hn : childNamed s t k .fls with
    | some c =>
      rw [hn] at he
      rcases hk with rfl | hk
      · have key : ∀ s1 : St, (∀ i, (s1.heap i).children = (s.heap i).children ∧ (s1.heap i).rt = (s.heap i).rt) →
            childNamed s1 t k .fls = some c := by
          intro s1 h1
          rw [childNamed_some] at hn ⊢
          unfold FirstChild at hn ⊢
          simp only [(h1 _).1, (h1 _).2]
          exact hn
        exfalso
        dsimp only at he
        by_cases hv : v = .fls
        · rw [if_neg (by simpa using hv)] at he
          simp only [bind_run, forL, pure_run, get_run, key s fun _ => ⟨rfl, rfl⟩, decide_true, assert_run, if_true] at he
          cases he
        · rw [if_pos (by simpa using hv)] at he
          have := key (s.setObj c { s.heap c with value := v }) fun i => by
            rw [heap_setObj]; split
            · next e => subst e; exact ⟨rfl, rfl⟩
            · exact ⟨rfl, rfl⟩
          simp only [upd_run, bind_run, forL, get_run, pure_run, this, decide_true, assert_run, if_true] at he
          cases he
      · exact absurd (childNamed_none.2 (hk p k hs)) (by rw [hn]; simp)
    | none =>
      rw [hn] at he
      dsimp only at he
      rw [bind_run] at he
      have hno := childNamed_none.1 hn
      obtain ⟨nm, hnm⟩ : ∃ nm, nm = (s.heap t).rt ++ '.' :: k := ⟨_, rfl⟩
      rw [← hnm] at he
      have h1 := ab_construct s.next (docTermClass s (lower nm)) nm v (some t) (s.heap t).sec s (Nat.le_refl _)
      cases hcon : construct (docTermClass s (lower nm)) nm v (some t) (s.heap t).sec s with
      | err e1 s1 => rw [hcon] at he h1; cases he; exact h1.untouched
      | ok c s1 =>
        rw [hcon] at he h1
        dsimp only at he
        have hcn := construct_new hcon
        rw [bind_run] at he
        have h2 := h1.trans (ab_newChildren (Nat.le_of_eq hcn.symm) kw s1 h1.next)
        cases hkk : newChildren c kw s1 with
        | err e2 s2 => rw [hkk] at he h2; cases he; exact h2.untouched
        | ok u s2 =>
          rw [hkk] at he h2
          simp only [bind_run, obj_run] at he
          generalize hb : decide ((s2.heap c).joinLc ≠ py!"datafile.section") = b at he
          cases b
          · rw [assert_run] at he; cases he; exact h2.untouched
          · exfalso
            rw [assert_run] at he
            simp only [if_true, upd_run, pure_run, get_run] at he
            obtain ⟨o, p0, q1, -, -, -, -, q6⟩ := construct_some hcon
            rw [hnm] at q1
            have hrt : o.rt = lower k := splitTermLower_snd (splitTerm_strip hs) q1
            have hlt : c < s1.next := by rw [q6, hcn]; exact Nat.lt_succ_self _
            obtain ⟨ks, e2, -⟩ := (newChildren_added hlt hkk).self
            have e1 : s1.heap c = o := by rw [q6, hcn, heap_setObj, if_pos rfl]
            have hc2 : (s2.heap c).rt = lower k := by rw [e2, e1]; exact hrt
            have hne : c ≠ t := by omega
            have hheap : ∀ i, i < s.next → s2.heap i = s.heap i := h2.objs
            have hfin : childNamed (s2.setObj t { s2.heap t with children := (s2.heap t).children ++ [c] }) t k .fls = some c := by
              unfold childNamed
              simp only [heap_setObj, if_true]
              rw [hheap t ht, List.find?_append]
              have : List.find? (fun d => lower (if d = t then { s.heap t with children := (s.heap t).children ++ [c] } else s2.heap d).rt == lower k &&
                  (Val.fls == Val.fls || Val.pyEq (if d = t then { s.heap t with children := (s.heap t).children ++ [c] } else s2.heap d).value Val.fls))
                  (s.heap t).children = none := by
                rw [List.find?_eq_none]
                intro d hd
                have hdl := w.kidLt t d hd
                have hr : (if d = t then { s.heap t with children := (s.heap t).children ++ [c] } else s2.heap d).rt = (s.heap d).rt := by
                  split
                  · next e => subst e; rfl
                  · rw [hheap d hdl]
                rw [hr]
                simp [hno d hd]
              rw [this]
              simp [if_neg hne, hc2, lower_lower]
            rw [hfin] at he
            simp only [decide_true, assert_run, if_true] at he
            cases he

/-- What `Term(...)` makes for a section. -/
theorem construct_in {cls : Cls} {term : Str} {v : Val} {x : Nat} {s s' : St} {c : Nat}
    (h : construct cls term v none (some x) s = .ok c s') :
    ∃ o p, splitTermLower term = .ok (p, o.rt) ∧ o.pt = p ∧ o.parent = none ∧ o.sec = some x ∧ o.children = [] ∧ o.tvn = py!"@value" ∧
      o.cpt = py!"any" ∧ o.cls.isSection = false ∧ c = s.next ∧ s' = { s with next := s.next + 1 }.setObj s.next o := by
  have key : ∀ cls, cls.isSection = false → newTermObj cls term v [] none (some x) 0 false s = .ok c s' →
      ∃ o p, splitTermLower term = .ok (p, o.rt) ∧ o.pt = p ∧ o.parent = none ∧ o.sec = some x ∧ o.children = [] ∧ o.tvn = py!"@value" ∧
      o.cpt = py!"any" ∧ o.cls.isSection = false ∧ c = s.next ∧ s' = { s with next := s.next + 1 }.setObj s.next o := by
    intro cls hcls h
    unfold newTermObj at h
    rw [bind_run, lift_run] at h
    cases hs : splitTermLower term with
    | error e => rw [hs] at h; cases h
    | ok pr =>
      rw [hs] at h
      cases h
      exact ⟨_, pr.1, rfl, rfl, rfl, rfl, rfl, rfl, rfl, hcls, rfl, rfl⟩
  unfold construct at h
  cases cls with
  | term => exact key _ rfl h
  | user k => exact key _ rfl h
  | root => cases h
  | «section» =>
    dsimp only at h
    rw [if_pos (.inr rfl), bind_run, lift_run] at h
    cases hs : sectionArgs s v <;> rw [hs] at h <;> cases h

/-- The end of `add_term` raises nothing for a term in a section. -/
theorem addTermFinish_err {s s' : St} {t x : Nat} {e : Err} (hx : (s.heap t).sec = some x) (h : addTermFinish t s = .err e s') :
    e = .unmodelled := by
  have tail : ∀ {s1 s' : St} {e : Err} {c : Bool} {v : Str}, (if c = true then setTvn t v else pure () : M Unit) s1 = .err e s' → e = .unmodelled := by
    intro s1 s' e c v h
    cases c
    · cases h
    · unfold setTvn at h
      by_cases hv : lower v ∈ reservedTvn
      · simp only [if_true] at h
        rw [if_pos hv] at h; cases h; rfl
      · simp only [if_true] at h
        rw [if_neg hv] at h; cases h
  unfold addTermFinish at h
  rw [bind_run, get_run] at h
  dsimp only at h
  rw [hx] at h
  dsimp only at h
  generalize hc : decide ((s.heap t).tvn = [] ∨ (s.heap t).tvn = (s.heap x).defTvn) = c at h
  have hc' : ((s.heap t).tvn = [] ∨ (s.heap t).tvn = (s.heap x).defTvn) ↔ c = true := by rw [← hc]; simp
  by_cases hcpt : (s.heap t).cpt = [] ∨ (s.heap t).cpt = py!"any"
  · rw [if_pos hcpt, bind_run, upd_run] at h
    simp only [hc'] at h
    exact tail h
  · rw [if_neg hcpt] at h
    simp only [hc'] at h
    exact tail h

/-- **C74** `section.new_term` adds the term, or raises and changes nothing, whatever the name, the value and the properties are. The section is
one of the document and has no column `Section`. -/
theorem C74_new_term {s s' : St} (h : Reach (fun _ => True) s) {x : Nat} {n : Str} (hx : Registered s x n) {term : Str} {v : Val}
    {kw : List (Str × Val)} {e : Err} (he : newTerm x term v kw s = .err e s') (hm : e ≠ .unmodelled) : Untouched s s' := by
  have w : WF False s := h.wf fun f => f.elim
  have hxlt : x < s.next := (w.secsLt (lower n, x) (Dict.mem_of_get? hx.known)).1
  have hnt : s.next ∉ s.terms := fun m => absurd (w.termsLt _ m).1 (by omega)
  have hnx : s.next ∉ (s.heap x).terms := fun m => absurd (w.secTermsLt x _ m) (by omega)
  unfold newTerm at he
  rw [bind_run, get_run] at he
  dsimp only at he
  rw [bind_run] at he
  have h1 := ab_construct s.next (docTermClass s (lower term)) term v none (some x) s (Nat.le_refl _)
  cases hcon : construct (docTermClass s (lower term)) term v none (some x) s with
  | err e1 s1 => rw [hcon] at he h1; cases he; exact h1.untouched
  | ok c s1 =>
    rw [hcon] at he h1
    obtain ⟨o, p, q1, q2, q3, q4, q5, q6, q7, q8, rfl, q10⟩ := construct_in hcon
    dsimp only at he
    rw [bind_run] at he
    have h2 := h1.trans (ab_newChildren (Nat.le_refl _) kw s1 h1.next)
    cases hkk : newChildren s.next kw s1 with
    | err e2 s2 => rw [hkk] at he h2; cases he; exact h2.untouched
    | ok u s2 =>
      exfalso
      rw [hkk] at he h2
      dsimp only at he
      have e1 : s1.heap s.next = o := by rw [q10, heap_setObj, if_pos rfl]
      have hlt1 : s.next < s1.next := by rw [q10]; exact Nat.lt_succ_self _
      have ka := newChildren_added hlt1 hkk
      obtain ⟨ks, e2, hks⟩ := ka.self
      rw [e1, q5] at e2
      have hxe : s2.heap x = s.heap x := Above.objs h2 x hxlt
      have h2 : Above s.next s s2 := h2
      have hr := h2.rest
      have hterms : s2.terms = s.terms := by rw [hr]
      have hsecs : s2.sections = s.sections := by rw [hr]
      have hsec2 : (s2.heap s.next).sec = some x := by rw [e2]; exact q4
      rw [bind_run] at he
      cases hd : docAddTerm s.next s2 with
      | ok u3 s3 => rw [hd] at he; cases he
      | err e3 s3 =>
        rw [hd] at he
        cases he
        refine hm ?_
        by_cases hpt : p = ROOT
        · rw [docAddTerm_kids_pre (s := s2) (t := s.next) (x := x) (n := n) ⟨by rw [hxe]; exact hx.cls, by rw [hxe]; exact hx.value,
            by rw [hsecs]; exact hx.known, by rw [hxe]; exact hx.plain⟩ (Nat.lt_of_lt_of_le hlt1 ka.next) (by omega) hsec2
            (by rw [e2]; exact q2.trans hpt) (by rw [e2]; exact q6) (by rw [e2]; exact q8) (by rw [hterms]; exact hnt) (by rw [hxe]; exact hnx) (by
              intro c hc
              rw [e2] at hc
              obtain ⟨r1, r2, r3, r4, r5⟩ := hks c (by simpa using hc)
              exact ⟨by omega, r3, by rw [r4, e1]; exact q4, r5⟩)] at hd
          refine addTermFinish_err (x := x) ?_ hd
          rw [heap_setObj, if_neg (by omega)]; exact hsec2
        · have hlp : lower p = p := (splitTermLower_low q1).1
          unfold docAddTerm at hd
          rw [bind_run, get_run] at hd
          dsimp only at hd
          have hcl2 : (s2.heap s.next).cls.isSection = false := by rw [e2]; exact q8
          have hp2 : lower (s2.heap s.next).pt ≠ ROOT := by rw [e2]; show lower o.pt ≠ _; rw [q2, hlp]; exact hpt
          rw [if_neg (by rw [hterms]; exact hnt), bind_run] at hd
          simp only [hsec2, Option.isSome_some, true_or, decide_true, assert_run, if_true, hcl2, Bool.false_eq_true, if_false] at hd
          rw [bind_run, modify_run] at hd
          dsimp only at hd
          rw [if_neg hp2] at hd
          exact addTermFinish_err (s := { s2 with terms := s2.terms ++ [s.next] }) (x := x) hsec2 hd

/-- **C74** `section.get_or_new_term` without properties, and `section[name] = value`, do what is asked, or raise and change nothing. -/
theorem C74_get_or_new_term_partial {s s' : St} (h : Reach (fun _ => True) s) {x : Nat} {n : Str} (hx : Registered s x n) {term : Str} {v : Val}
    {e : Err} (he : getOrNewTerm x term v [] s = .err e s') (hm : e ≠ .unmodelled) : Untouched s s' := by
  unfold getOrNewTerm at he
  rw [bind_run, lift_run] at he
  cases hf : sectionFindFirst s x term v with
  | error e1 => rw [hf] at he; cases he; exact .refl _
  | ok r =>
    rw [hf] at he
    cases r with
    | none => exact C74_new_term h hx he hm
    | some t =>
      exfalso
      dsimp only at he
      by_cases hv : v = .none
      · rw [if_neg (by simpa using hv)] at he
        cases he
      · rw [if_pos (by simpa using hv)] at he
        cases he

/-- The calls that are all or nothing, in a state: new sections and terms, sorting, columns, classes, values; new children; removing what is no child;
adding to a section what is not at root level. -/
def _root_.Spec.AllOrNothing (s : St) : Op → Prop
  | .newSection .. | .getOrNewSection .. | .addSection _ | .sortSections _ | .create .. | .sortByTerm .. | .addArg .. | .removeArg ..
  | .sectionDelItem .. | .newChild .. | .setValue .. | .registerClass .. | .unregisterClass .. => True
  | .newTerm x .. => ∃ n, Registered s x n
  | .getOrNewTerm x _ _ kw => (∃ n, Registered s x n) ∧ kw = []
  | .getOrNewChild t term _ kw => kw = [] ∨ ∀ p k, splitTerm term = .ok (p, k) → NoChild s.heap t k
  | .removeChild t c => c ∉ (s.heap t).children
  | .sectionAddTerm x t => t ∈ (s.heap x).terms ∨ lower (s.heap t).pt ≠ ROOT
  | .setItem x _ _ => (s.heap x).cls.isSection = true ∧ ∃ n, Registered s x n
  | _ => False

/-- **C74** Such a call changes nothing when it raises. What is missing: calls that are made of several steps, see the witnesses below. -/
theorem C74_calls_partial {s s' : St} (h : Reach (fun _ => True) s) {op : Op} (hv : op.valid s) (ha : AllOrNothing s op) {e : Err}
    (he : op.run s = .err e s') (hm : e ≠ .unmodelled) : Untouched s s' := by
  have drop : ∀ {α : Type} {m : M α}, (do let _ ← m : M Unit) s = .err e s' → m s = .err e s' := by
    intro α m hh
    rw [bind_run] at hh
    cases hms : m s with
    | ok a s1 => rw [hms] at hh; cases hh
    | err e1 s1 => rw [hms] at hh; cases hh; rfl
  cases op <;> try exact ha.elim
  case newSection name ps =>
    have he := drop he
    unfold newSection at he
    rw [bind_run] at he
    have h1 := ab_newSectionObj s.next (py!"Root.Section") (.str name) ps false s (Nat.le_refl _)
    cases hn : newSectionObj (py!"Root.Section") (.str name) ps false s with
    | err e1 s1 => rw [hn] at he h1; cases he; exact h1.untouched
    | ok x s1 =>
      exfalso
      rw [hn] at he
      simp only [bind_run, modify_run, get_run] at he
      cases hd : Dict.get? s1.declSecs (lower name) <;> rw [hd] at he <;> cases he
  case getOrNewSection name ps =>
    have he := drop he
    unfold getOrNewSection at he
    rw [bind_run, get_run] at he
    dsimp only at he
    by_cases hh : (!s.sections.has name) = true
    · rw [if_pos hh, bind_run] at he
      have h1 := ab_newSectionObj s.next (py!"Root.Section") (.str name) ps false s (Nat.le_refl _)
      cases hn : newSectionObj (py!"Root.Section") (.str name) ps false s with
      | err e1 s1 => rw [hn] at he h1; cases he; exact h1.untouched
      | ok x s1 =>
        exfalso
        rw [hn] at he
        simp only [bind_run, modify_run, lift_run, Dict.get?_set, if_true] at he
        cases he
    · rw [if_neg hh, lift_run] at he
      cases hd : Dict.get? s.sections (lower name) <;> rw [hd] at he <;> cases he
      exact .refl _
  case addSection x =>
    have he := drop he
    unfold addSection at he
    rw [bind_run, obj_run] at he
    dsimp only at he
    generalize (s.heap x).cls.isSection = b at he
    cases b <;> rw [bind_run, assert_run] at he
    · cases he; exact .refl _
    · cases hv : (s.heap x).value with
      | str n =>
        exfalso
        simp only [hv, bind_run, get_run, if_true] at he
        cases hd : Dict.get? s.sections (lower n) <;> rw [hd] at he <;> cases he
      | _ => simp only [hv] at he; cases he; exact .refl _
  case sortSections order =>
    change sortSections order s = _ at he
    unfold sortSections at he
    simp only [bind_run, get_run, modify_run] at he
    generalize decide (s.sections.length = (sortedSections s.sections order).length) = b at he
    cases b <;> rw [assert_run] at he <;> cases he
    exact .refl _
  case create c nm v as q x =>
    have he := drop he
    have h1 := ab_newTermObj s.next c nm v as q x 0 false s (Nat.le_refl _)
    rw [he] at h1
    exact h1.untouched
  case sortByTerm x o =>
    change sortByTerm x o s = _ at he
    unfold sortByTerm at he
    rw [bind_run, get_run] at he
    cases o with
    | none => cases he
    | some ns =>
      dsimp only at he
      rw [bind_run, lift_run] at he
      cases hd : orderedTerms s.heap ns (s.heap x).terms <;> rw [hd] at he <;> cases he
      exact .refl _
  case addArg x a p => cases he
  case removeArg x a => cases he
  case sectionDelItem x i =>
    change sectionDelItem x i s = _ at he
    unfold sectionDelItem at he
    rw [bind_run, get_run] at he
    dsimp only at he
    split at he
    · cases he; exact .refl _
    · cases he
  case newChild t nm v kw => exact C74_new_child (drop he)
  case setValue t v => cases he
  case registerClass nm c => cases he
  case unregisterClass nm => cases he
  case newTerm x nm v kw => obtain ⟨n, hx⟩ := ha; exact C74_new_term h hx (drop he) hm
  case getOrNewTerm x nm v kw =>
    obtain ⟨⟨n, hx⟩, rfl⟩ := ha
    exact C74_get_or_new_term_partial h hx (drop he) hm
  case getOrNewChild t nm v kw => exact C74_get_or_new_child_partial h hv ha (drop he)
  case removeChild t c =>
    change removeChild t c s = _ at he
    unfold removeChild at he
    rw [bind_run, obj_run] at he
    dsimp only at he
    rw [if_neg ha] at he
    cases he; exact .refl _
  case sectionAddTerm x t =>
    change sectionAddTerm x t s = _ at he
    unfold sectionAddTerm at he
    rw [bind_run, get_run] at he
    dsimp only at he
    by_cases ht : t ∈ (s.heap x).terms
    · rw [if_neg (fun hn => hn ht)] at he
      simp only [bind_run, obj_run] at he
      generalize decide ((s.heap t).sec.isSome = true ∨ (s.heap t).joinLc = py!"root.root") = b at he
      cases b <;> rw [assert_run] at he <;> cases he
      exact .refl _
    · rw [if_pos ht] at he
      rw [if_neg (ha.resolve_left ht)] at he
      cases he; exact .refl _

  case setItem x i v =>
    obtain ⟨hc, n, hx⟩ := ha
    change setItemAny x i v s = _ at he
    unfold setItemAny at he
    rw [bind_run, obj_run] at he
    dsimp only at he
    rw [if_pos hc] at he
    exact C74_get_or_new_term_partial h hx (drop he) hm

/-! ## Concrete documents -/

theorem kidDoc_reach : Reach (fun _ => True) kidDoc :=
  Reach.step (.newTerm 0 (py!"Title") (.str (py!"T")) []) exDoc_reach trivial (by show _ ∧ _; decide)

/-- A title with a language. -/
def langDoc : St := after (newChild 1 (py!"Lang") (.str (py!"en")) []) kidDoc
theorem langDoc_reach : Reach (fun _ => True) langDoc :=
  Reach.step (.newChild 1 (py!"Lang") (.str (py!"en")) []) kidDoc_reach trivial (show 1 < kidDoc.next by decide +kernel)

/-- The second property has no proper name: nothing of the child is kept. -/
example : ∃ s', newChild 1 (py!"Org") (.str (py!"x")) [(py!"Size", .str (py!"1")), (py!"a.b.c", .str (py!"2"))] langDoc = .err .valueError s' ∧
    (s'.heap 1).children = [2] ∧ s'.terms = [1] := by
  obtain ⟨s', h⟩ := err_val (m := newChild 1 (py!"Org") (.str (py!"x")) [(py!"Size", .str (py!"1")), (py!"a.b.c", .str (py!"2"))]) (s := langDoc)
    (e := .valueError) (by decide +kernel)
  have u := C74_new_child h
  refine ⟨s', h, ?_, ?_⟩
  · rw [u.objs 1 (by decide +kernel)]; decide +kernel
  · rw [u.rest]; show langDoc.terms = _; decide +kernel

/-- The same with `new_term`, through the statement about all calls. -/
example : ∃ s', newTerm 0 (py!"Note") (.str (py!"x")) [(py!"Size", .str (py!"1")), (py!"a.b.c", .str (py!"2"))] langDoc = .err .valueError s' ∧
    s'.terms = [1] ∧ s'.sections = langDoc.sections := by
  obtain ⟨s', h⟩ := err_val (m := newTerm 0 (py!"Note") (.str (py!"x")) [(py!"Size", .str (py!"1")), (py!"a.b.c", .str (py!"2"))]) (s := langDoc)
    (e := .valueError) (by decide +kernel)
  have u := C74_calls_partial langDoc_reach (op := .newTerm 0 (py!"Note") (.str (py!"x")) [(py!"Size", .str (py!"1")), (py!"a.b.c", .str (py!"2"))])
    (by show _ ∧ _; decide +kernel)
    ⟨py!"Root", by decide +kernel, by decide +kernel, by decide +kernel, by decide +kernel⟩ (e := .valueError) (s' := s')
    (by show (do let _ ← newTerm 0 (py!"Note") (.str (py!"x")) [(py!"Size", .str (py!"1")), (py!"a.b.c", .str (py!"2"))] : M Unit) langDoc = _
        rw [bind_run, h]) (by decide)
  exact ⟨s', h, by rw [u.rest]; show langDoc.terms = _; decide +kernel, by rw [u.rest]⟩

/-! ## Calls that fail half-way -/

/-- `get_or_new_child` of a child that exists sets its value before it finds that a property has no proper name. -/
theorem C74_properties_witness : ∃ s', getOrNewChild 1 (py!"Lang") (.str (py!"fr")) [(py!"a.b.c", .str (py!"x"))] langDoc = .err .valueError s' ∧
    (langDoc.heap 2).value = .str (py!"en") ∧ (s'.heap 2).value = .str (py!"fr") :=
  ⟨_, err_after (by decide +kernel), by decide +kernel, by decide +kernel⟩

/-- `section.get_or_new_term` of a term that exists sets the first property before it finds that the second has no proper name. -/
theorem C74_term_properties_witness : ∃ s',
    getOrNewTerm 0 (py!"Title") (.str (py!"T")) [(py!"Lang", .str (py!"fr")), (py!"a.b.c", .str (py!"x"))] langDoc = .err .valueError s' ∧
    (langDoc.heap 2).value = .str (py!"en") ∧ (s'.heap 2).value = .str (py!"fr") :=
  ⟨_, err_after (by decide +kernel), by decide +kernel, by decide +kernel⟩

/-- `t['Other.Size'] = '5'` raises `AssertionError`, and the child is there. -/
theorem C74_item_witness : ∃ s', setItemAny 1 (py!"Other.Size") (.str (py!"5")) kidDoc = .err .assertionError s' ∧
    (kidDoc.heap 1).children = [] ∧ (s'.heap 1).children = [2] ∧ (s'.heap 2).joinLc = py!"title.size" ∧ (s'.heap 2).value = .str (py!"5") :=
  ⟨_, err_after (by decide +kernel), by decide +kernel, by decide +kernel, by decide +kernel, by decide +kernel⟩

/-- `t['Size'] = ' 5'` raises `AssertionError` because the value is stored without the blank, and it is stored. -/
theorem C74_blank_witness : ∃ s', setItemAny 1 (py!"Size") (.str (py!" 5")) kidDoc = .err .assertionError s' ∧
    (kidDoc.heap 1).children = [] ∧ (s'.heap 1).children = [2] ∧ (s'.heap 2).value = .str (py!"5") :=
  ⟨_, err_after (by decide +kernel), by decide +kernel, by decide +kernel, by decide +kernel⟩

/-- Rows before the one that fails stay in the document. -/
theorem C74_parse_witness : ∃ s',
    parseRows noFiles 3 (py!"doc.csv") [[py!"Title", py!"T"], [py!"Include", py!"x.csv"], [py!"Name", py!"n"]] exDoc = .err .includeError s' ∧
    exDoc.terms = [] ∧ show_ s' s'.terms = [(py!"root.title", .str (py!"T"))] :=
  ⟨_, err_after (by decide +kernel), by decide +kernel, by decide +kernel⟩

/-- A document whose section `Two` lists a term that `del doc['one']` has taken out of the document. -/
def movedDoc : St := after (delSection (py!"one")) (after (sectionAddTerm 4 2) exTwo)
theorem movedDoc_reach : Reach (fun _ => True) movedDoc :=
  Reach.step (.delSection (py!"one"))
    (Reach.step (.sectionAddTerm 4 2) (exParse_reach _ trivial) trivial (by show (_ ∧ _) ∧ _ < _; decide +kernel)) trivial trivial

/-- `del doc['two']` then raises `ValueError`; the section is still there and its other term is gone from the document. -/
theorem C74_delete_witness : ∃ s', delSection (py!"two") movedDoc = .err .valueError s' ∧
    movedDoc.terms = [5] ∧ s'.terms = [] ∧ s'.sections.get? (py!"two") = some 4 :=
  ⟨_, err_after (by decide +kernel), by decide +kernel, by decide +kernel, by decide +kernel⟩

end Metatab
