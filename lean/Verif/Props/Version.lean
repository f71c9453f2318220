import Verif.Lemmas.SameFind
import Verif.Model.Version
/-! # C42: `update_version` -/
namespace Metatab
open Py Spec

/-- What a part of the version contributes: its value, `0` if it has none, and `1` if the part is missing. -/
inductive _root_.Spec.PartText (h : Nat → Obj) (v : Nat) (k : Str) : Str → Prop
  | found {c : Nat} {x : Str} : FirstChild h v k c → (h c).value ≠ .none → (h c).value.toStr = some x → PartText h v k x
  | empty {c : Nat} : FirstChild h v k c → (h c).value = .none → PartText h v k (py!"0")
  | missing : NoChild h v k → PartText h v k (py!"1")

/-- The dotted version. -/
def _root_.Spec.VersionText (h : Nat → Obj) (v : Nat) (x : Str) : Prop :=
  ∃ a b c, PartText h v (py!"Major") a ∧ PartText h v (py!"Minor") b ∧ PartText h v (py!"Patch") c ∧
    ((NoChild h v (py!"Build") ∧ x = a ++ '.' :: b ++ '.' :: c) ∨
      ∃ d u, FirstChild h v (py!"Build") d ∧ (h d).value.toStr = some u ∧ x = a ++ '.' :: b ++ '.' :: c ++ '.' :: u)

theorem firstChild_unique {h : Nat → Obj} {v : Nat} {k : Str} {c d : Nat} (hc : FirstChild h v k c) (hd : FirstChild h v k d) : c = d := by
  let s : St := { newDoc { nfkd := id, setOrd := id, uuid := fun _ => [] } with heap := h }
  have h1 : childNamed s v k .fls = some c := childNamed_some.2 hc
  have h2 : childNamed s v k .fls = some d := childNamed_some.2 hd
  rw [h1] at h2; exact Option.some.inj h2

theorem partText_unique {h : Nat → Obj} {v : Nat} {k x y : Str} (hx : PartText h v k x) (hy : PartText h v k y) : x = y := by
  have no : ∀ {c}, FirstChild h v k c → ¬ NoChild h v k := by
    rintro c ⟨pre, post, e, h2, -⟩ hn
    exact hn c (by rw [e]; simp) h2
  cases hx with
  | found a1 a2 a3 =>
    cases hy with
    | found b1 b2 b3 =>
      obtain rfl := firstChild_unique a1 b1
      rw [a3] at b3; exact Option.some.inj b3
    | empty b1 b2 => obtain rfl := firstChild_unique a1 b1; exact absurd b2 a2
    | missing b1 => exact absurd b1 (no a1)
  | empty a1 a2 =>
    cases hy with
    | found b1 b2 b3 => obtain rfl := firstChild_unique a1 b1; exact absurd a2 b2
    | empty b1 b2 => rfl
    | missing b1 => exact absurd b1 (no a1)
  | missing a1 =>
    cases hy with
    | found b1 b2 b3 => exact absurd a1 (no b1)
    | empty b1 b2 => exact absurd a1 (no b1)
    | missing b1 => rfl

/-- The three parts every semantic version has. -/
def versionParts : List Str := [py!"Major", py!"Minor", py!"Patch"]

/-- The parts can be made: their classes are no section classes and their declared value names are ordinary. -/
structure CanPart (s : St) : Prop where
  cls : ∀ k ∈ versionParts, (docTermClass s (lower (dotJoin (py!"Version") k))).isSection = false
  tvn : ∀ k ∈ versionParts, lower (declProp s.declTerms (dotJoin (py!"version") (lower k)) (py!"termvaluename") (py!"@value")) ∉ reservedTvn

/-- The object of a part that was missing. -/
def partObj (s : St) (v : Nat) (k : Str) : Obj :=
  { Obj.blank with cls := docTermClass s (lower (dotJoin (py!"Version") k)), raw := dotJoin (py!"Version") k, pt := py!"version", rt := lower k,
                   value := .str (py!"1"), parent := some v, sec := (s.heap v).sec,
                   tvn := declProp s.declTerms (dotJoin (py!"version") (lower k)) (py!"termvaluename") (py!"@value") }

/-- The state after one part has been seen to. -/
def partDone (s : St) (v : Nat) (k : Str) : St :=
  match childNamed s v k .fls with
  | some c => if (s.heap c).value = .none then withValue s c (.int 0) else s
  | none => withChild s v (partObj s v k)

/-- What is known about the version term. -/
structure IsVersion (s : St) (v : Nat) : Prop where
  lt : v < s.next
  cls : (s.heap v).cls.isSection = false
  rt : lower (s.heap v).rt = py!"version"
  kids : ∀ c ∈ (s.heap v).children, c < s.next ∧ (s.heap c).cls.isSection = false

theorem IsVersion.notSelf {s : St} {v : Nat} (h : IsVersion s v) {k : Str} (hk : lower k ≠ py!"version") {c : Nat} (hc : childNamed s v k .fls = some c) :
    c ≠ v ∧ c ∈ (s.heap v).children ∧ lower (s.heap c).rt = lower k := by
  obtain ⟨pre, post, h1, h2, h3⟩ := childNamed_some.1 hc
  refine ⟨?_, by rw [h1]; simp, h2⟩
  rintro rfl
  rw [h.rt] at h2
  exact hk h2.symm

theorem withValue_heap (s : St) (c : Nat) (v : Val) (j : Nat) : (withValue s c v).heap j = if j = c then { s.heap c with value := v } else s.heap j := rfl

theorem childNamed_withValue (s : St) (c : Nat) (x : Val) (v : Nat) (k : Str) : childNamed (withValue s c x) v k .fls = childNamed s v k .fls := by
  have h1 : ∀ j, ((withValue s c x).heap j).children = (s.heap j).children ∧ ((withValue s c x).heap j).rt = (s.heap j).rt := by
    intro j; rw [withValue_heap]; split
    · next e => rw [e]; exact ⟨rfl, rfl⟩
    · exact ⟨rfl, rfl⟩
  unfold childNamed
  rw [(h1 v).1]
  congr 1
  funext j
  rw [(h1 j).2]
  simp

theorem withValue_self {s : St} {c : Nat} {x : Val} (h : (s.heap c).value = x) : withValue s c x = s := by
  refine St.ext rfl (funext fun j => ?_) rfl rfl rfl rfl rfl rfl rfl rfl rfl rfl
  rw [withValue_heap]; split
  · next e => rw [e, ← h]
  · rfl

theorem localName_version {s : St} {v : Nat} (h : IsVersion s v) {k : Str} (hk : '.' ∉ k) : termFindFirst s v (dotJoin (py!"Version") k) = .ok (childNamed s v k .fls) := by
  unfold termFindFirst localName
  have e : splitOn '.' (dotJoin (py!"Version") k) = [py!"Version", k] := by
    have : dotJoin (py!"Version") k = py!"Version" ++ '.' :: k := rfl
    rw [this]
    rw [splitOn_append_sep (by decide), splitOn_not_mem hk]
  rw [if_pos (by simp [dotJoin]), e]
  simp only
  rw [if_pos (by rw [h.rt]; decide)]
  rfl

/-- The three names. -/
structure PartName (k : Str) : Prop where
  mem : k ∈ versionParts
  plain : PlainPart k
  notVersion : lower k ≠ py!"version"
  notSection : lower k ≠ py!"section"

theorem partName {k : Str} (h : k ∈ versionParts) : PartName k := by
  unfold versionParts at h
  rcases List.mem_cons.1 h with rfl | h
  · exact ⟨by decide, ⟨by decide, by decide, by decide⟩, by decide, by decide⟩
  · rcases List.mem_cons.1 h with rfl | h
    · exact ⟨by decide, ⟨by decide, by decide, by decide⟩, by decide, by decide⟩
    · obtain rfl := List.mem_singleton.1 h
      exact ⟨by decide, ⟨by decide, by decide, by decide⟩, by decide, by decide⟩

theorem newPart_run {s : St} {v : Nat} (h : IsVersion s v) (hc : CanPart s) {k : Str} (hk : PartName k) :
    newChild0 v (dotJoin (py!"Version") k) (.int 1) s = .ok s.next (withChild s v (partObj s v k)) := by
  obtain ⟨o0, ho0⟩ : ∃ o0, o0 = { Obj.blank with cls := docTermClass s (lower (dotJoin (py!"Version") k)), raw := dotJoin (py!"Version") k, pt := py!"version", rt := lower k, value := .str (py!"1"), parent := some v, sec := (s.heap v).sec } := ⟨_, rfl⟩
  have e0 : ∀ c, c = docTermClass s (lower (dotJoin (py!"Version") k)) →
      newTermObj c (dotJoin (py!"Version") k) (.str (py!"1")) [] (some v) (s.heap v).sec 0 false s =
      .ok s.next ({ s with next := s.next + 1 }.setObj s.next o0) := by
    intro c hcc
    unfold newTermObj
    rw [bind_run, lift_run, splitTermLower_dot ⟨by decide, by decide, by decide⟩ hk.plain]
    simp only [bind_run, obj_run]
    rw [if_neg (by decide), assert_run, if_pos (by rw [h.rt]; decide)]
    simp only [alloc_run]
    rw [ho0, hcc]; rfl
  have e1 : construct (docTermClass s (lower (dotJoin (py!"Version") k))) (dotJoin (py!"Version") k) (.str (py!"1")) (some v) (s.heap v).sec s =
      .ok s.next ({ s with next := s.next + 1 }.setObj s.next o0) := by
    have hcl := hc.cls k hk.mem
    unfold construct
    generalize docTermClass s (lower (dotJoin (py!"Version") k)) = c at e0 hcl ⊢
    cases c with
    | term => exact e0 _ rfl
    | user n => exact e0 _ rfl
    | «section» => cases hcl
    | root => cases hcl
  have hto : (Val.int 1).toStr = some (py!"1") := by decide
  unfold newChild0
  rw [bind_run, get_run]
  simp only [hto, bind_run, pure_run, e1, obj_run, heap_setObj, if_true]
  have hj : o0.join = dotJoin (py!"version") (lower k) := by rw [ho0]; rfl
  have ht : o0.tvn = py!"@value" := by rw [ho0]; rfl
  unfold setTvn
  rw [hj, ht, if_neg (hc.tvn k hk.mem), upd_run]
  have hrt : lower o0.rt ≠ py!"section" := by
    have : o0.rt = lower k := by rw [ho0]
    rw [this, lower_lower]; exact hk.notSection
  have hvn : v ≠ s.next := Nat.ne_of_lt h.lt
  simp only [assert_run, hrt, ne_eq, not_false_eq_true, decide_true, if_true, upd_run, heap_setObj, hvn, if_false]
  congr 1
  unfold withChild St.setObj partObj
  refine St.ext rfl (funext fun j => ?_) rfl rfl rfl rfl rfl rfl rfl rfl rfl rfl
  simp only
  by_cases e : j = s.next
  · rw [if_neg (by omega), if_pos e, if_pos e, ho0]
  · by_cases e2 : j = v
    · rw [if_pos e2, if_neg e, if_pos e2]
    · rw [if_neg e2, if_neg e, if_neg e, if_neg e, if_neg e2]

theorem versionPart_run {s : St} {v : Nat} (h : IsVersion s v) (hc : CanPart s) {k : Str} (hk : PartName k) :
    versionPart v (dotJoin (py!"Version") k) (childNamed s v k .fls) s = .ok () (partDone s v k) := by
  unfold versionPart partDone
  cases hn : childNamed s v k .fls with
  | some c =>
    simp only [bind_run, pure_run, obj_run, ite_run, upd_run]
    split <;> rfl
  | none =>
    simp only [bind_run, newPart_run h hc hk, obj_run, ite_run]
    rw [withChild_heap, if_pos rfl, if_neg (by simp [partObj]), pure_run]

/-- What seeing to a part does. -/
theorem partDone_isVersion {s : St} {v : Nat} (h : IsVersion s v) {k : Str} (hcl : (docTermClass s (lower (dotJoin (py!"Version") k))).isSection = false) :
    IsVersion (partDone s v k) v := by
  unfold partDone
  cases hn : childNamed s v k .fls with
  | some c =>
    simp only
    split
    · have key : ∀ j, ((withValue s c (.int 0)).heap j).cls = (s.heap j).cls ∧ ((withValue s c (.int 0)).heap j).rt = (s.heap j).rt ∧
          ((withValue s c (.int 0)).heap j).children = (s.heap j).children := by
        intro j; rw [withValue_heap]; split
        · next e => rw [e]; exact ⟨rfl, rfl, rfl⟩
        · exact ⟨rfl, rfl, rfl⟩
      exact ⟨h.lt, by rw [(key v).1]; exact h.cls, by rw [(key v).2.1]; exact h.rt, fun d hd => by
        rw [(key v).2.2] at hd; rw [(key d).1]; exact h.kids d hd⟩
    · exact h
  | none =>
    have hv : (withChild s v (partObj s v k)).heap v = { s.heap v with children := (s.heap v).children ++ [s.next] } := by
      rw [withChild_heap, if_neg (Nat.ne_of_lt h.lt), if_pos rfl]
    refine ⟨Nat.lt_succ_of_lt h.lt, by rw [hv]; exact h.cls, by rw [hv]; exact h.rt, fun d hd => ?_⟩
    rw [hv] at hd
    rcases List.mem_append.1 hd with hd | hd
    · have := h.kids d hd
      refine ⟨Nat.lt_succ_of_lt this.1, ?_⟩
      rw [withChild_heap, if_neg (Nat.ne_of_lt this.1)]
      split
      · exact h.cls
      · exact this.2
    · obtain rfl := List.mem_singleton.1 hd
      exact ⟨Nat.lt_succ_self _, by rw [withChild_heap, if_pos rfl]; exact hcl⟩

theorem partDone_same {s : St} {v : Nat} (h : IsVersion s v) (k : Str) : SameFind s (partDone s v k) := by
  unfold partDone
  cases hn : childNamed s v k .fls with
  | some c =>
    simp only
    split
    · obtain ⟨pre, post, h1, -⟩ := childNamed_some.1 hn
      exact sameFind_value (h.kids c (by rw [h1]; simp)).2 _
    · exact SameFind.refl s
  | none => exact sameFind_child v _

theorem partDone_canPart {s : St} {v : Nat} {k : Str} (hc : CanPart s) : CanPart (partDone s v k) := by
  unfold partDone
  cases hn : childNamed s v k .fls with
  | some c => simp only; split <;> exact ⟨hc.cls, hc.tvn⟩
  | none => exact ⟨hc.cls, hc.tvn⟩

theorem partDone_other {s : St} {v : Nat} (h : IsVersion s v) {k k' : Str} (hk : lower k ≠ lower k') : childNamed (partDone s v k) v k' .fls = childNamed s v k' .fls := by
  unfold partDone
  cases hn : childNamed s v k .fls with
  | some c =>
    simp only
    split
    · exact childNamed_withValue ..
    · rfl
  | none =>
    simp only
    rw [withChild_first' (fun c hc => (h.kids c hc).1) h.lt]
    cases childNamed s v k' .fls with
    | some c => rfl
    | none =>
      simp only
      rw [if_neg]
      simpa [partObj] using hk

/-- The value of an object that is not a child of that name is not touched. -/
theorem partDone_value {s : St} {v : Nat} {k : Str} {j : Nat} (hj : j < s.next) (h : childNamed s v k .fls ≠ some j) :
    ((partDone s v k).heap j).value = (s.heap j).value := by
  unfold partDone
  cases hn : childNamed s v k .fls with
  | some c =>
    have hne : j ≠ c := fun e => h (by rw [hn, e])
    simp only
    split
    · rw [withValue_heap, if_neg hne]
    · rfl
  | none =>
    simp only
    rw [withChild_heap, if_neg (Nat.ne_of_lt hj)]
    split
    · next e => rw [e]
    · rfl

/-- The part itself is there afterwards, with the text it contributes. -/
theorem partDone_part {s : St} {v : Nat} (h : IsVersion s v) {k x : Str} (hx : PartText s.heap v k x) :
    ∃ c, childNamed (partDone s v k) v k .fls = some c ∧ c < (partDone s v k).next ∧ ((partDone s v k).heap c).value.toStr = some x ∧
      ((partDone s v k).heap c).value ≠ .none := by
  unfold partDone
  cases hx with
  | @found c _ h1 h2 h3 =>
    rw [childNamed_some.2 h1]
    simp only
    rw [if_neg h2]
    obtain ⟨pre, post, e, -⟩ := id h1
    exact ⟨c, childNamed_some.2 h1, (h.kids c (by rw [e]; simp)).1, h3, h2⟩
  | @empty c h1 h2 =>
    rw [childNamed_some.2 h1]
    simp only
    rw [if_pos h2]
    obtain ⟨pre, post, e, -⟩ := id h1
    refine ⟨c, by rw [childNamed_withValue]; exact childNamed_some.2 h1, (h.kids c (by rw [e]; simp)).1, ?_, ?_⟩
    · rw [withValue_heap, if_pos rfl]; show (Val.int 0).toStr = _; decide
    · rw [withValue_heap, if_pos rfl]; simp
  | missing h1 =>
    rw [childNamed_none.2 h1]
    simp only
    refine ⟨s.next, ?_, Nat.lt_succ_self _, ?_, ?_⟩
    · rw [withChild_first' (fun c hc => (h.kids c hc).1) h.lt, childNamed_none.2 h1]
      simp [partObj]
    · rw [withChild_heap, if_pos rfl]; simp [partObj, Val.toStr]
    · rw [withChild_heap, if_pos rfl]; simp [partObj]

/-- Seeing to a part that is there and has a value does nothing. -/
theorem partDone_done {s : St} {v : Nat} {k : Str} {c : Nat} (h : childNamed s v k .fls = some c) (hv : (s.heap c).value ≠ .none) : partDone s v k = s := by
  unfold partDone
  rw [h]; simp only; rw [if_neg hv]

theorem partName_ne {k k' : Str} (h : k ∈ versionParts) (h' : k' ∈ versionParts) (e : k ≠ k') : lower k ≠ lower k' := by
  unfold versionParts at h h'
  simp only [List.mem_cons, List.not_mem_nil, or_false] at h h'
  rcases h with rfl | rfl | rfl <;> rcases h' with rfl | rfl | rfl <;> first | exact absurd rfl e | decide

/-- The state after the three parts have been seen to. -/
def partsDone (s : St) (v : Nat) : St := partDone (partDone (partDone s v (py!"Major")) v (py!"Minor")) v (py!"Patch")

theorem partDone_next {s : St} {v : Nat} {k : Str} : s.next ≤ (partDone s v k).next := by
  unfold partDone
  cases childNamed s v k .fls with
  | some c => simp only; split <;> exact Nat.le_refl _
  | none => exact Nat.le_succ _

theorem _root_.Spec.PartText.congr {h h' : Nat → Obj} {v : Nat} {k x : Str} (hx : PartText h v k x) (hc : (h' v).children = (h v).children ∨
    ∃ n, (h' v).children = (h v).children ++ [n] ∧ lower (h' n).rt ≠ lower k)
    (hr : ∀ j ∈ (h v).children, (h' j).rt = (h j).rt) (hv : ∀ j ∈ (h v).children, lower (h j).rt = lower k → (h' j).value = (h j).value) : PartText h' v k x := by
  have first : ∀ {c}, FirstChild h v k c → FirstChild h' v k c ∧ (h' c).value = (h c).value := by
    rintro c ⟨pre, post, e, h2, h3⟩
    have mem : ∀ j, j ∈ pre ++ c :: post → j ∈ (h v).children := fun j hj => by rw [e]; exact hj
    refine ⟨?_, hv c (mem c (by simp)) h2⟩
    have h2' : lower (h' c).rt = lower k := by rw [hr c (mem c (by simp))]; exact h2
    have h3' : ∀ j ∈ pre, lower (h' j).rt ≠ lower k := fun j hj => by rw [hr j (mem j (by simp [hj]))]; exact h3 j hj
    rcases hc with hc | ⟨n, hc, -⟩
    · exact ⟨pre, post, hc.trans e, h2', h3'⟩
    · exact ⟨pre, post ++ [n], by rw [hc, e]; simp, h2', h3'⟩
  cases hx with
  | found h1 h2 h3 => exact .found (first h1).1 (by rw [(first h1).2]; exact h2) (by rw [(first h1).2]; exact h3)
  | empty h1 h2 => exact .empty (first h1).1 (by rw [(first h1).2]; exact h2)
  | missing h1 =>
    refine .missing fun j hj => ?_
    rcases hc with hc | ⟨n, hc, hn⟩
    · rw [hc] at hj; rw [hr j hj]; exact h1 j hj
    · rw [hc] at hj
      rcases List.mem_append.1 hj with hj | hj
      · rw [hr j hj]; exact h1 j hj
      · obtain rfl := List.mem_singleton.1 hj; exact hn

theorem partDone_text {s : St} {v : Nat} (h : IsVersion s v) {k k' x : Str} (hk : lower k ≠ lower k') (hk' : lower k ≠ py!"version")
    (hx : PartText s.heap v k' x) : PartText (partDone s v k).heap v k' x := by
  unfold partDone
  cases hn : childNamed s v k .fls with
  | some c =>
    obtain ⟨hcv, -, hcr⟩ := h.notSelf hk' hn
    simp only
    split
    · refine hx.congr (.inl ?_) (fun j _ => ?_) fun j _ hj => ?_
      · rw [withValue_heap, if_neg (Ne.symm hcv)]
      · rw [withValue_heap]; split
        · next e => rw [e]
        · rfl
      · rw [withValue_heap, if_neg]
        rintro rfl
        exact hk (hcr.symm.trans hj)
    · exact hx
  | none =>
    simp only
    have hold : ∀ j ∈ (s.heap v).children, j ≠ s.next := fun j hj => Nat.ne_of_lt (h.kids j hj).1
    refine hx.congr (.inr ⟨s.next, ?_, ?_⟩) (fun j hj => ?_) fun j hj _ => ?_
    · rw [withChild_heap, if_neg (Nat.ne_of_lt h.lt), if_pos rfl]
    · rw [withChild_heap, if_pos rfl]; simpa [partObj] using hk
    all_goals
      rw [withChild_heap, if_neg (hold j hj)]
      split
      · next e => rw [e]
      · rfl

theorem partDone_keep {s : St} {v : Nat} (h : IsVersion s v) {k k' : Str} (hk : lower k ≠ lower k') {c : Nat}
    (hc : childNamed s v k' .fls = some c) :
    childNamed (partDone s v k) v k' .fls = some c ∧ ((partDone s v k).heap c).value = (s.heap c).value := by
  obtain ⟨pre, post, e, h2, -⟩ := childNamed_some.1 hc
  refine ⟨(partDone_other h hk).trans hc, partDone_value (h.kids c (by rw [e]; simp)).1 fun e' => hk ?_⟩
  obtain ⟨_, _, _, h2', -⟩ := childNamed_some.1 e'
  exact h2'.symm.trans h2

theorem isVersion_withValue {s : St} {v : Nat} (h : IsVersion s v) (c : Nat) (x : Val) : IsVersion (withValue s c x) v := by
  have key : ∀ j, ((withValue s c x).heap j).cls = (s.heap j).cls ∧ ((withValue s c x).heap j).rt = (s.heap j).rt ∧
      ((withValue s c x).heap j).children = (s.heap j).children := by
    intro j; rw [withValue_heap]; split
    · next e => rw [e]; exact ⟨rfl, rfl, rfl⟩
    · exact ⟨rfl, rfl, rfl⟩
  exact ⟨h.lt, by rw [(key v).1]; exact h.cls, by rw [(key v).2.1]; exact h.rt, fun d hd => by
    rw [(key v).2.2] at hd; rw [(key d).1]; exact h.kids d hd⟩

theorem withValue_withValue (s : St) (c : Nat) (x y : Val) : withValue (withValue s c x) c y = withValue s c y := by
  refine St.ext rfl (funext fun j => ?_) rfl rfl rfl rfl rfl rfl rfl rfl rfl rfl
  rw [withValue_heap, withValue_heap, withValue_heap, withValue_heap, if_pos rfl]
  split
  · rfl
  · rfl

/-- All parts are there and have values. -/
structure Complete (s : St) (v : Nat) (a b c x : Str) : Prop where
  parts : ∃ A B C, childNamed s v (py!"Major") .fls = some A ∧ childNamed s v (py!"Minor") .fls = some B ∧
    childNamed s v (py!"Patch") .fls = some C ∧ (s.heap A).value ≠ .none ∧ (s.heap B).value ≠ .none ∧ (s.heap C).value ≠ .none ∧
    (s.heap A).value.toStr = some a ∧ (s.heap B).value.toStr = some b ∧ (s.heap C).value.toStr = some c ∧
    ((childNamed s v (py!"Build") .fls = none ∧ x = a ++ '.' :: b ++ '.' :: c) ∨
      ∃ d u, childNamed s v (py!"Build") .fls = some d ∧ (s.heap d).value.toStr = some u ∧ x = a ++ '.' :: b ++ '.' :: c ++ '.' :: u)

theorem complete_withValue {s : St} {v : Nat} {a b c x : Str} (iv : IsVersion s v) (h : Complete s v a b c x) (y : Val) :
    Complete (withValue s v y) v a b c x := by
  obtain ⟨A, B, C, hA, hB, hC, nA, nB, nC, ta, tb, tc, hbuild⟩ := h.parts
  have key : ∀ {k j}, lower k ≠ py!"version" → childNamed s v k .fls = some j → ((withValue s v y).heap j).value = (s.heap j).value := by
    intro k j hk hj
    rw [withValue_heap, if_neg (iv.notSelf hk hj).1]
  refine ⟨A, B, C, ?_, ?_, ?_, ?_, ?_, ?_, ?_, ?_, ?_, ?_⟩
  · rw [childNamed_withValue]; exact hA
  · rw [childNamed_withValue]; exact hB
  · rw [childNamed_withValue]; exact hC
  · rw [key (by decide) hA]; exact nA
  · rw [key (by decide) hB]; exact nB
  · rw [key (by decide) hC]; exact nC
  · rw [key (by decide) hA]; exact ta
  · rw [key (by decide) hB]; exact tb
  · rw [key (by decide) hC]; exact tc
  · rw [childNamed_withValue]
    rcases hbuild with hb | ⟨d, u, h1, h2, h3⟩
    · exact .inl hb
    · exact .inr ⟨d, u, h1, by rw [key (by decide) h1]; exact h2, h3⟩

theorem versionString_run {s : St} {v : Nat} {a b c x : Str} (iv : IsVersion s v) (h : Complete s v a b c x) :
    versionString v s = .ok (.str x) (withValue s v (.str x)) := by
  obtain ⟨A, B, C, hA, hB, hC, nA, nB, nC, ta, tb, tc, hbuild⟩ := h.parts
  have f : ∀ {k}, '.' ∉ k → termFindFirst s v (dotJoin (py!"Version") k) = .ok (childNamed s v k .fls) := fun hk => localName_version iv hk
  have fA := f (k := py!"Major") (by decide)
  have fB := f (k := py!"Minor") (by decide)
  have fC := f (k := py!"Patch") (by decide)
  rw [hA] at fA; rw [hB] at fB; rw [hC] at fC
  have eA : (fmtVal (s.heap A).value) = .ok a := by unfold fmtVal; rw [ta]
  have eB : (fmtVal (s.heap B).value) = .ok b := by unfold fmtVal; rw [tb]
  have eC : (fmtVal (s.heap C).value) = .ok c := by unfold fmtVal; rw [tc]
  obtain ⟨s1, hs1⟩ : ∃ s1, s1 = withValue s v (.str (a ++ '.' :: b ++ '.' :: c)) := ⟨_, rfl⟩
  have es1 : s.setObj v { s.heap v with value := .str (a ++ '.' :: b ++ '.' :: c) } = s1 := hs1.symm
  have fD : termFindFirst s1 v (py!"Version.Build") = .ok (childNamed s v (py!"Build") .fls) := by
    have := localName_version (s := s1) (v := v) (by rw [hs1]; exact isVersion_withValue iv _ _) (k := py!"Build") (by decide)
    rw [hs1, childNamed_withValue, ← hs1] at this
    exact this
  change termFindFirst s v (py!"Version.Major") = _ at fA
  change termFindFirst s v (py!"Version.Minor") = _ at fB
  change termFindFirst s v (py!"Version.Patch") = _ at fC
  unfold versionString
  simp only [bind_run, lift_run, fA, fB, fC, eA, eB, eC, upd_run, es1, fD]
  rcases hbuild with ⟨hb, hx⟩ | ⟨d, u, h1, h2, hx⟩
  · rw [hb]
    simp only [pure_run]
    rw [hx, ← hs1, bind_run, obj_run]
    simp only [pure_run]
    have : (s1.heap v).value = .str (a ++ '.' :: b ++ '.' :: c) := by rw [hs1, withValue_heap, if_pos rfl]
    rw [this]
  · have eD : fmtVal (s1.heap d).value = .ok u := by
      rw [hs1, withValue_heap, if_neg (iv.notSelf (by decide) h1).1]
      unfold fmtVal; rw [h2]
    rw [h1]
    simp only [bind_run, lift_run, eD, upd_run, obj_run, pure_run]
    have e2 : s1.setObj v { s1.heap v with value := .str (a ++ '.' :: b ++ '.' :: c ++ '.' :: u) } = withValue s v (.str x) := by
      rw [hx, ← withValue_withValue s v (.str (a ++ '.' :: b ++ '.' :: c)), ← hs1]; rfl
    rw [e2, withValue_heap, if_pos rfl]

theorem partsDone_complete {s : St} {v : Nat} (iv : IsVersion s v) (hc : CanPart s) {x : Str} (h : VersionText s.heap v x) :
    (∃ a b c, PartText s.heap v (py!"Major") a ∧ PartText s.heap v (py!"Minor") b ∧ PartText s.heap v (py!"Patch") c ∧
      Complete (partsDone s v) v a b c x) ∧ IsVersion (partsDone s v) v ∧ CanPart (partsDone s v) ∧ SameFind s (partsDone s v) := by
  obtain ⟨a, b, c, ha, hb, hcc, hbuild⟩ := h
  obtain ⟨s1, h1⟩ : ∃ s1, s1 = partDone s v (py!"Major") := ⟨_, rfl⟩
  obtain ⟨s2, h2⟩ : ∃ s2, s2 = partDone s1 v (py!"Minor") := ⟨_, rfl⟩
  obtain ⟨s3, h3⟩ : ∃ s3, s3 = partDone s2 v (py!"Patch") := ⟨_, rfl⟩
  have e3 : partsDone s v = s3 := by unfold partsDone; rw [h3, h2, h1]
  have c1 : CanPart s1 := by rw [h1]; exact partDone_canPart hc
  have c2 : CanPart s2 := by rw [h2]; exact partDone_canPart c1
  have c3 : CanPart s3 := by rw [h3]; exact partDone_canPart c2
  have i1 : IsVersion s1 v := by rw [h1]; exact partDone_isVersion iv (hc.cls _ (by decide))
  have i2 : IsVersion s2 v := by rw [h2]; exact partDone_isVersion i1 (c1.cls _ (by decide))
  have i3 : IsVersion s3 v := by rw [h3]; exact partDone_isVersion i2 (c2.cls _ (by decide))
  have f1 : SameFind s s1 := by rw [h1]; exact partDone_same iv _
  have f2 : SameFind s1 s2 := by rw [h2]; exact partDone_same i1 _
  have f3 : SameFind s2 s3 := by rw [h3]; exact partDone_same i2 _
  rw [e3]
  refine ⟨⟨a, b, c, ha, hb, hcc, ?_⟩, i3, c3, (f1.trans f2).trans f3⟩
  have k12 : lower (py!"Major") ≠ lower (py!"Minor") := by decide
  have k13 : lower (py!"Major") ≠ lower (py!"Patch") := by decide
  have k23 : lower (py!"Minor") ≠ lower (py!"Patch") := by decide
  -- the first part
  obtain ⟨A, A1, -, A2, A3⟩ := partDone_part iv ha
  rw [← h1] at A1 A2 A3
  obtain ⟨A1', A2'⟩ := partDone_keep i1 (Ne.symm k12) A1
  rw [← h2] at A1' A2'
  obtain ⟨A1'', A2''⟩ := partDone_keep i2 (Ne.symm k13) A1'
  rw [← h3] at A1'' A2''
  -- the second part
  have hb1 : PartText s1.heap v (py!"Minor") b := by rw [h1]; exact partDone_text iv k12 (by decide) hb
  obtain ⟨B, B1, -, B2, B3⟩ := partDone_part i1 hb1
  rw [← h2] at B1 B2 B3
  obtain ⟨B1', B2'⟩ := partDone_keep i2 (Ne.symm k23) B1
  rw [← h3] at B1' B2'
  -- the third part
  have hc1 : PartText s1.heap v (py!"Patch") c := by rw [h1]; exact partDone_text iv k13 (by decide) hcc
  have hc2 : PartText s2.heap v (py!"Patch") c := by rw [h2]; exact partDone_text i1 k23 (by decide) hc1
  obtain ⟨C, C1, -, C2, C3⟩ := partDone_part i2 hc2
  rw [← h3] at C1 C2 C3
  refine ⟨A, B, C, A1'', B1', C1, ?_, ?_, C3, ?_, ?_, C2, ?_⟩
  · rw [A2'', A2']; exact A3
  · rw [B2']; exact B3
  · rw [A2'', A2']; exact A2
  · rw [B2']; exact B2
  · rcases hbuild with ⟨hn, hx⟩ | ⟨d, u, hd, hu, hx⟩
    · refine .inl ⟨?_, hx⟩
      rw [h3, partDone_other i2 (by decide), h2, partDone_other i1 (by decide), h1, partDone_other iv (by decide)]
      exact childNamed_none.2 hn
    · obtain ⟨D1, D2⟩ := partDone_keep iv (k := py!"Major") (k' := py!"Build") (by decide) (childNamed_some.2 hd)
      rw [← h1] at D1 D2
      obtain ⟨E1, E2⟩ := partDone_keep i1 (k := py!"Minor") (by decide) D1
      rw [← h2] at E1 E2
      obtain ⟨G1, G2⟩ := partDone_keep i2 (k := py!"Patch") (by decide) E1
      rw [← h3] at G1 G2
      exact .inr ⟨d, u, G1, by rw [G2, E2, D2]; exact hu, hx⟩

/-- Some part of a semantic version is there. -/
def _root_.Spec.HasPart (h : Nat → Obj) (v : Nat) : Prop := ∃ k ∈ versionParts, ∃ c, FirstChild h v k c

theorem updateVersion_run {s : St} {v : Nat} (hv : versionTerm s = .ok (some v)) (iv : IsVersion s v) (hc : CanPart s)
    (hp : HasPart s.heap v) {x : Str} (h : VersionText s.heap v x) :
    updateVersion s = .ok (.str x) (withValue (partsDone s v) v (.str x)) := by
  obtain ⟨⟨_, _, _, -, -, -, hcomp⟩, i3, -, -⟩ := partsDone_complete iv hc h
  obtain ⟨s1, h1⟩ : ∃ s1, s1 = partDone s v (py!"Major") := ⟨_, rfl⟩
  obtain ⟨s2, h2⟩ : ∃ s2, s2 = partDone s1 v (py!"Minor") := ⟨_, rfl⟩
  have e3 : partsDone s v = partDone s2 v (py!"Patch") := by unfold partsDone; rw [h2, h1]
  have c1 : CanPart s1 := by rw [h1]; exact partDone_canPart hc
  have c2 : CanPart s2 := by rw [h2]; exact partDone_canPart c1
  have i1 : IsVersion s1 v := by rw [h1]; exact partDone_isVersion iv (hc.cls _ (by decide))
  have i2 : IsVersion s2 v := by rw [h2]; exact partDone_isVersion i1 (c1.cls _ (by decide))
  have f : ∀ {k}, '.' ∉ k → termFindFirst s v (dotJoin (py!"Version") k) = .ok (childNamed s v k .fls) := fun hk => localName_version iv hk
  have fA : termFindFirst s v (py!"Version.Major") = _ := f (k := py!"Major") (by decide)
  have fB : termFindFirst s v (py!"Version.Minor") = _ := f (k := py!"Minor") (by decide)
  have fC : termFindFirst s v (py!"Version.Patch") = _ := f (k := py!"Patch") (by decide)
  have hsome : ¬ ((childNamed s v (py!"Major") .fls).isNone && (childNamed s v (py!"Minor") .fls).isNone && (childNamed s v (py!"Patch") .fls).isNone) = true := by
    obtain ⟨k, hk, c, hcc⟩ := hp
    have := childNamed_some.2 hcc
    simp only [versionParts, List.mem_cons, List.not_mem_nil, or_false] at hk
    rcases hk with rfl | rfl | rfl <;> rw [this] <;> simp
  have p1 : versionPart v (py!"Version.Major") (childNamed s v (py!"Major") .fls) s = .ok () s1 := by
    rw [h1]; exact versionPart_run iv hc (partName (k := py!"Major") (by decide))
  have p2 : versionPart v (py!"Version.Minor") (childNamed s v (py!"Minor") .fls) s1 = .ok () s2 := by
    have : childNamed s v (py!"Minor") .fls = childNamed s1 v (py!"Minor") .fls := by rw [h1, partDone_other iv (by decide)]
    rw [h2, this]; exact versionPart_run i1 c1 (partName (k := py!"Minor") (by decide))
  have p3 : versionPart v (py!"Version.Patch") (childNamed s v (py!"Patch") .fls) s2 = .ok () (partsDone s v) := by
    have : childNamed s v (py!"Patch") .fls = childNamed s2 v (py!"Patch") .fls := by
      rw [h2, partDone_other i1 (by decide), h1, partDone_other iv (by decide)]
    rw [e3, this]; exact versionPart_run i2 c2 (partName (k := py!"Patch") (by decide))
  unfold updateVersion
  rw [bind_run, lift_run, hv]
  simp only [bind_run, lift_run, fA, fB, fC, ite_run]
  rw [if_neg hsome]
  simp only [p1, p2, p3, versionString_run i3 hcomp]

theorem versionTerm_isVersion {s : St} (w : WF True s) (hd : s.derived.get? (py!"root.version") = none) {v : Nat}
    (hv : versionTerm s = .ok (some v)) : IsVersion s v := by
  have key : ∀ sec l, find s (py!"Root.Version") .fls sec = .ok l → ∀ t ∈ l, IsVersion s t := by
    intro sec l hl t ht
    obtain ⟨h1, -, h3⟩ := find_name (A := py!"Root") (B := py!"Version") ⟨by decide, by decide, by decide⟩ ⟨by decide, by decide, by decide⟩
      (by decide) (by decide) hd hl t ht
    exact ⟨(w.termsLt t h1).1, (w.termsLt t h1).2, h3.trans (by decide), fun c hc => ⟨w.kidLt t c hc, w.kidSec trivial t c hc⟩⟩
  have key2 : ∀ sec, findFirst s (py!"Root.Version") .fls sec = .ok (some v) → IsVersion s v := by
    intro sec h
    unfold findFirst at h
    cases hl : find s (py!"Root.Version") .fls sec with
    | error e => rw [hl] at h; cases h
    | ok l =>
      rw [hl] at h
      have : l.head? = some v := by simpa [bind, Except.bind, pure, Except.pure] using h
      exact key sec l hl v (List.mem_of_mem_head? this)
  unfold versionTerm at hv
  cases hg : getSection s (py!"Root") with
  | error e => rw [hg] at hv; cases hv
  | ok x =>
    rw [hg] at hv
    have hv : sectionFindFirst s x (py!"Root.Version") = .ok (some v) := hv
    unfold sectionFindFirst at hv
    split at hv
    · exact key2 _ hv
    · exact key2 _ hv
    · cases hv

theorem versionTerm_same {s s' : St} (w : WF True s) (h : SameFind s s') (hd : s.derived.get? (py!"root.version") = none) :
    versionTerm s' = versionTerm s := by
  have hf := fun sec => find_same w h (term := py!"Root.Version") (by decide) hd sec
  have hg : getSection s' (py!"Root") = getSection s (py!"Root") := by unfold getSection; rw [h.sections]
  unfold versionTerm
  rw [hg]
  cases hx : getSection s (py!"Root") with
  | error e => rfl
  | ok x =>
    have hx' : s.sections.get? (lower (py!"Root")) = some x := by
      unfold getSection at hx; split at hx
      · next e => cases hx; exact e
      · cases hx
    have hm := w.secsLt _ (Dict.mem_of_get? hx')
    have hv := h.secs x hm.1 hm.2.1
    show sectionFindFirst s' x (py!"Root.Version") = sectionFindFirst s x (py!"Root.Version")
    unfold sectionFindFirst findFirst
    rw [hv]
    simp only [hf]

/-- Everything but the version term, its empty parts and its new parts is as it was. -/
structure _root_.Spec.OnlyVersion (s s' : St) (v : Nat) (x : Val) : Prop where
  terms : s'.terms = s.terms
  sections : s'.sections = s.sections
  version : ∃ new, s'.heap v = { s.heap v with value := x, children := (s.heap v).children ++ new } ∧ ∀ j ∈ new, s.next ≤ j
  rest : ∀ j, j < s.next → j ≠ v → s'.heap j = s.heap j ∨ ((∃ k ∈ versionParts, FirstChild s.heap v k j) ∧ (s.heap j).value = .none ∧
    s'.heap j = { s.heap j with value := .int 0 })

theorem partDone_heap {s : St} {v : Nat} {k : Str} {j : Nat} (iv : IsVersion s v) (hk : lower k ≠ py!"version") (hj : j < s.next) (hv : j ≠ v) :
    (partDone s v k).heap j = s.heap j ∨ (childNamed s v k .fls = some j ∧ (s.heap j).value = .none ∧
      (partDone s v k).heap j = { s.heap j with value := .int 0 }) := by
  unfold partDone
  cases hn : childNamed s v k .fls with
  | some c =>
    simp only
    split
    · next hc =>
      by_cases e : j = c
      · subst e; exact .inr ⟨rfl, hc, by rw [withValue_heap, if_pos rfl]⟩
      · exact .inl (by rw [withValue_heap, if_neg e])
    · exact .inl rfl
  | none => exact .inl (by rw [withChild_heap, if_neg (Nat.ne_of_lt hj), if_neg hv])

theorem partDone_version {s : St} {v : Nat} {k : Str} (iv : IsVersion s v) (hk : lower k ≠ py!"version") :
    ∃ new, (partDone s v k).heap v = { s.heap v with children := (s.heap v).children ++ new } ∧ ∀ j ∈ new, s.next ≤ j := by
  unfold partDone
  cases hn : childNamed s v k .fls with
  | some c =>
    simp only
    refine ⟨[], ?_, by simp⟩
    split
    · rw [withValue_heap, if_neg (Ne.symm (iv.notSelf hk hn).1)]; simp
    · simp
  | none =>
    exact ⟨[s.next], by rw [withChild_heap, if_neg (Nat.ne_of_lt iv.lt), if_pos rfl], by simp⟩

theorem partsDone_only {s : St} {v : Nat} (iv : IsVersion s v) (hc : CanPart s) (x : Val) : OnlyVersion s (withValue (partsDone s v) v x) v x := by
  obtain ⟨s1, h1⟩ : ∃ s1, s1 = partDone s v (py!"Major") := ⟨_, rfl⟩
  obtain ⟨s2, h2⟩ : ∃ s2, s2 = partDone s1 v (py!"Minor") := ⟨_, rfl⟩
  obtain ⟨s3, h3⟩ : ∃ s3, s3 = partDone s2 v (py!"Patch") := ⟨_, rfl⟩
  have e3 : partsDone s v = s3 := by unfold partsDone; rw [h3, h2, h1]
  have c1 : CanPart s1 := by rw [h1]; exact partDone_canPart hc
  have i1 : IsVersion s1 v := by rw [h1]; exact partDone_isVersion iv (hc.cls _ (by decide))
  have i2 : IsVersion s2 v := by rw [h2]; exact partDone_isVersion i1 (c1.cls _ (by decide))
  have f1 : SameFind s s1 := by rw [h1]; exact partDone_same iv _
  have f2 : SameFind s1 s2 := by rw [h2]; exact partDone_same i1 _
  have f3 : SameFind s2 s3 := by rw [h3]; exact partDone_same i2 _
  have f := (f1.trans f2).trans f3
  rw [e3]
  refine ⟨f.terms, f.sections, ?_, fun j hj hjv => ?_⟩
  · obtain ⟨n1, a1, b1⟩ := partDone_version (k := py!"Major") iv (by decide)
    obtain ⟨n2, a2, b2⟩ := partDone_version (k := py!"Minor") i1 (by decide)
    obtain ⟨n3, a3, b3⟩ := partDone_version (k := py!"Patch") i2 (by decide)
    rw [← h1] at a1; rw [← h2] at a2; rw [← h3] at a3
    refine ⟨n1 ++ n2 ++ n3, ?_, ?_⟩
    · rw [withValue_heap, if_pos rfl, a3, a2, a1]; simp
    · intro j hj
      simp only [List.mem_append] at hj
      rcases hj with (hj | hj) | hj
      · exact b1 j hj
      · exact Nat.le_trans f1.next (b2 j hj)
      · exact Nat.le_trans (Nat.le_trans f1.next f2.next) (b3 j hj)
  · rw [withValue_heap, if_neg hjv]
    have hj1 := Nat.lt_of_lt_of_le hj f1.next
    have hj2 := Nat.lt_of_lt_of_le hj1 f2.next
    have k2 := partDone_heap (k := py!"Minor") i1 (by decide) hj1 hjv
    have k3 := partDone_heap (k := py!"Patch") i2 (by decide) hj2 hjv
    have n2 : childNamed s1 v (py!"Minor") .fls = childNamed s v (py!"Minor") .fls := by rw [h1, partDone_other iv (by decide)]
    have n3 : childNamed s2 v (py!"Patch") .fls = childNamed s v (py!"Patch") .fls := by
      rw [h2, partDone_other i1 (by decide), h1, partDone_other iv (by decide)]
    rw [← h2, n2] at k2; rw [← h3, n3] at k3
    have k1 := partDone_heap (k := py!"Major") iv (by decide) hj hjv
    rw [← h1] at k1
    have fin : ∀ {k}, k ∈ versionParts → childNamed s v k .fls = some j → ∃ k ∈ versionParts, FirstChild s.heap v k j :=
      fun hk h => ⟨_, hk, childNamed_some.1 h⟩
    rcases k1 with k1 | ⟨m1, v1, k1⟩
    · rcases k2 with k2 | ⟨m2, v2, k2⟩
      · rcases k3 with k3 | ⟨m3, v3, k3⟩
        · exact .inl (by rw [k3, k2, k1])
        · rw [k2, k1] at k3 v3
          exact .inr ⟨fin (by decide) m3, v3, k3⟩
      · rw [k1] at k2 v2
        rcases k3 with k3 | ⟨m3, v3, k3⟩
        · exact .inr ⟨fin (by decide) m2, v2, by rw [k3, k2]⟩
        · rw [k2] at v3; cases v3
    · rcases k2 with k2 | ⟨m2, v2, k2⟩
      · rcases k3 with k3 | ⟨m3, v3, k3⟩
        · exact .inr ⟨fin (by decide) m1, v1, by rw [k3, k2, k1]⟩
        · rw [k2, k1] at v3; cases v3
      · rw [k1] at v2; cases v2

/-- **C42.** With any of the three parts of a semantic version, `update_version` sets the version to `major.minor.patch`, or
`major.minor.patch.build`, and returns it; parts without a value count as `0`, missing parts are made with the value `1`; nothing else
changes; and doing it again returns the same and changes nothing at all. -/
theorem C42_parts {s : St} (h : Reach Op.noAddChild s) (hd : s.derived.get? (py!"root.version") = none) {v : Nat}
    (hv : versionTerm s = .ok (some v)) (hc : CanPart s) (hp : HasPart s.heap v) {x : Str} (hx : VersionText s.heap v x) :
    ∃ s', updateVersion s = .ok (.str x) s' ∧ (s'.heap v).value = .str x ∧ OnlyVersion s s' v (.str x) ∧
      (∀ k ∈ versionParts, ∃ c, FirstChild s'.heap v k c ∧ (s'.heap c).value ≠ .none ∧ ∀ t, PartText s.heap v k t → (s'.heap c).value.toStr = some t) ∧
      updateVersion s' = .ok (.str x) s' := by
  have w : WF True s := h.wf fun _ op ha => ha
  have iv := versionTerm_isVersion w hd hv
  refine ⟨_, updateVersion_run hv iv hc hp hx, ?_, partsDone_only iv hc _, ?_, ?_⟩
  · rw [withValue_heap, if_pos rfl]
  · obtain ⟨⟨a, b, c, pa, pb, pc, k1⟩, k2, -, -⟩ := partsDone_complete iv hc hx
    obtain ⟨A, B, C, hA, hB, hC, nA, nB, nC, ta, tb, tc, -⟩ := (complete_withValue k2 k1 (.str x)).parts
    intro k hk
    simp only [versionParts, List.mem_cons, List.not_mem_nil, or_false] at hk
    rcases hk with rfl | rfl | rfl
    · exact ⟨A, childNamed_some.1 hA, nA, fun t ht => by rw [ta, partText_unique pa ht]⟩
    · exact ⟨B, childNamed_some.1 hB, nB, fun t ht => by rw [tb, partText_unique pb ht]⟩
    · exact ⟨C, childNamed_some.1 hC, nC, fun t ht => by rw [tc, partText_unique pc ht]⟩
  · obtain ⟨⟨a, b, c, -, -, -, k1⟩, k2, k3, k4⟩ := partsDone_complete iv hc hx
    have i4 := isVersion_withValue k2 v (.str x)
    have c4 := complete_withValue k2 k1 (.str x)
    obtain ⟨s4, hs4⟩ : ∃ s4, s4 = withValue (partsDone s v) v (.str x) := ⟨_, rfl⟩
    rw [← hs4] at c4 i4 ⊢
    have f4 : SameFind s s4 := by rw [hs4]; exact k4.trans (sameFind_value k2.cls _)
    have hv4 : versionTerm s4 = .ok (some v) := by rw [versionTerm_same w f4 hd]; exact hv
    have hc4 : CanPart s4 := by rw [hs4]; exact ⟨k3.cls, k3.tvn⟩
    obtain ⟨A, B, C, hA, hB, hC, nA, nB, nC, ta, tb, tc, hbuild⟩ := c4.parts
    have hx4 : VersionText s4.heap v x := by
      refine ⟨a, b, c, .found (childNamed_some.1 hA) nA ta, .found (childNamed_some.1 hB) nB tb, .found (childNamed_some.1 hC) nC tc, ?_⟩
      rcases hbuild with ⟨hb, hx⟩ | ⟨d, u, h1, h2, hx⟩
      · exact .inl ⟨childNamed_none.1 hb, hx⟩
      · exact .inr ⟨d, u, childNamed_some.1 h1, h2, hx⟩
    rw [updateVersion_run hv4 i4 hc4 ⟨py!"Major", by decide, A, childNamed_some.1 hA⟩ hx4]
    have e : partsDone s4 v = s4 := by
      unfold partsDone
      rw [partDone_done hA nA, partDone_done hB nB, partDone_done hC nC]
    rw [e, withValue_self (by rw [hs4, withValue_heap, if_pos rfl])]

/-- **C42.** Without any of the three parts, `update_version` returns the value of the version term and changes nothing. -/
theorem C42_plain {s : St} (h : Reach Op.noAddChild s) (hd : s.derived.get? (py!"root.version") = none) {v : Nat}
    (hv : versionTerm s = .ok (some v)) (hp : ¬ HasPart s.heap v) : updateVersion s = .ok (s.heap v).value s := by
  have iv := versionTerm_isVersion (h.wf fun _ op ha => ha) hd hv
  have f : ∀ {k}, k ∈ versionParts → '.' ∉ k → termFindFirst s v (dotJoin (py!"Version") k) = .ok none := by
    intro k hk hdot
    rw [localName_version iv hdot, childNamed_none.2]
    rcases first_or_none s.heap v k with ⟨c, hc⟩ | hn
    · exact absurd ⟨k, hk, c, hc⟩ hp
    · exact hn
  have fA : termFindFirst s v (py!"Version.Major") = _ := f (k := py!"Major") (by decide) (by decide)
  have fB : termFindFirst s v (py!"Version.Minor") = _ := f (k := py!"Minor") (by decide) (by decide)
  have fC : termFindFirst s v (py!"Version.Patch") = _ := f (k := py!"Patch") (by decide) (by decide)
  unfold updateVersion
  rw [bind_run, lift_run, hv]
  simp only [bind_run, lift_run, fA, fB, fC, ite_run, Option.isNone_none, Bool.and_self, if_true, obj_run, pure_run]

/-- **C42.** Without a version term, `update_version` returns nothing and changes nothing. -/
theorem C42_none {s : St} (hv : versionTerm s = .ok none) : updateVersion s = .ok .none s := by
  unfold updateVersion
  rw [bind_run, lift_run, hv]
  rfl

/-! A document whose version lacks the minor part and has an empty patch part and a build. -/
def verDoc : St := exParse [[py!"Dataset", py!"foo"], [py!"Version", py!""], [py!"Version.Major", py!"3"], [py!"Version.Patch", py!""], [py!"Version.Build", py!"b7"]]

theorem verDoc_reach : Reach Op.noAddChild verDoc := exParse_reach _ trivial
example : versionTerm verDoc = .ok (some 2) ∧ verDoc.derived.get? (py!"root.version") = none := by decide +kernel
theorem verDoc_canPart : CanPart verDoc := ⟨by decide +kernel, by decide +kernel⟩
theorem verDoc_text : VersionText verDoc.heap 2 (py!"3.1.0.b7") :=
  ⟨py!"3", py!"1", py!"0", .found (c := 3) (childNamed_some.1 (by decide +kernel)) (by decide +kernel) (by decide +kernel),
    .missing (childNamed_none.1 (by decide +kernel)), .empty (c := 4) (childNamed_some.1 (by decide +kernel)) (by decide +kernel),
    .inr ⟨5, py!"b7", childNamed_some.1 (by decide +kernel), by decide +kernel, by decide +kernel⟩⟩
example : HasPart verDoc.heap 2 := ⟨py!"Major", by decide, 3, childNamed_some.1 (by decide +kernel)⟩
example : (updateVersion verDoc).val = .ok (.str (py!"3.1.0.b7")) := by decide +kernel

end Metatab
