import Verif.Lemmas.Monad
import Verif.Lemmas.Dict
import Verif.Lemmas.Str
import Verif.Lemmas.StepsDoc
import Verif.Spec.Agree
/-! # The document and its sections list the same terms: the invariant and how computations keep it -/
namespace Metatab
open Py _root_.Spec

/-- The invariant of orderly histories. -/
structure Inv (s : St) : Prop where
  rootLt : s.root < s.next
  termsLt : ∀ t ∈ s.terms, t < s.next ∧ (s.heap t).cls.isSection = false ∧ lower (s.heap t).pt = ROOT
  termsNodup : s.terms.Nodup
  listed : ∀ t ∈ s.terms, ∃ x, (s.heap t).sec = some x ∧ HasSec s x ∧ t ∈ (s.heap x).terms
  mine : ∀ x, HasSec s x → ∀ t ∈ (s.heap x).terms, t ∈ s.terms ∧ (s.heap t).sec = some x
  secNodup : ∀ x, HasSec s x → (s.heap x).terms.Nodup
  secOk : ∀ k x, s.sections.get? k = some x → x < s.next ∧ (s.heap x).cls.isSection = true ∧ ∃ n, (s.heap x).value = .str n ∧ lower n = k
  keysNodup : s.sections.keys.Nodup
  noCol : ∀ x, x < s.next → (s.heap x).cls.isSection = true → NoSectionColumn (s.heap x).args ∧ NoSectionColumn (s.heap x).headerArgs ∧
    lower (s.heap x).tvn ≠ py!"section"
  secName : ∀ x, x < s.next → (s.heap x).cls.isSection = true →
    (s.heap x).pt = py!"root" ∧ (s.heap x).rt = if x = s.root then py!"root" else py!"section"
  kid : ∀ i, ∀ c ∈ (s.heap i).children, c < s.next ∧ (s.heap c).cls.isSection = false
  fresh : ∀ i, s.next ≤ i → (s.heap i).children = []
  secLt : ∀ i, i < s.next → ∀ x, (s.heap i).sec = some x → x < s.next ∧ (s.heap x).cls.isSection = true
  decl : ∀ k d, s.declSecs.get? k = some d → NoSectionColumn d.args
  noSuper : s.superTerms = []
  noDerived : s.derived = []
  noDecl : ∀ i, (s.heap i).isDecl = false

theorem Inv.agree {s : St} (h : Inv s) : ListsAgree s := fun t =>
  ⟨h.listed t, fun ⟨_, _, h2, h3⟩ => (h.mine _ h2 t h3).1⟩

/-- What a computation leaves alone. -/
structure Evo (s s' : St) : Prop where
  next : s.next ≤ s'.next
  root : s'.root = s.root
  cls : ∀ i, i < s.next → (s'.heap i).cls = (s.heap i).cls
  inDoc : ∀ x, HasSec s x → HasSec s' x

theorem Evo.refl (s : St) : Evo s s := ⟨Nat.le_refl _, rfl, fun _ _ => rfl, fun _ h => h⟩
theorem Evo.trans {a b c : St} (h : Evo a b) (k : Evo b c) : Evo a c :=
  ⟨Nat.le_trans h.next k.next, k.root.trans h.root, fun i hi => (k.cls i (Nat.lt_of_lt_of_le hi h.next)).trans (h.cls i hi),
    fun x hx => k.inDoc x (h.inDoc x hx)⟩
theorem Evo.lt {s s' : St} (h : Evo s s') {i : Nat} (hi : i < s.next) : i < s'.next := Nat.lt_of_lt_of_le hi h.next
theorem Evo.notSec {s s' : St} (h : Evo s s') {i : Nat} (hi : i < s.next) (hc : (s.heap i).cls.isSection = false) :
    (s'.heap i).cls.isSection = false := by rw [h.cls i hi]; exact hc
theorem Evo.isSec {s s' : St} (h : Evo s s') {i : Nat} (hi : i < s.next) (hc : (s.heap i).cls.isSection = true) :
    (s'.heap i).cls.isSection = true := by rw [h.cls i hi]; exact hc
theorem evo_setObj {s : St} {i : Nat} {o : Obj} (h : o.cls = (s.heap i).cls) : Evo s (s.setObj i o) := by
  refine ⟨Nat.le_refl _, rfl, fun j _ => ?_, fun _ h => h⟩
  rw [heap_setObj]; split
  · next e => rw [h, e]
  · rfl

/-- The computation keeps the invariant, whether it returns or raises, and `Q` holds when it returns. -/
def AT {α : Type} (m : M α) (Q : α → St → Prop) (s : St) : Prop :=
  Inv s → wp m (fun a s' => Inv s' ∧ Evo s s' ∧ Q a s') (fun _ s' => Inv s') s

section
variable {α β : Type} {s : St}

theorem at_inv {m : M α} {Q : α → St → Prop} (h : Inv s → AT m Q s) : AT m Q s := fun w => h w w
theorem at_bind {m : M α} {f : α → M β} {Q : α → St → Prop} {R : β → St → Prop} (hm : AT m Q s)
    (hf : ∀ a s', Inv s' → Evo s s' → Q a s' → AT (f a) R s') : AT (m >>= f) R s := by
  intro w
  rw [wp_bind]
  refine wp_mono (hm w) ?_ (fun _ _ h => h)
  intro a s' ⟨w1, h1, h2⟩
  exact wp_mono (hf a s' w1 h1 h2 w1) (fun b s2 ⟨w2, h3, h4⟩ => ⟨w2, h1.trans h3, h4⟩) fun _ _ h => h
theorem at_mono {m : M α} {Q R : α → St → Prop} (hm : AT m Q s) (h : ∀ a s', Inv s' → Evo s s' → Q a s' → R a s') : AT m R s :=
  fun w => wp_mono (hm w) (fun a s' ⟨w1, h1, h2⟩ => ⟨w1, h1, h a s' w1 h1 h2⟩) fun _ _ h => h
theorem at_pure {a : α} {Q : α → St → Prop} (h : Q a s) : AT (pure a) Q s := fun w => ⟨w, Evo.refl s, h⟩
theorem at_mpure {a : α} {Q : α → St → Prop} (h : Q a s) : AT (M.pure a) Q s := fun w => ⟨w, Evo.refl s, h⟩
theorem at_raise {e : Err} {Q : α → St → Prop} : AT (M.raise e : M α) Q s := fun w => w
theorem at_get {f : St → M β} {Q : β → St → Prop} (h : AT (f s) Q s) : AT (M.get >>= f) Q s := h
theorem at_obj {i : Nat} {f : Obj → M β} {Q : β → St → Prop} (h : AT (f (s.heap i)) Q s) : AT (obj i >>= f) Q s := h
theorem at_lift {g : St → Except Err α} {f : α → M β} {Q : β → St → Prop} (h : ∀ a, g s = .ok a → AT (f a) Q s) :
    AT (M.lift g >>= f) Q s := by
  intro w
  rw [wp_bind, wp_lift]
  exact ⟨fun a e => h a e w, fun _ _ => w⟩
theorem at_lift' {g : St → Except Err α} {Q : α → St → Prop} (h : ∀ a, g s = .ok a → Q a s) : AT (M.lift g) Q s := by
  intro w
  rw [wp_lift]
  exact ⟨fun a e => ⟨w, Evo.refl s, h a e⟩, fun _ _ => w⟩
theorem at_assert {b : Bool} {f : Unit → M β} {Q : β → St → Prop} (h : b = true → AT (f ()) Q s) : AT (M.assert b >>= f) Q s := by
  intro w
  rw [wp_bind, wp_assert]
  exact ⟨fun e => h e w, fun _ => w⟩
theorem at_assert' {b : Bool} {Q : Unit → St → Prop} (h : b = true → Q () s) : AT (M.assert b) Q s := by
  intro w
  rw [wp_assert]
  exact ⟨fun e => ⟨w, Evo.refl s, h e⟩, fun _ => w⟩
theorem at_ite {c : Prop} [Decidable c] {m n : M α} {Q : α → St → Prop} (hm : c → AT m Q s) (hn : ¬ c → AT n Q s) :
    AT (if c then m else n) Q s := by
  split
  · exact hm ‹_›
  · exact hn ‹_›
theorem at_upd {i : Nat} {g : Obj → Obj} {f : Unit → M β} {Q : β → St → Prop} (hc : (g (s.heap i)).cls = (s.heap i).cls)
    (h1 : Inv s → Inv (s.setObj i (g (s.heap i)))) (h2 : AT (f ()) Q (s.setObj i (g (s.heap i)))) : AT (upd i g >>= f) Q s := by
  intro w
  rw [wp_bind, wp_upd]
  exact wp_mono (h2 (h1 w)) (fun _ _ ⟨a, b, c⟩ => ⟨a, (evo_setObj hc).trans b, c⟩) fun _ _ h => h
theorem at_upd' {i : Nat} {g : Obj → Obj} {Q : Unit → St → Prop} (hc : (g (s.heap i)).cls = (s.heap i).cls)
    (h1 : Inv s → Inv (s.setObj i (g (s.heap i)))) (h2 : Q () (s.setObj i (g (s.heap i)))) : AT (upd i g) Q s :=
  fun w => ⟨h1 w, evo_setObj hc, h2⟩
theorem at_modify {g : St → St} {f : Unit → M β} {Q : β → St → Prop} (h1 : Inv s → Inv (g s)) (he : Evo s (g s))
    (h2 : AT (f ()) Q (g s)) : AT (M.modify g >>= f) Q s := by
  intro w
  rw [wp_bind, wp_modify]
  exact wp_mono (h2 (h1 w)) (fun _ _ ⟨a, b, c⟩ => ⟨a, he.trans b, c⟩) fun _ _ h => h
theorem at_modify' {g : St → St} {Q : Unit → St → Prop} (h1 : Inv s → Inv (g s)) (he : Evo s (g s)) (h2 : Q () (g s)) :
    AT (M.modify g) Q s := fun w => ⟨h1 w, he, h2⟩
theorem at_forL {γ : Type} {f : γ → M Unit} {I : St → Prop} : ∀ {l : List γ} {s : St},
    (∀ a ∈ l, ∀ s', Evo s s' → I s' → AT (f a) (fun _ s2 => I s2) s') → I s → AT (forL f l) (fun _ s' => I s') s
  | [], _, _, hi => at_pure hi
  | a :: l, s, h, hi => at_bind (h a List.mem_cons_self s (Evo.refl s) hi) fun _ s1 _ st h1 =>
      at_forL (fun b hb s' st' => h b (List.mem_cons_of_mem _ hb) s' (st.trans st')) h1
theorem at_drop {m : M α} {Q : α → St → Prop} (h : AT m Q s) : AT (do let _ ← m) (fun _ _ => True) s :=
  at_bind h fun _ _ _ _ _ => at_mpure trivial
/-- Add what is known of the computation from elsewhere. -/
theorem at_pres {m : M α} {Q : α → St → Prop} {R : St → St → Prop} (h : AT m Q s) (hp : Pres R m) :
    AT m (fun a s' => R s s' ∧ Q a s') s := by
  intro w
  have h1 := h w
  have h2 := hp.wp s
  unfold wp at *
  cases hm : m s <;> rw [hm] at h1 h2
  · exact ⟨h1.1, h1.2.1, h2, h1.2.2⟩
  · exact h1
end

/-! ## Elementary changes -/

/-- Changing an object. -/
theorem Inv.setObj {s : St} (w : Inv s) {i : Nat} {o : Obj} (hi : i < s.next) (hcls : o.cls = (s.heap i).cls)
    (hterms : o.terms = (s.heap i).terms) (hlist : i ∈ s.terms → o.sec = (s.heap i).sec ∧ lower o.pt = ROOT)
    (hsec : (s.heap i).cls.isSection = true → o.value = (s.heap i).value ∧ o.pt = (s.heap i).pt ∧ o.rt = (s.heap i).rt ∧
      NoSectionColumn o.args ∧ NoSectionColumn o.headerArgs ∧ lower o.tvn ≠ py!"section")
    (hkid : ∀ c ∈ o.children, c < s.next ∧ (s.heap c).cls.isSection = false)
    (hsl : ∀ x, o.sec = some x → x < s.next ∧ (s.heap x).cls.isSection = true) (hd : o.isDecl = (s.heap i).isDecl) : Inv (s.setObj i o) := by
  have cls' : ∀ j, ((s.setObj i o).heap j).cls = (s.heap j).cls := by
    intro j; rw [heap_setObj]; split
    · next e => rw [hcls, e]
    · rfl
  have terms' : ∀ j, ((s.setObj i o).heap j).terms = (s.heap j).terms := by
    intro j; rw [heap_setObj]; split
    · next e => rw [hterms, e]
    · rfl
  have sec' : ∀ j ∈ s.terms, ((s.setObj i o).heap j).sec = (s.heap j).sec := by
    intro j hj; rw [heap_setObj]; split
    · next e => subst e; exact (hlist hj).1
    · rfl
  refine ⟨w.rootLt, ?_, w.termsNodup, ?_, ?_, ?_, ?_, w.keysNodup, ?_, ?_, ?_, ?_, ?_, w.decl, w.noSuper, w.noDerived, ?_⟩
  · intro t ht
    obtain ⟨a, b, c⟩ := w.termsLt t ht
    refine ⟨a, by rw [cls']; exact b, ?_⟩
    rw [heap_setObj]; split
    · next e => subst e; exact (hlist ht).2
    · exact c
  · intro t ht
    obtain ⟨x, a, b, c⟩ := w.listed t ht
    exact ⟨x, by rw [sec' t ht]; exact a, b, by rw [terms']; exact c⟩
  · intro x hx t ht
    rw [terms'] at ht
    obtain ⟨a, b⟩ := w.mine x hx t ht
    exact ⟨a, by rw [sec' t a]; exact b⟩
  · intro x hx; rw [terms']; exact w.secNodup x hx
  · intro k x hx
    obtain ⟨a, b, n, c, d⟩ := w.secOk k x hx
    refine ⟨a, by rw [cls']; exact b, n, ?_, d⟩
    rw [heap_setObj]; split
    · next e => subst e; rw [(hsec b).1]; exact c
    · exact c
  · intro x hx hc
    rw [cls'] at hc
    rw [heap_setObj]; split
    · next e => subst e; exact (hsec hc).2.2.2
    · exact w.noCol x hx hc
  · intro x hx hc
    rw [cls'] at hc
    rw [heap_setObj]; split
    · next e =>
      subst e
      rw [(hsec hc).2.1, (hsec hc).2.2.1]; exact w.secName x hx hc
    · exact w.secName x hx hc
  · intro j c hc
    rw [cls']
    rw [heap_setObj] at hc; split at hc
    · exact hkid c hc
    · exact w.kid j c hc
  · intro j hj
    have : s.next ≤ j := hj
    rw [heap_setObj, if_neg (by omega)]; exact w.fresh j hj
  · intro j hj x hx
    rw [cls']
    rw [heap_setObj] at hx; split at hx
    · exact hsl x hx
    · exact w.secLt j hj x hx
  · intro j; rw [heap_setObj]; split
    · rw [hd]; exact w.noDecl i
    · exact w.noDecl j

/-- Changing attributes of a term that is no section. -/
theorem Inv.setTerm {s : St} (w : Inv s) {i : Nat} {o : Obj} (hi : i < s.next) (hns : (s.heap i).cls.isSection = false)
    (hcls : o.cls = (s.heap i).cls) (hterms : o.terms = (s.heap i).terms) (hkid : o.children = (s.heap i).children)
    (hsec : o.sec = (s.heap i).sec) (hpt : o.pt = (s.heap i).pt) (hd : o.isDecl = (s.heap i).isDecl) :
    Inv (s.setObj i o) := by
  refine w.setObj hi hcls hterms (fun h => ⟨hsec, by rw [hpt]; exact (w.termsLt i h).2.2⟩) (fun h => ?_) ?_ ?_ hd
  · rw [hns] at h; cases h
  · rw [hkid]; exact w.kid i
  · rw [hsec]; exact w.secLt i hi

/-- States that differ in things the invariant does not mention. -/
theorem Inv.same {s s' : St} (w : Inv s) (h1 : s'.heap = s.heap) (h2 : s'.next = s.next) (h3 : s'.terms = s.terms)
    (h4 : s'.sections = s.sections) (h5 : s'.declSecs = s.declSecs) (h6 : s'.superTerms = s.superTerms) (h7 : s'.derived = s.derived)
    (h8 : s'.root = s.root) : Inv s' := by
  have hd : ∀ x, HasSec s' x ↔ HasSec s x := fun x => by unfold HasSec; rw [h4]
  refine ⟨?_, ?_, ?_, ?_, ?_, ?_, ?_, ?_, ?_, ?_, ?_, ?_, ?_, ?_, ?_, ?_, ?_⟩
  · rw [h8, h2]; exact w.rootLt
  · rw [h3, h1, h2]; exact w.termsLt
  · rw [h3]; exact w.termsNodup
  · intro t ht; rw [h1]; rw [h3] at ht
    obtain ⟨x, a, b, c⟩ := w.listed t ht
    exact ⟨x, a, (hd x).2 b, c⟩
  · intro x hx t ht; rw [h1] at ht ⊢; rw [h3]; exact w.mine x ((hd x).1 hx) t ht
  · intro x hx; rw [h1]; exact w.secNodup x ((hd x).1 hx)
  · rw [h4, h1, h2]; exact w.secOk
  · rw [h4]; exact w.keysNodup
  · rw [h1, h2]; exact w.noCol
  · rw [h1, h2, h8]; exact w.secName
  · rw [h1, h2]; exact w.kid
  · rw [h1, h2]; exact w.fresh
  · rw [h1, h2]; exact w.secLt
  · rw [h5]; exact w.decl
  · rw [h6]; exact w.noSuper
  · rw [h7]; exact w.noDerived
  · rw [h1]; exact w.noDecl

theorem Evo.same {s s' : St} (h1 : s'.heap = s.heap) (h2 : s'.next = s.next) (h4 : s'.sections = s.sections) (h8 : s'.root = s.root) : Evo s s' :=
  ⟨Nat.le_of_eq h2.symm, h8, fun _ _ => by rw [h1], fun x hx => by unfold HasSec; rw [h4]; exact hx⟩

/-- A new object. -/
theorem Inv.alloc {s : St} (w : Inv s) {o : Obj} (hc : o.children = []) (ht : o.terms = [])
    (hsec : o.cls.isSection = true → o.pt = py!"root" ∧ o.rt = py!"section" ∧ NoSectionColumn o.args ∧ NoSectionColumn o.headerArgs ∧
      lower o.tvn ≠ py!"section") (hsl : ∀ x, o.sec = some x → x < s.next ∧ (s.heap x).cls.isSection = true)
    (hdecl : o.isDecl = false) : Inv ({ s with next := s.next + 1 }.setObj s.next o) := by
  have old : ∀ j, j < s.next → ({ s with next := s.next + 1 }.setObj s.next o).heap j = s.heap j := by
    intro j hj; rw [heap_setObj, if_neg (Nat.ne_of_lt hj)]
  have hd : ∀ {x}, HasSec s x → x < s.next := fun ⟨k, hk⟩ => (w.secOk k _ hk).1
  refine ⟨Nat.lt_succ_of_lt w.rootLt, ?_, w.termsNodup, ?_, ?_, ?_, ?_, w.keysNodup, ?_, ?_, ?_, ?_, ?_, w.decl, w.noSuper, w.noDerived, ?_⟩
  · intro t h
    obtain ⟨a, b⟩ := w.termsLt t h
    exact ⟨Nat.lt_succ_of_lt a, by rw [old t a]; exact b⟩
  · intro t h
    obtain ⟨x, a, b, c⟩ := w.listed t h
    exact ⟨x, by rw [old t (w.termsLt t h).1]; exact a, b, by rw [old x (hd b)]; exact c⟩
  · intro x hx t h
    have hx' : HasSec s x := hx
    rw [old x (hd hx')] at h
    obtain ⟨a, b⟩ := w.mine x hx' t h
    exact ⟨a, by rw [old t (w.termsLt t a).1]; exact b⟩
  · intro x hx
    have hx' : HasSec s x := hx
    rw [old x (hd hx')]; exact w.secNodup x hx'
  · intro k x hx
    obtain ⟨a, b⟩ := w.secOk k x hx
    exact ⟨Nat.lt_succ_of_lt a, by rw [old x a]; exact b⟩
  · intro x hx h
    have hx' : x < s.next + 1 := hx
    rcases Nat.lt_or_ge x s.next with hl | hl
    · rw [old x hl] at h ⊢; exact w.noCol x hl h
    · have e : x = s.next := by omega
      subst e
      rw [heap_setObj, if_pos rfl] at h ⊢
      exact (hsec h).2.2
  · intro x hx h
    have hx' : x < s.next + 1 := hx
    rcases Nat.lt_or_ge x s.next with hl | hl
    · rw [old x hl] at h ⊢; exact w.secName x hl h
    · have e : x = s.next := by omega
      subst e
      rw [heap_setObj, if_pos rfl] at h ⊢
      have hr : ¬ s.next = s.root := fun e => by have := w.rootLt; omega
      exact ⟨(hsec h).1, by show o.rt = if s.next = s.root then _ else _; rw [if_neg hr]; exact (hsec h).2.1⟩
  · intro j c hj
    have : c ∈ (s.heap j).children := by
      rw [heap_setObj] at hj; split at hj
      · rw [hc] at hj; cases hj
      · exact hj
    obtain ⟨a, b⟩ := w.kid j c this
    exact ⟨Nat.lt_succ_of_lt a, by rw [old c a]; exact b⟩
  · intro j hj
    have hj' : s.next + 1 ≤ j := hj
    rw [heap_setObj, if_neg (by omega)]; exact w.fresh j (by omega)
  · intro j hj x hx
    have : x < s.next ∧ (s.heap x).cls.isSection = true := by
      rw [heap_setObj] at hx; split at hx
      · exact hsl x hx
      · next hne => exact w.secLt j (by have : j < s.next + 1 := hj; omega) x hx
    exact ⟨Nat.lt_succ_of_lt this.1, by rw [old x this.1]; exact this.2⟩
  · intro j; rw [heap_setObj]; split
    · exact hdecl
    · exact w.noDecl j

/-- Listing a term in its section and in the document. -/
theorem Inv.list {s : St} (w : Inv s) {t x : Nat} (ht : t < s.next) (hns : (s.heap t).cls.isSection = false) (hr : lower (s.heap t).pt = ROOT)
    (hs : (s.heap t).sec = some x) (hx : HasSec s x) (hn : t ∉ s.terms) :
    Inv ({ s with terms := s.terms ++ [t] }.setObj x { s.heap x with terms := (s.heap x).terms ++ [t] }) := by
  have hother : ∀ y, HasSec s y → t ∉ (s.heap y).terms := fun y hy h => hn (w.mine y hy t h).1
  have f : ∀ j, ∃ l, ({ s with terms := s.terms ++ [t] }.setObj x { s.heap x with terms := (s.heap x).terms ++ [t] }).heap j =
      { s.heap j with terms := l } ∧ l = if j = x then (s.heap x).terms ++ [t] else (s.heap j).terms := by
    intro j
    rw [heap_setObj]
    by_cases h : j = x
    · subst h; rw [if_pos rfl]; exact ⟨_, rfl, by rw [if_pos rfl]⟩
    · rw [if_neg h]; exact ⟨_, rfl, by rw [if_neg h]⟩
  have proj : ∀ {γ : Type} (p : Obj → γ), (∀ o l, p { o with terms := l } = p o) → ∀ j,
      p (({ s with terms := s.terms ++ [t] }.setObj x { s.heap x with terms := (s.heap x).terms ++ [t] }).heap j) = p (s.heap j) := by
    intro γ p hp j
    obtain ⟨l, e, _⟩ := f j
    rw [e]; exact hp _ _
  have tm : ∀ j, (({ s with terms := s.terms ++ [t] }.setObj x { s.heap x with terms := (s.heap x).terms ++ [t] }).heap j).terms =
      if j = x then (s.heap x).terms ++ [t] else (s.heap j).terms := by
    intro j
    obtain ⟨l, e, h⟩ := f j
    rw [e]; exact h
  have p1 := proj (·.cls) fun _ _ => rfl
  have p2 := proj (·.pt) fun _ _ => rfl
  have p3 := proj (·.sec) fun _ _ => rfl
  have p4 := proj (·.value) fun _ _ => rfl
  have p5 := proj (·.args) fun _ _ => rfl
  have p6 := proj (·.headerArgs) fun _ _ => rfl
  have p7 := proj (·.tvn) fun _ _ => rfl
  have p8 := proj (·.rt) fun _ _ => rfl
  have p9 := proj (·.children) fun _ _ => rfl
  have p10 := proj (·.isDecl) fun _ _ => rfl
  have hd : ∀ y, HasSec ({ s with terms := s.terms ++ [t] }.setObj x { s.heap x with terms := (s.heap x).terms ++ [t] }) y ↔ HasSec s y := fun _ => Iff.rfl
  have mem : ∀ u, u ∈ ({ s with terms := s.terms ++ [t] }.setObj x { s.heap x with terms := (s.heap x).terms ++ [t] }).terms ↔ u ∈ s.terms ∨ u = t := by
    intro u
    show u ∈ s.terms ++ [t] ↔ _
    simp
  refine ⟨w.rootLt, ?_, ?_, ?_, ?_, ?_, ?_, w.keysNodup, ?_, ?_, ?_, ?_, ?_, w.decl, w.noSuper, w.noDerived, ?_⟩
  · intro u hu
    rw [p1, p2]
    rcases (mem u).1 hu with hu | rfl
    · exact w.termsLt u hu
    · exact ⟨ht, hns, hr⟩
  · show (s.terms ++ [t]).Nodup
    rw [List.nodup_append]
    exact ⟨w.termsNodup, by simp, fun a ha b hb => by rw [List.mem_singleton.1 hb]; exact fun e => hn (e ▸ ha)⟩
  · intro u hu
    rcases (mem u).1 hu with hu | rfl
    · obtain ⟨y, a, b, c⟩ := w.listed u hu
      refine ⟨y, by rw [p3]; exact a, b, ?_⟩
      rw [tm]; split
      · next e => subst e; exact List.mem_append_left _ c
      · exact c
    · refine ⟨x, by rw [p3]; exact hs, hx, ?_⟩
      rw [tm, if_pos rfl]; simp
  · intro y hy u hu
    rw [tm] at hu
    rw [mem, p3]
    split at hu
    · next e =>
      subst e
      rcases List.mem_append.1 hu with hu | hu
      · exact ⟨.inl (w.mine y hy u hu).1, (w.mine y hy u hu).2⟩
      · rw [List.mem_singleton.1 hu]; exact ⟨.inr rfl, hs⟩
    · exact ⟨.inl (w.mine y hy u hu).1, (w.mine y hy u hu).2⟩
  · intro y hy
    rw [tm]; split
    · next e =>
      subst e
      rw [List.nodup_append]
      exact ⟨w.secNodup y hy, by simp, fun a ha b hb => by rw [List.mem_singleton.1 hb]; exact fun e => hother y hy (e ▸ ha)⟩
    · exact w.secNodup y hy
  · intro k y hy
    rw [p1, p4]; exact w.secOk k y hy
  · intro y hy; rw [p1, p5, p6, p7]; exact w.noCol y hy
  · intro y hy; rw [p1, p2, p8]; exact w.secName y hy
  · intro i c; rw [p9, p1]; exact w.kid i c
  · intro i; rw [p9]; exact w.fresh i
  · intro i hi y; rw [p3, p1]; exact w.secLt i hi y
  · intro i; rw [p10]; exact w.noDecl i

/-- Taking a term from its section's list and from the document's. -/
theorem Inv.unlist {s : St} (w : Inv s) {t x : Nat} (hs : (s.heap t).sec = some x) (hx : HasSec s x) :
    Inv ({ s with terms := s.terms.erase t }.setObj x { s.heap x with terms := (s.heap x).terms.erase t }) := by
  have f : ∀ j, ∃ l, ({ s with terms := s.terms.erase t }.setObj x { s.heap x with terms := (s.heap x).terms.erase t }).heap j =
      { s.heap j with terms := l } ∧ l = if j = x then (s.heap x).terms.erase t else (s.heap j).terms := by
    intro j
    rw [heap_setObj]
    by_cases h : j = x
    · subst h; rw [if_pos rfl]; exact ⟨_, rfl, by rw [if_pos rfl]⟩
    · rw [if_neg h]; exact ⟨_, rfl, by rw [if_neg h]⟩
  have proj : ∀ {γ : Type} (p : Obj → γ), (∀ o l, p { o with terms := l } = p o) → ∀ j,
      p (({ s with terms := s.terms.erase t }.setObj x { s.heap x with terms := (s.heap x).terms.erase t }).heap j) = p (s.heap j) := by
    intro γ p hp j
    obtain ⟨l, e, _⟩ := f j
    rw [e]; exact hp _ _
  have tm : ∀ j, (({ s with terms := s.terms.erase t }.setObj x { s.heap x with terms := (s.heap x).terms.erase t }).heap j).terms =
      if j = x then (s.heap x).terms.erase t else (s.heap j).terms := by
    intro j
    obtain ⟨l, e, h⟩ := f j
    rw [e]; exact h
  have p1 := proj (·.cls) fun _ _ => rfl
  have p2 := proj (·.pt) fun _ _ => rfl
  have p3 := proj (·.sec) fun _ _ => rfl
  have p4 := proj (·.value) fun _ _ => rfl
  have p5 := proj (·.args) fun _ _ => rfl
  have p6 := proj (·.headerArgs) fun _ _ => rfl
  have p7 := proj (·.tvn) fun _ _ => rfl
  have p8 := proj (·.rt) fun _ _ => rfl
  have p9 := proj (·.children) fun _ _ => rfl
  have p10 := proj (·.isDecl) fun _ _ => rfl
  have mem : ∀ u, u ∈ ({ s with terms := s.terms.erase t }.setObj x { s.heap x with terms := (s.heap x).terms.erase t }).terms ↔
      u ∈ s.terms ∧ u ≠ t := by
    intro u
    show u ∈ s.terms.erase t ↔ _
    rw [w.termsNodup.mem_erase_iff]; exact and_comm
  refine ⟨w.rootLt, ?_, w.termsNodup.erase t, ?_, ?_, ?_, ?_, w.keysNodup, ?_, ?_, ?_, ?_, ?_, w.decl, w.noSuper, w.noDerived, ?_⟩
  · intro u hu
    rw [p1, p2]
    exact w.termsLt u ((mem u).1 hu).1
  · intro u hu
    obtain ⟨hu, hne⟩ := (mem u).1 hu
    obtain ⟨y, a, b, c⟩ := w.listed u hu
    refine ⟨y, by rw [p3]; exact a, b, ?_⟩
    rw [tm]; split
    · next e => subst e; exact (List.mem_erase_of_ne hne).2 c
    · exact c
  · intro y hy u hu
    rw [tm] at hu
    rw [mem, p3]
    split at hu
    · next e =>
      subst e
      obtain ⟨hne, hu⟩ := (w.secNodup y hx).mem_erase_iff.1 hu
      exact ⟨⟨(w.mine y hy u hu).1, hne⟩, (w.mine y hy u hu).2⟩
    · next e =>
      obtain ⟨a, b⟩ := w.mine y hy u hu
      refine ⟨⟨a, fun h => ?_⟩, b⟩
      subst h
      rw [hs] at b; cases b; exact e rfl
  · intro y hy
    rw [tm]; split
    · exact (w.secNodup x hx).erase t
    · exact w.secNodup y hy
  · intro k y hy
    rw [p1, p4]; exact w.secOk k y hy
  · intro y hy; rw [p1, p5, p6, p7]; exact w.noCol y hy
  · intro y hy; rw [p1, p2, p8]; exact w.secName y hy
  · intro i c; rw [p9, p1]; exact w.kid i c
  · intro i; rw [p9]; exact w.fresh i
  · intro i hi y; rw [p3, p1]; exact w.secLt i hi y
  · intro i; rw [p10]; exact w.noDecl i

/-- Reordering a section's list. -/
theorem Inv.relist {s : St} (w : Inv s) {x : Nat} (hx : x < s.next) {l : List Nat} (hl : l.Perm (s.heap x).terms) :
    Inv (s.setObj x { s.heap x with terms := l }) := by
  have proj : ∀ {γ : Type} (p : Obj → γ), (∀ o l, p { o with terms := l } = p o) → ∀ j,
      p ((s.setObj x { s.heap x with terms := l }).heap j) = p (s.heap j) := by
    intro γ p hp j
    rw [heap_setObj]; split
    · next e => subst e; exact hp _ _
    · rfl
  have tm : ∀ j, ((s.setObj x { s.heap x with terms := l }).heap j).terms.Perm (s.heap j).terms := by
    intro j
    rw [heap_setObj]; split
    · next e => subst e; exact hl
    · exact .refl _
  have p1 := proj (·.cls) fun _ _ => rfl
  have p2 := proj (·.pt) fun _ _ => rfl
  have p3 := proj (·.sec) fun _ _ => rfl
  have p4 := proj (·.value) fun _ _ => rfl
  have p5 := proj (·.args) fun _ _ => rfl
  have p6 := proj (·.headerArgs) fun _ _ => rfl
  have p7 := proj (·.tvn) fun _ _ => rfl
  have p8 := proj (·.rt) fun _ _ => rfl
  have p9 := proj (·.children) fun _ _ => rfl
  have p10 := proj (·.isDecl) fun _ _ => rfl
  refine ⟨w.rootLt, ?_, w.termsNodup, ?_, ?_, ?_, ?_, w.keysNodup, ?_, ?_, ?_, ?_, ?_, w.decl, w.noSuper, w.noDerived, ?_⟩
  · intro u hu; rw [p1, p2]; exact w.termsLt u hu
  · intro u hu
    obtain ⟨y, a, b, c⟩ := w.listed u hu
    exact ⟨y, by rw [p3]; exact a, b, (tm y).mem_iff.2 c⟩
  · intro y hy u hu
    rw [p3]; exact w.mine y hy u ((tm y).mem_iff.1 hu)
  · intro y hy; exact (tm y).nodup_iff.2 (w.secNodup y hy)
  · intro k y hy; rw [p1, p4]; exact w.secOk k y hy
  · intro y hy; rw [p1, p5, p6, p7]; exact w.noCol y hy
  · intro y hy; rw [p1, p2, p8]; exact w.secName y hy
  · intro i c; rw [p9, p1]; exact w.kid i c
  · intro i; rw [p9]; exact w.fresh i
  · intro i hi y; rw [p3, p1]; exact w.secLt i hi y
  · intro i; rw [p10]; exact w.noDecl i

/-- Another table of sections, with the same entries. -/
theorem Inv.sections {s : St} (w : Inv s) {d : Dict Nat} (hd : ∀ k, d.get? k = s.sections.get? k) (hn : d.keys.Nodup) :
    Inv { s with sections := d } := by
  have h : ∀ x, HasSec { s with sections := d } x ↔ HasSec s x := fun x => by
    show (∃ k, d.get? k = some x) ↔ (∃ k, s.sections.get? k = some x)
    simp only [hd]
  refine ⟨w.rootLt, w.termsLt, w.termsNodup, ?_, fun x hx => w.mine x ((h x).1 hx), fun x hx => w.secNodup x ((h x).1 hx), ?_, hn,
    w.noCol, w.secName, w.kid, w.fresh, w.secLt, w.decl, w.noSuper, w.noDerived, w.noDecl⟩
  · intro t ht
    obtain ⟨x, a, b, c⟩ := w.listed t ht
    exact ⟨x, a, (h x).2 b, c⟩
  · intro k x hk
    exact w.secOk k x ((hd k).symm.trans hk)

/-- A new section without terms. -/
theorem Inv.register {s : St} (w : Inv s) {x : Nat} {n : Str} (hx : x < s.next) (hc : (s.heap x).cls.isSection = true)
    (hv : (s.heap x).value = .str n) (hn : s.sections.get? (lower n) = none) (ht : (s.heap x).terms = []) :
    Inv { s with sections := s.sections.set (lower n) x } := by
  have hg : ∀ k y, (s.sections.set (lower n) x).get? k = some y → (k = lower n ∧ y = x) ∨ s.sections.get? k = some y := by
    intro k y h
    rw [Dict.get?_set] at h
    split at h
    · next e => cases h; exact .inl ⟨e.symm, rfl⟩
    · exact .inr h
  have hi : ∀ y, HasSec s y → HasSec { s with sections := s.sections.set (lower n) x } y := by
    intro y ⟨k, hk⟩
    refine ⟨k, ?_⟩
    show (s.sections.set (lower n) x).get? k = _
    rw [Dict.get?_set, if_neg]
    · exact hk
    · intro e; rw [← e, hn] at hk; cases hk
  have ho : ∀ y, HasSec { s with sections := s.sections.set (lower n) x } y → y = x ∨ HasSec s y := by
    intro y ⟨k, hk⟩
    rcases hg k y hk with h | h
    · exact .inl h.2
    · exact .inr ⟨k, h⟩
  refine ⟨w.rootLt, w.termsLt, w.termsNodup, ?_, ?_, ?_, ?_, Dict.nodup_set w.keysNodup _ _,
    w.noCol, w.secName, w.kid, w.fresh, w.secLt, w.decl, w.noSuper, w.noDerived, w.noDecl⟩
  · intro t h
    obtain ⟨y, a, b, c⟩ := w.listed t h
    exact ⟨y, a, hi y b, c⟩
  · intro y hy t h
    rcases ho y hy with e | hy
    · subst e
      have h' : t ∈ (s.heap y).terms := h
      rw [ht] at h'; cases h'
    · exact w.mine y hy t h
  · intro y hy
    rcases ho y hy with e | hy
    · subst e
      show (s.heap y).terms.Nodup
      rw [ht]; exact List.nodup_nil
    · exact w.secNodup y hy
  · intro k y hy
    rcases hg k y hy with ⟨rfl, rfl⟩ | h
    · exact ⟨hx, hc, n, hv, rfl⟩
    · exact w.secOk k y h

theorem evo_register {s : St} {x : Nat} {n : Str} (hn : s.sections.get? (lower n) = none) :
    Evo s { s with sections := s.sections.set (lower n) x } := by
  refine ⟨Nat.le_refl _, rfl, fun _ _ => rfl, fun y ⟨k, hk⟩ => ⟨k, ?_⟩⟩
  show (s.sections.set (lower n) x).get? k = _
  rw [Dict.get?_set, if_neg]
  · exact hk
  · intro e; rw [← e, hn] at hk; cases hk

/-- A section leaves the document together with the terms of its list. -/
theorem Inv.unregister {s : St} (w : Inv s) {k : Str} {x : Nat} (hx : s.sections.get? k = some x) {l : List Nat}
    (hl : ∀ t, t ∈ l ↔ t ∈ s.terms ∧ t ∉ (s.heap x).terms) (hn : l.Nodup) : Inv { s with terms := l, sections := s.sections.del k } := by
  have hg : ∀ j y, (s.sections.del k).get? j = some y ↔ j ≠ k ∧ s.sections.get? j = some y := by
    intro j y
    rw [Dict.get?_del w.keysNodup]
    split
    · next e => subst e; simp
    · next e => exact ⟨fun h => ⟨fun e' => e e'.symm, h⟩, fun h => h.2⟩
  have hd : ∀ y, HasSec { s with terms := l, sections := s.sections.del k } y ↔ HasSec s y ∧ y ≠ x := by
    intro y
    constructor
    · rintro ⟨j, hj⟩
      obtain ⟨h1, h2⟩ := (hg j y).1 hj
      refine ⟨⟨j, h2⟩, fun e => h1 ?_⟩
      subst e
      obtain ⟨_, _, n, hv, e1⟩ := w.secOk j y h2
      obtain ⟨_, _, m, hv', e2⟩ := w.secOk k y hx
      rw [hv] at hv'; cases hv'
      rw [← e1, ← e2]
    · rintro ⟨⟨j, hj⟩, hne⟩
      refine ⟨j, (hg j y).2 ⟨fun e => hne ?_, hj⟩⟩
      subst e
      rw [hx] at hj; cases hj; rfl
  refine ⟨w.rootLt, fun t ht => w.termsLt t ((hl t).1 ht).1, hn, ?_, ?_, fun y hy => w.secNodup y ((hd y).1 hy).1, ?_, Dict.nodup_del w.keysNodup _,
    w.noCol, w.secName, w.kid, w.fresh, w.secLt, w.decl, w.noSuper, w.noDerived, w.noDecl⟩
  · intro t ht
    obtain ⟨h1, h2⟩ := (hl t).1 ht
    obtain ⟨y, a, b, c⟩ := w.listed t h1
    exact ⟨y, a, (hd y).2 ⟨b, fun e => h2 (e ▸ c)⟩, c⟩
  · intro y hy t ht
    obtain ⟨h1, h2⟩ := (hd y).1 hy
    obtain ⟨a, b⟩ := w.mine y h1 t ht
    refine ⟨(hl t).2 ⟨a, fun h => h2 ?_⟩, b⟩
    have := (w.mine x ⟨k, hx⟩ t h).2
    have b' : (s.heap t).sec = some y := b
    rw [b'] at this; cases this; rfl
  · intro j y hj
    exact w.secOk j y ((hg j y).1 hj).2

end Metatab
