import Verif.Lemmas.Monad
import Verif.Lemmas.Dict
import Verif.Lemmas.Str
import Mathlib.Logic.Relation
/-! # Elementary state changes

Every operation of the model changes the state by a sequence of elementary steps. Invariants of all histories are proved about the
steps only. -/
namespace Metatab
open Py

/-- What a sequence of steps may do. -/
structure Cap where
  /-- children are only attached as the parser and `new_child` do -/
  strict : Prop
  /-- which children may be attached to which terms -/
  att : Nat → Nat → Prop
  /-- the parser's local state may change -/
  par : Prop
  /-- the declaration tables and the class registry may change -/
  tab : Prop
  /-- the section of a listed term may be taken away -/
  unsec : Prop

/-- No term lists `c` as a child. -/
def Free (s : St) (c : Nat) : Prop := ∀ i, c ∉ (s.heap i).children

/-- Two objects that only differ in attributes no invariant mentions. -/
structure SameLinks (o o' : Obj) : Prop where
  cls : o'.cls = o.cls
  pt : o'.pt = o.pt
  rt : o'.rt = o.rt
  parent : o'.parent = o.parent
  sec : o'.sec = o.sec
  children : o'.children = o.children
  terms : o'.terms = o.terms

/-- A name in lower case. -/
def Low (n : Str) : Prop := lower n = n

/-- A term that searches can look at: one with a section, or one called `root.root`. -/
def Sited (o : Obj) : Prop := o.sec.isSome = true ∨ o.joinLc = py!"root.root"

/-- One elementary step. -/
inductive Step (C : Cap) : St → St → Prop
  | alloc {s} (o : Obj) (hc : o.children = []) (ht : o.terms = []) (hp : ∀ q, o.parent = some q → q < s.next)
      (hs : ∀ x, o.sec = some x → x < s.next ∧ (s.heap x).cls.isSection = true) (hn : Low o.pt ∧ Low o.rt) :
      Step C s ({ s with next := s.next + 1 }.setObj s.next o)
  | attrs {s} (i : Nat) (o : Obj) (hi : i < s.next) (h : SameLinks (s.heap i) o) : Step C s (s.setObj i o)
  | rename {s} (i : Nat) (p r : Str) (hi : i < s.next) (h : C.strict → i ∉ (s.heap i).children) (hn : Low p ∧ Low r)
      (ht : i ∈ s.terms → (s.heap i).joinLc ≠ py!"root.root") :
      Step C s (s.setObj i { s.heap i with pt := p, rt := r })
  | setSec {s} (i : Nat) (v : Option Nat) (hi : i < s.next) (h : ∀ x, v = some x → x < s.next ∧ (s.heap x).cls.isSection = true)
      (hu : v = none → i ∈ s.terms → C.unsec) :
      Step C s (s.setObj i { s.heap i with sec := v })
  | setParent {s} (i q : Nat) (hi : i < s.next) (hq : q < s.next) (ha : C.att q i) (h : C.strict → Free s i) :
      Step C s (s.setObj i { s.heap i with parent := some q })
  | attach {s} (t c : Nat) (ht : t < s.next) (hc : c < s.next) (ha : C.att t c)
      (h : C.strict → (t < c ∨ (t = c ∧ (s.heap c).pt = (s.heap c).rt)) ∧ (s.heap c).cls.isSection = false ∧ (s.heap c).parent = some t ∧
        Free s c) :
      Step C s (s.setObj t { s.heap t with children := (s.heap t).children ++ [c] })
  | detach {s} (t c : Nat) (ht : t < s.next) : Step C s (s.setObj t { s.heap t with children := (s.heap t).children.erase c })
  | list {s} (x t : Nat) (hx : x < s.next) (ht : t < s.next) (h : t ∉ (s.heap x).terms) :
      Step C s (s.setObj x { s.heap x with terms := (s.heap x).terms ++ [t] })
  | unlist {s} (x t : Nat) (hx : x < s.next) : Step C s (s.setObj x { s.heap x with terms := (s.heap x).terms.erase t })
  | relist {s} (x : Nat) (l : List Nat) (hx : x < s.next) (h : l.Perm (s.heap x).terms) :
      Step C s (s.setObj x { s.heap x with terms := l })
  | docAdd {s} (t : Nat) (ht : t < s.next) (hs : (s.heap t).cls.isSection = false) (h : t ∉ s.terms) (hl : Sited (s.heap t)) :
      Step C s { s with terms := s.terms ++ [t] }
  | docDel {s} (t : Nat) : Step C s { s with terms := s.terms.erase t }
  | secAdd {s} (n : Str) (x : Nat) (hx : x < s.next) (hs : (s.heap x).cls.isSection = true) :
      Step C s { s with sections := s.sections.set (lower n) x }
  | secDel {s} (n : Str) : Step C s { s with sections := s.sections.del n }
  | secPerm {s} (d : Dict Nat) (h : d.Perm s.sections) : Step C s { s with sections := d }
  | parser {s} (p : PSt) (hC : C.par) (hs : p.lastSec < s.next ∧ (s.heap p.lastSec).cls.isSection = true)
      (hm : ∀ kv ∈ p.lastMap, kv.2 < s.next) (hn : (∀ n ∈ p.paramMap, Low n) ∧ Low p.lastParent) : Step C s { s with p := p }
  | tables {s} (dt : Dict DTerm) (ds : Dict DSec) (st : Dict Str) (dv : Dict (List Str)) (cl : Dict Cls) (hC : C.tab) :
      Step C s { s with declTerms := dt, declSecs := ds, superTerms := st, derived := dv, classes := cl }

/-- A sequence of steps. -/
abbrev Steps (C : Cap) : St → St → Prop := Relation.ReflTransGen (Step C)

/-- The invariant of all states. The last four clauses say that children form trees whose parents are older than their children, apart
from terms that are their own child; they hold as long as children are not attached by hand. -/
structure WF (F : Prop) (s : St) : Prop where
  rootLt : s.root < s.next
  rootSec : (s.heap s.root).cls.isSection = true
  blank : ∀ i, s.next ≤ i → s.heap i = Obj.blank
  termsLt : ∀ t ∈ s.terms, t < s.next ∧ (s.heap t).cls.isSection = false
  termsNodup : s.terms.Nodup
  secsLt : ∀ kv ∈ s.sections, kv.2 < s.next ∧ (s.heap kv.2).cls.isSection = true ∧ lower kv.1 = kv.1
  secsNodup : s.sections.keys.Nodup
  secTermsLt : ∀ x, ∀ t ∈ (s.heap x).terms, t < s.next
  secTermsNodup : ∀ x, (s.heap x).terms.Nodup
  kidLt : ∀ i, ∀ c ∈ (s.heap i).children, c < s.next
  parLt : ∀ i q, (s.heap i).parent = some q → q < s.next
  secLt : ∀ i x, (s.heap i).sec = some x → x < s.next ∧ (s.heap x).cls.isSection = true
  pSec : s.p.lastSec < s.next ∧ (s.heap s.p.lastSec).cls.isSection = true
  pMap : ∀ kv ∈ s.p.lastMap, kv.2 < s.next
  low : ∀ i, Low (s.heap i).pt ∧ Low (s.heap i).rt
  pLow : (∀ n ∈ s.p.paramMap, Low n) ∧ Low s.p.lastParent
  edge : F → ∀ i, ∀ c ∈ (s.heap i).children, i < c ∨ (i = c ∧ (s.heap c).pt = (s.heap c).rt)
  kidSec : F → ∀ i, ∀ c ∈ (s.heap i).children, (s.heap c).cls.isSection = false
  kidPar : F → ∀ i, ∀ c ∈ (s.heap i).children, (s.heap c).parent = some i
  kidNodup : F → ∀ i, (s.heap i).children.Nodup

/-- What every sequence of steps leaves alone. -/
structure Ext (C : Cap) (s s' : St) : Prop where
  env : s'.env = s.env
  root : s'.root = s.root
  next : s.next ≤ s'.next
  cls : ∀ i, i < s.next → (s'.heap i).cls = (s.heap i).cls
  par : ¬ C.par → s'.p = s.p
  tab : ¬ C.tab → s'.declTerms = s.declTerms ∧ s'.declSecs = s.declSecs ∧ s'.superTerms = s.superTerms ∧ s'.derived = s.derived ∧
    s'.classes = s.classes

theorem Ext.refl (C : Cap) (s : St) : Ext C s s := ⟨rfl, rfl, Nat.le_refl _, fun _ _ => rfl, fun _ => rfl, fun _ => ⟨rfl, rfl, rfl, rfl, rfl⟩⟩
theorem Ext.trans {C : Cap} {a b c : St} (h : Ext C a b) (k : Ext C b c) : Ext C a c where
  env := k.env.trans h.env
  root := k.root.trans h.root
  next := Nat.le_trans h.next k.next
  cls i hi := (k.cls i (Nat.lt_of_lt_of_le hi h.next)).trans (h.cls i hi)
  par hp := (k.par hp).trans (h.par hp)
  tab ht := by
    obtain ⟨a1, a2, a3, a4, a5⟩ := h.tab ht
    obtain ⟨b1, b2, b3, b4, b5⟩ := k.tab ht
    exact ⟨b1.trans a1, b2.trans a2, b3.trans a3, b4.trans a4, b5.trans a5⟩

theorem ext_setObj {C : Cap} {s : St} {i : Nat} {o : Obj} (h : o.cls = (s.heap i).cls) : Ext C s (s.setObj i o) := by
  refine ⟨rfl, rfl, Nat.le_refl _, ?_, fun _ => rfl, fun _ => ⟨rfl, rfl, rfl, rfl, rfl⟩⟩
  intro j _
  rw [heap_setObj]; split
  · next e => rw [h, e]
  · rfl

theorem Step.ext {C : Cap} {s s' : St} (h : Step C s s') : Ext C s s' := by
  cases h with
  | alloc o =>
    refine ⟨rfl, rfl, Nat.le_succ _, ?_, fun _ => rfl, fun _ => ⟨rfl, rfl, rfl, rfl, rfl⟩⟩
    intro j hj
    rw [heap_setObj, if_neg (Nat.ne_of_lt hj)]
  | attrs i o hi h => exact ext_setObj h.cls
  | rename | setSec | setParent | attach | detach | list | unlist | relist => exact ext_setObj rfl
  | docAdd | docDel | secAdd | secDel | secPerm => exact ⟨rfl, rfl, Nat.le_refl _, fun _ _ => rfl, fun _ => rfl, fun _ => ⟨rfl, rfl, rfl, rfl, rfl⟩⟩
  | parser p hC => exact ⟨rfl, rfl, Nat.le_refl _, fun _ _ => rfl, fun h => absurd hC h, fun _ => ⟨rfl, rfl, rfl, rfl, rfl⟩⟩
  | tables _ _ _ _ _ hC => exact ⟨rfl, rfl, Nat.le_refl _, fun _ _ => rfl, fun _ => rfl, fun h => absurd hC h⟩

theorem Steps.ext {C : Cap} {s s' : St} (h : Steps C s s') : Ext C s s' := by
  induction h with
  | refl => exact Ext.refl C s
  | tail _ h ih => exact ih.trans h.ext

/-- Changing an object to one with the same links keeps everything. -/
theorem WF.setObj {F : Prop} {s : St} (w : WF F s) {i : Nat} {o : Obj} (hi : i < s.next)
    (hcls : o.cls = (s.heap i).cls) (hlow : Low o.pt ∧ Low o.rt)
    (hkid : ∀ c ∈ o.children, c < s.next)
    (hpar : ∀ q, o.parent = some q → q < s.next)
    (hsec : ∀ x, o.sec = some x → x < s.next ∧ (s.heap x).cls.isSection = true)
    (hterms : ∀ t ∈ o.terms, t < s.next) (hnodup : o.terms.Nodup)
    (hF : F → (∀ c ∈ o.children, c ∈ (s.heap i).children ∨ ((i < c ∨ (i = c ∧ o.pt = o.rt)) ∧ (s.heap c).cls.isSection = false ∧
        (if c = i then o.parent else (s.heap c).parent) = some i)) ∧ o.children.Nodup ∧
        ((∀ j, i ∉ (s.heap j).children) ∨ o.parent = (s.heap i).parent) ∧
        (i ∉ (s.heap i).children ∨ (o.pt = (s.heap i).pt ∧ o.rt = (s.heap i).rt))) :
    WF F (s.setObj i o) := by
  have cls' : ∀ j, ((s.setObj i o).heap j).cls = (s.heap j).cls := by
    intro j; rw [heap_setObj]; split
    · next e => rw [hcls, e]
    · rfl
  refine ⟨w.rootLt, ?_, ?_, ?_, w.termsNodup, ?_, w.secsNodup, ?_, ?_, ?_, ?_, ?_, ?_, w.pMap, ?_, w.pLow, ?_, ?_, ?_, ?_⟩
  · rw [cls']; exact w.rootSec
  · intro j hj
    rw [heap_setObj, if_neg (Nat.ne_of_gt (Nat.lt_of_lt_of_le hi hj))]; exact w.blank j hj
  · intro t ht; rw [cls']; exact w.termsLt t ht
  · intro kv hkv; rw [cls']; exact w.secsLt kv hkv
  · intro x t; rw [heap_setObj]; split
    · exact hterms t
    · exact w.secTermsLt x t
  · intro x; rw [heap_setObj]; split
    · exact hnodup
    · exact w.secTermsNodup x
  · intro x t; rw [heap_setObj]; split
    · exact hkid t
    · exact w.kidLt x t
  · intro x t; rw [heap_setObj]; split
    · exact hpar t
    · exact w.parLt x t
  · intro j x; rw [cls', heap_setObj]; split
    · exact hsec x
    · exact w.secLt j x
  · rw [cls']; exact w.pSec
  · intro j; rw [heap_setObj]; split
    · exact hlow
    · exact w.low j
  · intro f j c hc
    obtain ⟨h1, _, _, h4⟩ := hF f
    have key : c ∈ (s.heap j).children → j < c ∨ (j = c ∧ ((s.setObj i o).heap c).pt = ((s.setObj i o).heap c).rt) := by
      intro h
      rcases w.edge f j c h with hlt | ⟨e, hn⟩
      · exact .inl hlt
      · refine .inr ⟨e, ?_⟩
        rw [heap_setObj]; split
        · next e' =>
          subst e'; subst e
          rcases h4 with h4 | ⟨a, b⟩
          · exact absurd h h4
          · rw [a, b]; exact hn
        · exact hn
    rw [heap_setObj] at hc; split at hc
    · next e =>
      subst e
      rcases h1 c hc with h | ⟨h | ⟨e, hn⟩, _⟩
      · exact key h
      · exact .inl h
      · refine .inr ⟨e, ?_⟩
        rw [heap_setObj, if_pos e.symm]; exact hn
    · exact key hc
  · intro f j c hc
    rw [cls']
    obtain ⟨h1, _⟩ := hF f
    rw [heap_setObj] at hc; split at hc
    · rcases h1 c hc with h | ⟨_, h, _⟩
      · exact w.kidSec f i c h
      · exact h
    · exact w.kidSec f j c hc
  · intro f j c hc
    obtain ⟨h1, _, h3, _⟩ := hF f
    have key : c ∈ (s.heap j).children → ((s.setObj i o).heap c).parent = some j := by
      intro h
      have := w.kidPar f j c h
      rw [heap_setObj]; split
      · next e =>
        subst e
        rcases h3 with h3 | h3
        · exact absurd h (h3 j)
        · rw [h3]; exact this
      · exact this
    rw [heap_setObj] at hc; split at hc
    · next e =>
      subst e
      rcases h1 c hc with h | ⟨_, _, h⟩
      · exact key h
      · rw [heap_setObj]
        split
        · next e => rw [if_pos e] at h; exact h
        · next e => rw [if_neg e] at h; exact h
    · exact key hc
  · intro f j
    obtain ⟨_, h2, _⟩ := hF f
    rw [heap_setObj]; split
    · exact h2
    · exact w.kidNodup f j

theorem Step.wf {C : Cap} {s s' : St} (h : Step C s s') (w : WF C.strict s) : WF C.strict s' := by
  cases h with
  | alloc o hc ht hp hs hn =>
    have old : ∀ j, j < s.next → ({ s with next := s.next + 1 }.setObj s.next o).heap j = s.heap j := by
      intro j hj; rw [heap_setObj, if_neg (Nat.ne_of_lt hj)]
    have new : ({ s with next := s.next + 1 }.setObj s.next o).heap s.next = o := by rw [heap_setObj, if_pos rfl]
    have kids : ∀ j c, c ∈ (({ s with next := s.next + 1 }.setObj s.next o).heap j).children → c ∈ (s.heap j).children := by
      intro j c; rw [heap_setObj]; split
      · rw [hc]; intro h; cases h
      · exact id
    have up : ∀ {n}, n < s.next → n < s.next + 1 := fun h => Nat.lt_succ_of_lt h
    refine ⟨up w.rootLt, ?_, ?_, ?_, w.termsNodup, ?_, w.secsNodup, ?_, ?_, ?_, ?_, ?_, ?_, ?_, ?_, w.pLow, ?_, ?_, ?_, ?_⟩
    · show ((St.setObj _ _ _).heap s.root).cls.isSection = true
      rw [old _ w.rootLt]; exact w.rootSec
    · intro i hi
      have hi : s.next + 1 ≤ i := hi
      rw [heap_setObj, if_neg (by omega)]; exact w.blank i (by omega)
    · intro t h
      have := w.termsLt t h
      exact ⟨up this.1, by rw [old _ this.1]; exact this.2⟩
    · intro kv h
      have := w.secsLt kv h
      exact ⟨up this.1, by rw [old _ this.1]; exact this.2⟩
    · intro x t; rw [heap_setObj]; split
      · rw [ht]; intro h; cases h
      · exact fun h => up (w.secTermsLt x t h)
    · intro x; rw [heap_setObj]; split
      · rw [ht]; exact List.nodup_nil
      · exact w.secTermsNodup x
    · exact fun i c h => up (w.kidLt i c (kids i c h))
    · intro i q; rw [heap_setObj]; split
      · exact fun h => up (hp q h)
      · exact fun h => up (w.parLt i q h)
    · intro i x h
      have : x < s.next ∧ (s.heap x).cls.isSection = true := by
        rw [heap_setObj] at h; split at h
        · exact hs x h
        · exact w.secLt i x h
      exact ⟨up this.1, by rw [old _ this.1]; exact this.2⟩
    · exact ⟨up w.pSec.1, by show ((St.setObj _ _ _).heap s.p.lastSec).cls.isSection = true; rw [old _ w.pSec.1]; exact w.pSec.2⟩
    · exact fun kv h => up (w.pMap kv h)
    · intro i; rw [heap_setObj]; split
      · exact hn
      · exact w.low i
    · intro f i c h
      have hk := kids i c h
      rw [old c (w.kidLt i c hk)]
      exact w.edge f i c hk
    · intro f i c h
      have hk := kids i c h
      rw [old c (w.kidLt i c hk)]
      exact w.kidSec f i c hk
    · intro f i c h
      have hk := kids i c h
      rw [old c (w.kidLt i c hk)]
      exact w.kidPar f i c hk
    · intro f i; rw [heap_setObj]; split
      · rw [hc]; exact List.nodup_nil
      · exact w.kidNodup f i
  | attrs i o hi h =>
    refine w.setObj hi h.cls (by rw [h.pt, h.rt]; exact w.low i) ?_ ?_ ?_ ?_ ?_ ?_
    · rw [h.children]; exact w.kidLt i
    · rw [h.parent]; exact w.parLt i
    · rw [h.sec]; exact w.secLt i
    · rw [h.terms]; exact w.secTermsLt i
    · rw [h.terms]; exact w.secTermsNodup i
    · intro f
      rw [h.children, h.parent, h.pt, h.rt]
      exact ⟨fun c hc => .inl hc, w.kidNodup f i, .inr rfl, .inr ⟨rfl, rfl⟩⟩
  | rename i p r hi h hn _ =>
    exact w.setObj hi rfl hn (w.kidLt i) (w.parLt i) (w.secLt i) (w.secTermsLt i) (w.secTermsNodup i)
      fun f => ⟨fun c hc => .inl hc, w.kidNodup f i, .inr rfl, .inl (h f)⟩
  | setSec i v hi h _ =>
    exact w.setObj hi rfl (w.low i) (w.kidLt i) (w.parLt i) h (w.secTermsLt i) (w.secTermsNodup i)
      fun f => ⟨fun c hc => .inl hc, w.kidNodup f i, .inr rfl, .inr ⟨rfl, rfl⟩⟩
  | setParent i q hi hq _ h =>
    exact w.setObj hi rfl (w.low i) (w.kidLt i) (by intro q' e; cases e; exact hq) (w.secLt i) (w.secTermsLt i) (w.secTermsNodup i)
      fun f => ⟨fun c hc => .inl hc, w.kidNodup f i, .inl (h f), .inr ⟨rfl, rfl⟩⟩
  | attach t c ht hc ha h =>
    refine w.setObj ht rfl (w.low t) ?_ (w.parLt t) (w.secLt t) (w.secTermsLt t) (w.secTermsNodup t) ?_
    · intro d hd
      rcases List.mem_append.1 hd with hd | hd
      · exact w.kidLt t d hd
      · rw [List.mem_singleton.1 hd]; exact hc
    · intro f
      obtain ⟨h1, h2, h3, h4⟩ := h f
      refine ⟨?_, ?_, .inr rfl, .inr ⟨rfl, rfl⟩⟩
      · intro d hd
        rcases List.mem_append.1 hd with hd | hd
        · exact .inl hd
        · rw [List.mem_singleton.1 hd]
          refine .inr ⟨?_, h2, ?_⟩
          · rcases h1 with h1 | ⟨e, h1⟩
            · exact .inl h1
            · subst e; exact .inr ⟨rfl, h1⟩
          · split
            · next e => subst e; exact h3
            · exact h3
      · rw [List.nodup_append]
        refine ⟨w.kidNodup f t, List.nodup_singleton c, ?_⟩
        intro a ha' b hb e
        rw [List.mem_singleton.1 hb] at e
        subst e
        exact h4 t ha'
  | detach t c ht =>
    have hsub : ∀ d ∈ (s.heap t).children.erase c, d ∈ (s.heap t).children := fun d hd => List.mem_of_mem_erase hd
    exact w.setObj ht rfl (w.low t) (fun d hd => w.kidLt t d (hsub d hd)) (w.parLt t) (w.secLt t) (w.secTermsLt t) (w.secTermsNodup t)
      fun f => ⟨fun d hd => .inl (hsub d hd), (w.kidNodup f t).erase c, .inr rfl, .inr ⟨rfl, rfl⟩⟩
  | list x t hx ht h =>
    refine w.setObj hx rfl (w.low x) (w.kidLt x) (w.parLt x) (w.secLt x) ?_ ?_
      fun f => ⟨fun d hd => .inl hd, w.kidNodup f x, .inr rfl, .inr ⟨rfl, rfl⟩⟩
    · intro d hd
      rcases List.mem_append.1 hd with hd | hd
      · exact w.secTermsLt x d hd
      · rw [List.mem_singleton.1 hd]; exact ht
    · rw [List.nodup_append]
      refine ⟨w.secTermsNodup x, List.nodup_singleton t, ?_⟩
      intro a ha b hb e
      rw [List.mem_singleton.1 hb] at e
      subst e
      exact h ha
  | unlist x t hx =>
    exact w.setObj hx rfl (w.low x) (w.kidLt x) (w.parLt x) (w.secLt x) (fun d hd => w.secTermsLt x d (List.mem_of_mem_erase hd))
      ((w.secTermsNodup x).erase t) fun f => ⟨fun d hd => .inl hd, w.kidNodup f x, .inr rfl, .inr ⟨rfl, rfl⟩⟩
  | relist x l hx h =>
    exact w.setObj hx rfl (w.low x) (w.kidLt x) (w.parLt x) (w.secLt x) (fun d hd => w.secTermsLt x d (h.mem_iff.1 hd))
      (h.nodup_iff.2 (w.secTermsNodup x)) fun f => ⟨fun d hd => .inl hd, w.kidNodup f x, .inr rfl, .inr ⟨rfl, rfl⟩⟩
  | docAdd t ht hs h _ =>
    refine { w with termsLt := ?_, termsNodup := ?_ }
    · intro d hd
      rcases List.mem_append.1 hd with hd | hd
      · exact w.termsLt d hd
      · rw [List.mem_singleton.1 hd]; exact ⟨ht, hs⟩
    · show (s.terms ++ [t]).Nodup
      rw [List.nodup_append]
      refine ⟨w.termsNodup, List.nodup_singleton t, ?_⟩
      intro a ha b hb e
      rw [List.mem_singleton.1 hb] at e
      subst e
      exact h ha
  | docDel t =>
    exact { w with termsLt := fun d hd => w.termsLt d (List.mem_of_mem_erase hd), termsNodup := w.termsNodup.erase t }
  | secAdd n x hx hs =>
    refine { w with secsLt := ?_, secsNodup := Dict.nodup_set w.secsNodup _ _ }
    intro kv hkv
    have hk := Dict.nodup_set w.secsNodup (lower n) x
    have hg := Dict.get?_of_mem hk hkv
    rw [Dict.get?_set] at hg
    split at hg
    · next e => cases hg; exact ⟨hx, hs, by rw [← e]; exact lower_lower n⟩
    · exact w.secsLt kv (Dict.mem_of_get? hg)
  | secDel n =>
    refine { w with secsLt := ?_, secsNodup := Dict.nodup_del w.secsNodup _ }
    intro kv hkv
    have hkv : kv ∈ s.sections.del n := hkv
    rw [Dict.del_eq_filter w.secsNodup] at hkv
    exact w.secsLt kv (List.mem_filter.1 hkv).1
  | secPerm d h =>
    exact { w with secsLt := fun kv hkv => w.secsLt kv (h.mem_iff.1 hkv), secsNodup := (h.map _).nodup_iff.2 w.secsNodup }
  | parser p hC hs hm hn => exact { w with pSec := hs, pMap := hm, pLow := hn }
  | tables => exact { w with }

theorem Steps.wf {C : Cap} {s s' : St} (h : Steps C s s') (w : WF C.strict s) : WF C.strict s' := by
  induction h with
  | refl => exact w
  | tail _ h ih => exact h.wf ih

/-- Every listed term is one that searches can look at. -/
def AllSited (s : St) : Prop := ∀ t ∈ s.terms, Sited (s.heap t)

theorem Step.sited {C : Cap} {s s' : St} (h : Step C s s') (hC : ¬ C.unsec) {F : Prop} (w : WF F s) (k : AllSited s) : AllSited s' := by
  have same : ∀ {i : Nat} {o : Obj}, (i ∈ s.terms → Sited (s.heap i) → Sited o) → AllSited (s.setObj i o) := by
    intro i o ho t ht
    rw [heap_setObj]; split
    · next e => subst e; exact ho ht (k _ ht)
    · exact k t ht
  cases h with
  | alloc o =>
    intro t ht
    have ht : t ∈ s.terms := ht
    rw [heap_setObj, if_neg (Nat.ne_of_lt (w.termsLt t ht).1)]; exact k t ht
  | attrs i o hi h =>
    refine same fun _ hs => ?_
    rcases hs with hs | hs
    · exact .inl (by rw [h.sec]; exact hs)
    · refine .inr ?_
      unfold Obj.joinLc at hs ⊢
      rw [h.pt, h.rt]; exact hs
  | rename i p r hi h hn ht => exact same fun hi hs => .inl (hs.resolve_right (ht hi))
  | setSec i v hi h hu =>
    refine same fun hi _ => .inl ?_
    cases v with
    | none => exact absurd (hu rfl hi) hC
    | some x => rfl
  | setParent | attach | detach | list | unlist | relist => exact same fun _ hs => hs
  | docAdd t ht hs h hl =>
    intro d hd
    rcases List.mem_append.1 hd with hd | hd
    · exact k d hd
    · rw [List.mem_singleton.1 hd]; exact hl
  | docDel t => exact fun d hd => k d (List.mem_of_mem_erase hd)
  | secAdd | secDel | secPerm | parser | tables => exact k

theorem Steps.sited {C : Cap} {s s' : St} (h : Steps C s s') (hC : ¬ C.unsec) (w : WF C.strict s) (k : AllSited s) : AllSited s' := by
  induction h with
  | refl => exact k
  | tail h1 h ih => exact h.sited hC (Steps.wf h1 w) ih

theorem Steps.trans {C : Cap} {a b c : St} (h : Steps C a b) (k : Steps C b c) : Steps C a c := Relation.ReflTransGen.trans h k
theorem Steps.tail {C : Cap} {a b c : St} (h : Steps C a b) (k : Step C b c) : Steps C a c := Relation.ReflTransGen.tail h k
theorem Steps.one {C : Cap} {s s' : St} (h : Step C s s') : Steps C s s' := .single h

/-- Steps with fewer permissions are steps with more. -/
theorem Step.mono {C D : Cap} {s s' : St} (h : Step C s s') (hs : D.strict → C.strict) (ha : ∀ t c, C.att t c → D.att t c)
    (hp : C.par → D.par) (ht : C.tab → D.tab) (hu : C.unsec → D.unsec) : Step D s s' := by
  cases h with
  | alloc o a b c d e => exact .alloc o a b c d e
  | attrs i o a b => exact .attrs i o a b
  | rename i p r a b c d => exact .rename i p r a (fun f => b (hs f)) c d
  | setSec i v a b c => exact .setSec i v a b fun x y => hu (c x y)
  | setParent i q a b d c => exact .setParent i q a b (ha _ _ d) fun f => c (hs f)
  | attach t c a b d e => exact .attach t c a b (ha _ _ d) fun f => e (hs f)
  | detach t c a => exact .detach t c a
  | list x t a b c => exact .list x t a b c
  | unlist x t a => exact .unlist x t a
  | relist x l a b => exact .relist x l a b
  | docAdd t a b c d => exact .docAdd t a b c d
  | docDel t => exact .docDel t
  | secAdd n x a b => exact .secAdd n x a b
  | secDel n => exact .secDel n
  | secPerm d a => exact .secPerm d a
  | parser p a b c d => exact .parser p (hp a) b c d
  | tables a b c d e f => exact .tables a b c d e (ht f)

theorem Steps.mono {C D : Cap} {s s' : St} (h : Steps C s s') (hs : D.strict → C.strict) (ha : ∀ t c, C.att t c → D.att t c)
    (hp : C.par → D.par) (ht : C.tab → D.tab) (hu : C.unsec → D.unsec) : Steps D s s' := by
  induction h with
  | refl => exact .refl
  | tail _ h ih => exact ih.tail (h.mono hs ha hp ht hu)

/-- Attaching only objects from `n` on keeps the children of every object among the older ones. -/
theorem Step.oldKids {C : Cap} {n : Nat} (hC : ∀ t c, C.att t c → n ≤ c) {s s' : St} (h : Step C s s') {i c : Nat} (hc : c < n)
    (hk : c ∈ (s'.heap i).children) : c ∈ (s.heap i).children := by
  cases h with
  | alloc o a _ _ _ _ =>
    rw [heap_setObj] at hk; split at hk
    · rw [a] at hk; cases hk
    · exact hk
  | attrs j o hj h =>
    rw [heap_setObj] at hk; split at hk
    · next e => rw [h.children] at hk; rw [e]; exact hk
    · exact hk
  | rename j | setSec j | setParent j | list j | unlist j | relist j =>
    rw [heap_setObj] at hk; split at hk
    · next e => rw [e]; exact hk
    · exact hk
  | attach t d _ _ ha _ =>
    rw [heap_setObj] at hk; split at hk
    · next e =>
      rcases List.mem_append.1 hk with hk | hk
      · rw [e]; exact hk
      · have := hC t d ha
        rw [List.mem_singleton.1 hk] at hc; omega
    · exact hk
  | detach t d _ =>
    rw [heap_setObj] at hk; split at hk
    · next e => rw [e]; exact List.mem_of_mem_erase hk
    · exact hk
  | docAdd | docDel | secAdd | secDel | secPerm | parser | tables => exact hk

theorem Steps.oldKids {C : Cap} {n : Nat} (hC : ∀ t c, C.att t c → n ≤ c) {s s' : St} (h : Steps C s s') {i c : Nat} (hc : c < n)
    (hk : c ∈ (s'.heap i).children) : c ∈ (s.heap i).children := by
  induction h with
  | refl => exact hk
  | tail _ h ih => exact ih (h.oldKids hC hc hk)

/-- Attaching only objects from `n` on keeps the parents of the older ones. -/
theorem Step.oldParent {C : Cap} {n : Nat} (hC : ∀ t c, C.att t c → n ≤ c) {s s' : St} (h : Step C s s') {i : Nat} (hi : i < n)
    (hn : i < s.next) : (s'.heap i).parent = (s.heap i).parent := by
  cases h with
  | alloc o a _ _ _ _ => rw [heap_setObj, if_neg (Nat.ne_of_lt hn)]
  | attrs j o hj h =>
    rw [heap_setObj]; split
    · next e => rw [h.parent, e]
    · rfl
  | setParent j q _ _ ha _ =>
    have := hC _ _ ha
    rw [heap_setObj, if_neg (by omega)]
  | rename j | setSec j | list j | unlist j | relist j | attach j | detach j =>
    rw [heap_setObj]; split
    · next e => rw [e]
    · rfl
  | docAdd | docDel | secAdd | secDel | secPerm | parser | tables => rfl

theorem Steps.oldParent {C : Cap} {n : Nat} (hC : ∀ t c, C.att t c → n ≤ c) {s s' : St} (h : Steps C s s') {i : Nat} (hi : i < n)
    (hn : i < s.next) : (s'.heap i).parent = (s.heap i).parent := by
  induction h with
  | refl => rfl
  | tail h1 h ih => exact (h.oldParent hC hi (Nat.lt_of_lt_of_le hn (Steps.ext h1).next)).trans ih

/-! ## Computations as sequences of steps -/

/-- From a good state the computation makes steps only, and `Q` holds when it returns. -/
def Tri {α : Type} (C : Cap) (m : M α) (Q : α → St → Prop) (s : St) : Prop :=
  WF C.strict s → wp m (fun a s' => Steps C s s' ∧ Q a s') (fun _ s' => Steps C s s') s

section
variable {α β : Type} {C : Cap} {s : St}

theorem tri_wf {m : M α} {Q : α → St → Prop} (h : WF C.strict s → Tri C m Q s) : Tri C m Q s := fun w => h w w

theorem tri_bind {m : M α} {f : α → M β} {Q : α → St → Prop} {R : β → St → Prop} (hm : Tri C m Q s)
    (hf : ∀ a s', Steps C s s' → Q a s' → Tri C (f a) R s') : Tri C (m >>= f) R s := by
  intro w
  rw [wp_bind]
  refine wp_mono (hm w) ?_ (fun _ _ h => h)
  intro a s' ⟨h1, h2⟩
  exact wp_mono (hf a s' h1 h2 (h1.wf w)) (fun b s2 ⟨h3, h4⟩ => ⟨h1.trans h3, h4⟩) fun _ _ h => h1.trans h

theorem tri_mono {m : M α} {Q R : α → St → Prop} (hm : Tri C m Q s) (h : ∀ a s', Steps C s s' → Q a s' → R a s') : Tri C m R s :=
  fun w => wp_mono (hm w) (fun a s' ⟨h1, h2⟩ => ⟨h1, h a s' h1 h2⟩) fun _ _ h => h

theorem tri_pure {a : α} {Q : α → St → Prop} (h : Q a s) : Tri C (pure a) Q s := fun _ => ⟨.refl, h⟩
theorem tri_mpure {a : α} {Q : α → St → Prop} (h : Q a s) : Tri C (M.pure a) Q s := fun _ => ⟨.refl, h⟩
theorem tri_raise {e : Err} {Q : α → St → Prop} : Tri C (M.raise e : M α) Q s := fun _ => .refl
theorem tri_get {f : St → M β} {Q : β → St → Prop} (h : Tri C (f s) Q s) : Tri C (M.get >>= f) Q s := h
theorem tri_obj {i : Nat} {f : Obj → M β} {Q : β → St → Prop} (h : Tri C (f (s.heap i)) Q s) : Tri C (obj i >>= f) Q s := h
theorem tri_lift {g : St → Except Err α} {f : α → M β} {Q : β → St → Prop} (h : ∀ a, g s = .ok a → Tri C (f a) Q s) :
    Tri C (M.lift g >>= f) Q s := by
  intro w
  rw [wp_bind, wp_lift]
  exact ⟨fun a e => h a e w, fun _ _ => .refl⟩
theorem tri_lift' {g : St → Except Err α} {Q : α → St → Prop} (h : ∀ a, g s = .ok a → Q a s) : Tri C (M.lift g) Q s := by
  intro w
  rw [wp_lift]
  exact ⟨fun a e => ⟨.refl, h a e⟩, fun _ _ => .refl⟩
theorem tri_assert {b : Bool} {f : Unit → M β} {Q : β → St → Prop} (h : b = true → Tri C (f ()) Q s) :
    Tri C (M.assert b >>= f) Q s := by
  intro w
  rw [wp_bind, wp_assert]
  exact ⟨fun e => h e w, fun _ => .refl⟩
theorem tri_assert' {b : Bool} {Q : Unit → St → Prop} (h : b = true → Q () s) : Tri C (M.assert b) Q s := by
  intro w
  rw [wp_assert]
  exact ⟨fun e => ⟨.refl, h e⟩, fun _ => .refl⟩
theorem tri_ite {c : Prop} [Decidable c] {m n : M α} {Q : α → St → Prop} (hm : c → Tri C m Q s) (hn : ¬ c → Tri C n Q s) :
    Tri C (if c then m else n) Q s := by
  split
  · exact hm ‹_›
  · exact hn ‹_›
theorem tri_upd {i : Nat} {g : Obj → Obj} {f : Unit → M β} {Q : β → St → Prop} (h1 : Step C s (s.setObj i (g (s.heap i))))
    (h2 : Tri C (f ()) Q (s.setObj i (g (s.heap i)))) : Tri C (upd i g >>= f) Q s := by
  intro w
  rw [wp_bind, wp_upd]
  exact wp_mono (h2 (h1.wf w)) (fun _ _ ⟨a, b⟩ => ⟨.head h1 a, b⟩) fun _ _ h => .head h1 h
theorem tri_upd' {i : Nat} {g : Obj → Obj} {Q : Unit → St → Prop} (h1 : Step C s (s.setObj i (g (s.heap i))))
    (h2 : Q () (s.setObj i (g (s.heap i)))) : Tri C (upd i g) Q s := fun _ => ⟨.single h1, h2⟩
theorem tri_modify {g : St → St} {f : Unit → M β} {Q : β → St → Prop} (h1 : Step C s (g s))
    (h2 : Tri C (f ()) Q (g s)) : Tri C (M.modify g >>= f) Q s := by
  intro w
  rw [wp_bind, wp_modify]
  exact wp_mono (h2 (h1.wf w)) (fun _ _ ⟨a, b⟩ => ⟨.head h1 a, b⟩) fun _ _ h => .head h1 h
theorem tri_modify' {g : St → St} {Q : Unit → St → Prop} (h1 : Step C s (g s)) (h2 : Q () (g s)) : Tri C (M.modify g) Q s :=
  fun _ => ⟨.single h1, h2⟩
theorem tri_forL {γ : Type} {f : γ → M Unit} {I : St → Prop} : ∀ {l : List γ} {s : St},
    (∀ a ∈ l, ∀ s', Steps C s s' → I s' → Tri C (f a) (fun _ s2 => I s2) s') → I s → Tri C (forL f l) (fun _ s' => I s') s
  | [], _, _, hi => tri_pure hi
  | a :: l, s, h, hi => tri_bind (h a List.mem_cons_self s .refl hi) fun _ s1 st h1 =>
      tri_forL (fun b hb s' st' => h b (List.mem_cons_of_mem _ hb) s' (st.trans st')) h1
theorem tri_cap {D : Cap} {m : M α} {Q : α → St → Prop} (h : Tri C m Q s) (hs : C.strict = D.strict) (ha : ∀ t c, C.att t c → D.att t c)
    (hp : C.par → D.par) (ht : C.tab → D.tab) (hu : C.unsec → D.unsec) : Tri D m Q s := by
  intro w
  have hs' : D.strict → C.strict := fun x => by rw [hs]; exact x
  exact wp_mono (h (by rw [hs]; exact w)) (fun _ _ ⟨a, b⟩ => ⟨a.mono hs' ha hp ht hu, b⟩) fun _ _ a => a.mono hs' ha hp ht hu
end

theorem Steps.lt {C : Cap} {s s' : St} (h : Steps C s s') {i : Nat} (hi : i < s.next) : i < s'.next :=
  Nat.lt_of_lt_of_le hi (Steps.ext h).next
theorem Steps.cls {C : Cap} {s s' : St} (h : Steps C s s') {i : Nat} (hi : i < s.next) : (s'.heap i).cls = (s.heap i).cls :=
  (Steps.ext h).cls i hi
theorem Steps.isSec {C : Cap} {s s' : St} (h : Steps C s s') {i : Nat} (hi : i < s.next ∧ (s.heap i).cls.isSection = true) :
    i < s'.next ∧ (s'.heap i).cls.isSection = true := ⟨h.lt hi.1, by rw [h.cls hi.1]; exact hi.2⟩

end Metatab
