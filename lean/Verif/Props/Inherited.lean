import Verif.Props.DeclTables
import Verif.Props.Registry
import Verif.Props.Find
import Verif.Lemmas.AgreeParse
import Verif.Lemmas.OpTables
/-! # C12: declared inheritances govern searches -/
namespace Metatab
open Py _root_.Spec

/-- The declarations say that terms of the one name inherit from the other. -/
def _root_.Spec.Inherits (d : Dict DTerm) (n q : Str × Str) : Prop :=
  ∃ e ih, d.get? (dotJoin n.1 n.2) = some e ∧ e.props.get? (py!"inheritsfrom") = some ih ∧ lower ih = lower (dotJoin q.1 q.2)

/-- A normal name splits into two lower-case parts without blanks around them. -/
theorem normal_parts {x : Str} (h : normalizeTerm x = .ok x) :
    ∃ n : Str × Str, x = dotJoin n.1 n.2 ∧ n.1 ≠ [] ∧ strip n.1 = n.1 ∧ strip n.2 = n.2 ∧ '.' ∉ n.1 ∧ '.' ∉ n.2 ∧ lower n.1 = n.1 ∧ lower n.2 = n.2 := by
  unfold normalizeTerm at h
  cases hs : splitTermLower x with
  | error e => rw [hs] at h; cases h
  | ok pr =>
    rw [hs] at h
    obtain ⟨h0, h1, h2, h3, h4, h5, h6⟩ := splitTermLower_cases (p := pr.1) (r := pr.2) hs
    exact ⟨pr, (Except.ok.inj h).symm, h0, h1, h2, h3, h4, h5, h6⟩

/-- The tables after the first load of a document. -/
theorem first_tables {files : Files} {fuel : Nat} {path : Str} {rows : List (List Str)} {s s' : St} (h0 : s.superTerms = [])
    (h1 : s.declTerms = []) (hrun : parseRows files fuel path rows s = .ok () s') :
    (∀ x e, s'.declTerms.get? x = some e → normalizeTerm x = .ok x) ∧
    (∀ y l, s'.derived.get? y = some l → l.Nodup) ∧
    ∀ x y, (∃ l, s'.derived.get? y = some l ∧ x ∈ l) ↔
      ∃ e ih, s'.declTerms.get? x = some e ∧ e.props.get? (py!"inheritsfrom") = some ih ∧ lower ih = y := by
  have hC := C70_parse (files := files) (fuel := fuel) (path := path) (rows := rows) (s := s)
  rw [hrun] at hC
  have hadd : ∀ k, s'.declTerms.get? k = s'.p.declTerms.get? k := by
    intro k
    rw [hC.1 k, h1]
    cases s'.p.declTerms.get? k <;> rfl
  obtain ⟨s1, hs1⟩ : ∃ s1 : St, s1 = { s with p := initP s.root } := ⟨_, rfl⟩
  have hd : DocTab s (gen files true fuel false (dirname path) path rows s1).st := by
    have := tabR_gen doc_manageDeclare files true fuel false (dirname path) path rows s1
    exact DocTab.trans (by rw [hs1]; exact ⟨rfl, rfl, rfl, rfl, rfl⟩) this
  have hn := normKeys_gen files true fuel false (dirname path) path rows (s := s1) (by rw [hs1]; exact normKeys_init)
  have hr : parseRows files fuel path rows s = (gen files true fuel false (dirname path) path rows >>= fun _ => finishLoad) s1 := by
    unfold parseRows; rw [bind_run, modify_run, ← hs1]
  rw [hr, bind_run] at hrun
  cases hg : gen files true fuel false (dirname path) path rows s1 with
  | err e s2 => rw [hg] at hrun; cases hrun
  | ok u s2 =>
    rw [hg] at hd hn hrun
    have hd : DocTab s s2 := hd
    have hn : NormKeys s2.p.declTerms := hn
    have hs' : after finishLoad s2 = s' := by
      have : finishLoad s2 = .ok () s' := hrun
      unfold after; rw [this]
    have hp : s'.p = s2.p := by rw [← hs']; rfl
    have hsup : s2.superTerms = [] := by rw [hd.sup, h0]
    rw [hp] at hadd
    have hlow : ∀ k ∈ s2.p.declTerms.keys, lower k = k := by
      intro k hk
      obtain ⟨⟨k', e⟩, hm, rfl⟩ := List.mem_map.1 hk
      exact normalizeTerm_lower_self (hn.norm _ e (Dict.get?_of_mem hn.nodup hm))
    refine ⟨fun x e hx => hn.norm x e (by rw [← hadd]; exact hx), fun y l hl => ?_, fun x y => ?_⟩
    · rw [← hs'] at hl
      exact C39_once (sup := (after finishLoad s2).superTerms) (Dict.nodup_update (by rw [hsup]; exact List.nodup_nil) _) hl
    · rw [hadd, ← hs']
      exact C39_first s2 hsup hn.nodup hlow x y

open Classical in
/-- **C12**, from the declarations. After the first load of a document, a search for a qualified name finds exactly the terms of that name
and of every name declared to inherit from it, each once, in whatever order the set of derived names is listed. The declarations are those
the document shows; they name types, no patterns, and no name inherits from itself. -/
theorem C12_declared {files : Files} {fuel : Nat} {path : Str} {rows : List (List Str)} {s s' : St} (h0 : s.superTerms = [])
    (h1 : s.declTerms = []) (hrun : parseRows files fuel path rows s = .ok () s')
    {q : Str × Str} (hq : PlainPart q.1 ∧ PlainPart q.2 ∧ q.1 ≠ py!"*" ∧ q.2 ≠ py!"*")
    (hord : ∀ l, (s'.env.setOrd l).Perm l)
    (hnames : ∀ n, '.' ∉ n.1 → Inherits s'.declTerms n q → n.2 ≠ [] ∧ n.1 ≠ py!"*" ∧ n.2 ≠ py!"*")
    (hself : ¬ Inherits s'.declTerms (lower q.1, lower q.2) q)
    {cand : Str → List Nat} (hc : ∀ a, searched s' a = .ok (cand a) ∧ (cand a).Nodup ∧ ∀ t ∈ cand a, Searchable s'.heap t)
    (value : Val) (sec : Option (List Str)) :
    ∃ r, find s' (dotJoin q.1 q.2) value sec = .ok r ∧ r.Nodup ∧
      ∀ t, t ∈ r ↔ ∃ n, (n = q ∨ ('.' ∉ n.1 ∧ Inherits s'.declTerms n q)) ∧ t ∈ cand n.1 ∧ Meets s'.heap n value sec t := by
  obtain ⟨hnorm, honce, hinv⟩ := first_tables h0 h1 hrun
  cases hd : s'.derived.get? (lower (dotJoin q.1 q.2)) with
  | none =>
    have hno : ∀ n, ¬ Inherits s'.declTerms n q := by
      rintro n ⟨e, ih, h1, h2, h3⟩
      obtain ⟨l, hl, -⟩ := (hinv _ _).2 ⟨e, ih, h1, h2, h3⟩
      rw [hd] at hl; cases hl
    obtain ⟨c1, c2, c3⟩ := hc q.1
    refine ⟨_, C11_qualified hq.1 hq.2.1 hd c1 c3 value sec, c2.filter _, fun t => ?_⟩
    rw [List.mem_filter, (@decide_eq_true_iff _ (Classical.propDecidable _))]
    constructor
    · rintro ⟨h, hm⟩; exact ⟨q, .inl rfl, h, hm⟩
    · rintro ⟨n, rfl | ⟨-, hn⟩, h, hm⟩
      · exact ⟨h, hm⟩
      · exact absurd hn (hno n)
  | some l =>
    have hl : ∀ x ∈ l, ∃ n : Str × Str, x = dotJoin n.1 n.2 ∧ PlainPart n.1 ∧ PlainPart n.2 ∧ n.1 ≠ py!"*" ∧ n.2 ≠ py!"*" ∧
        lower n.1 = n.1 ∧ lower n.2 = n.2 ∧ Inherits s'.declTerms n q := by
      intro x hx
      obtain ⟨e, ih, g1, g2, g3⟩ := (hinv x _).1 ⟨l, hd, hx⟩
      obtain ⟨n, rfl, p0, p1, p2, p3, p4, p5, p6⟩ := normal_parts (hnorm x e g1)
      have hi : Inherits s'.declTerms n q := ⟨e, ih, g1, g2, g3⟩
      obtain ⟨w0, w1, w2⟩ := hnames n p3 hi
      exact ⟨n, rfl, ⟨p3, p0, p1⟩, ⟨p4, w0, p2⟩, w1, w2, p5, p6, hi⟩
    obtain ⟨names, hnl, hns⟩ : ∃ names : List (Str × Str), l = names.map (fun n => dotJoin n.1 n.2) ∧ ∀ n ∈ names,
        PlainPart n.1 ∧ PlainPart n.2 ∧ n.1 ≠ py!"*" ∧ n.2 ≠ py!"*" ∧ lower n.1 = n.1 ∧ lower n.2 = n.2 ∧ Inherits s'.declTerms n q := by
      clear hd
      induction l with
      | nil => exact ⟨[], rfl, by simp⟩
      | cons x l ih =>
        obtain ⟨names, e, hn⟩ := ih fun y hy => hl y (List.mem_cons_of_mem _ hy)
        obtain ⟨n, hx, hn'⟩ := hl x List.mem_cons_self
        exact ⟨n :: names, by rw [List.map_cons, ← e, ← hx], fun m hm => by
          rcases List.mem_cons.1 hm with rfl | hm
          · exact hn'
          · exact hn m hm⟩
    have hnd : (names.map fun n => dotJoin n.1 n.2).Nodup := hnl ▸ honce _ _ hd
    have hdist : (q :: names).Pairwise fun a b => ¬ (lower a.1 = lower b.1 ∧ lower a.2 = lower b.2) := by
      refine List.pairwise_cons.2 ⟨fun n hn ⟨e1, e2⟩ => ?_, ?_⟩
      · obtain ⟨-, -, -, -, l1, l2, hi⟩ := hns n hn
        rw [l1] at e1; rw [l2] at e2
        exact hself (by rw [e1, e2]; exact hi)
      · refine (List.pairwise_map.1 hnd).imp_of_mem fun {a b} ha hb hab e => ?_
        obtain ⟨-, -, -, -, l1, l2, -⟩ := hns a ha
        obtain ⟨-, -, -, -, m1, m2, -⟩ := hns b hb
        rw [l1, m1, l2, m2] at e
        exact hab (by rw [e.1, e.2])
    obtain ⟨r, r1, r2, r3⟩ := C12_derived (q := q) (names := names) (by rw [hd, hnl]) hord
      (by
        intro n hn
        rcases List.mem_cons.1 hn with rfl | hn
        · exact hq
        · obtain ⟨a, b, c, d, -⟩ := hns n hn
          exact ⟨a, b, c, d⟩) hdist (fun n _ => hc n.1) value sec
    refine ⟨r, r1, r2, fun t => ?_⟩
    rw [r3]
    constructor
    · rintro ⟨n, hn, h⟩
      rcases List.mem_cons.1 hn with rfl | hn
      · exact ⟨_, .inl rfl, h⟩
      · exact ⟨n, .inr ⟨(hns n hn).1.nodot, (hns n hn).2.2.2.2.2.2⟩, h⟩
    · rintro ⟨n, rfl | ⟨hnd, e, ih, g1, g2, g3⟩, h⟩
      · exact ⟨_, List.mem_cons_self, h⟩
      · obtain ⟨l', hl', hx⟩ := (hinv _ _).2 ⟨e, ih, g1, g2, g3⟩
        rw [hd] at hl'; cases hl'
        rw [hnl] at hx
        obtain ⟨m, hm, he⟩ := List.mem_map.1 hx
        have := dotJoin_left (hns m hm).1.nodot hnd he
        have : m = n := Prod.ext this.1 this.2
        exact ⟨n, List.mem_cons_of_mem _ (this ▸ hm), h⟩

/-- A test for `Searchable`. -/
theorem searchable_test {s : St} {l : List Nat} (e : (l.all fun t => match (s.heap t).sec with
      | none => decide (lower (s.heap t).pt = py!"root" ∧ lower (s.heap t).rt = py!"section")
      | some x => match (s.heap x).value with
        | .str _ => true
        | _ => false) = true) : ∀ t ∈ l, Searchable s.heap t := by
  intro t ht
  have h := List.all_eq_true.1 e t ht
  cases hs : (s.heap t).sec with
  | none =>
    rw [hs] at h
    have := of_decide_eq_true h
    exact ⟨fun _ => ⟨this.1, .inr this.2⟩, fun x hx => by rw [hs] at hx; cases hx⟩
  | some x =>
    rw [hs] at h
    refine ⟨fun e => by (rw [hs] at e; cases e), fun y hy => ?_⟩
    rw [hs] at hy; cases hy
    dsimp only at h
    cases hv : (s.heap x).value <;> rw [hv] at h <;> first | exact ⟨_, rfl⟩ | cases h

/-- The document of the declare file with one inheritance: a search for the super-term finds the term of the derived type. -/
example : ∃ r, find inhDoc (py!"Root.Datafile") = .ok r ∧ r.Nodup ∧ 11 ∈ r ∧ (inhDoc.heap 11).join = py!"root.sql" := by
  have hx : ∀ kv ∈ inhDoc.declTerms, (kv.2.props.get? (py!"inheritsfrom")).isSome → kv.1 = dotJoin (py!"root") (py!"sql") := by decide +kernel
  have huniq : ∀ n q, '.' ∉ n.1 → Inherits inhDoc.declTerms n q → n = (py!"root", py!"sql") := by
    rintro n q hd ⟨e, ih, h1, h2, -⟩
    have := hx _ (Dict.mem_of_get? h1) (by show (e.props.get? _).isSome = true; rw [h2]; rfl)
    have := dotJoin_left hd (by decide) this
    exact Prod.ext this.1 this.2
  have henv : inhDoc.env = exEnv :=
    (after_steps (tri_op (F := False) (op := .parse inhFiles 3 (py!"m.csv") [[py!"Declare", py!"a.csv"], [py!"Sql", py!"x"]]) trivial fun f => f.elim)
      (newDoc_wf False exEnv _)).ext.env
  obtain ⟨r, h1, h2, h3⟩ := C12_declared (files := inhFiles) (fuel := 3) (path := py!"m.csv")
    (rows := [[py!"Declare", py!"a.csv"], [py!"Sql", py!"x"]]) (s := exDoc) (s' := inhDoc) rfl rfl (ok_after (by decide +kernel))
    (q := (py!"Root", py!"Datafile")) ⟨⟨by decide, by decide, by decide⟩, ⟨by decide, by decide, by decide⟩, by decide, by decide⟩
    (by rw [henv]; exact fun l => List.Perm.refl l)
    (fun n hd hn => by rw [huniq n _ hd hn]; decide)
    (fun h => by have := huniq (lower (py!"Root"), lower (py!"Datafile")) _ (by decide) h; revert this; decide)
    (cand := fun a => if lower a = py!"root" then inhDoc.terms else [1, 11, 2, 3, 4, 5, 6, 7, 8, 9, 10])
    (by
      intro a
      unfold searched
      by_cases ha : lower a = py!"root"
      · simp only [if_pos ha]
        refine ⟨trivial, by decide +kernel, searchable_test (by decide +kernel)⟩
      · simp only [if_neg ha]
        exact ⟨by decide +kernel, by decide, searchable_test (by decide +kernel)⟩)
    .fls none
  refine ⟨r, h1, h2, (h3 11).2 ⟨(py!"root", py!"sql"), .inr ⟨by decide, ?_⟩, by decide +kernel, ?_⟩, by decide +kernel⟩
  · have hs : (inhDoc.declTerms.get? (py!"root.sql")).bind (fun e => e.props.get? (py!"inheritsfrom")) = some (py!"Root.Datafile") := by
      decide +kernel
    obtain ⟨e, he, hi⟩ := Option.bind_eq_some_iff.1 hs
    exact ⟨e, _, he, hi, by decide⟩
  · exact ⟨by decide +kernel, ⟨.inr (by decide +kernel), .inr (by decide +kernel)⟩, trivial, trivial⟩

/-- A document made with the declare file as its declaration, to which a term of the derived type is then added. -/
def inhDecl : St := after (loadDeclarations inhFiles 3 [py!"a.csv"]) exDoc
/-- The same, after reading a file that uses the declarations without naming them. -/
def inhDeclRead : St := after (parseRows inhFiles 3 (py!"m.csv") [[py!"Sql", py!"x"]]) inhDecl

/-- **C12** fails for a document that gets its declarations from the `decl` argument of the constructor: `load_declarations` does not record
inheritances (metatab/doc.py:157-176), and the parser of the file does not see them (metatab/parser.py:125-131). -/
theorem C12_decl_witness :
    (loadDeclarations inhFiles 3 [py!"a.csv"] exDoc).val = .ok () ∧ (parseRows inhFiles 3 (py!"m.csv") [[py!"Sql", py!"x"]] inhDecl).val = .ok () ∧
    ((inhDeclRead.declTerms.get? (py!"root.sql")).bind fun e => e.props.get? (py!"inheritsfrom")) = some (py!"Root.Datafile") ∧
    find inhDeclRead (py!"Root.Datafile") = .ok [] ∧ (find inhDeclRead (py!"Root.Sql")).toOption.map List.length = some 1 := by
  decide +kernel

/-! ## In every reachable document -/

/-- The two tables of inheritance: dictionaries with lower-case names on both sides, the one made from the other. -/
structure Supers (s : St) : Prop where
  nodup : s.superTerms.keys.Nodup
  low : ∀ kv ∈ s.superTerms, lower kv.1 = kv.1 ∧ lower kv.2 = kv.2
  der : s.derived = derivedOf s.superTerms

theorem Supers.same {s s' : St} (h : Supers s) (d : DocTab s s') : Supers s' :=
  ⟨by rw [d.sup]; exact h.nodup, by rw [d.sup]; exact h.low, by rw [d.sup, d.der]; exact h.der⟩

theorem mem_dictSet {α : Type} {d : Dict α} {k : Str} {v : α} {kv : Str × α} (h : kv ∈ d.set k v) : kv ∈ d ∨ kv = (k, v) := by
  induction d with
  | nil => exact .inr (List.mem_singleton.1 h)
  | cons e d ih =>
    obtain ⟨k', w⟩ := e
    rw [Dict.set] at h
    split at h
    · next hk =>
      rcases List.mem_cons.1 h with rfl | h
      · exact .inr (by rw [hk])
      · exact .inl (List.mem_cons_of_mem _ h)
    · rcases List.mem_cons.1 h with rfl | h
      · exact .inl List.mem_cons_self
      · exact (ih h).imp (List.mem_cons_of_mem _) id

theorem mem_update {α : Type} {d e : Dict α} {kv : Str × α} (h : kv ∈ Dict.update d e) : kv ∈ d ∨ kv ∈ e := by
  induction e generalizing d with
  | nil => exact .inl h
  | cons a e ih =>
    obtain ⟨k, v⟩ := a
    rw [Dict.update_cons] at h
    rcases ih h with h | h
    · rcases mem_dictSet h with h | h
      · exact .inl h
      · exact .inr (h ▸ List.mem_cons_self)
    · exact .inr (List.mem_cons_of_mem _ h)

theorem Supers.finish {s : St} (h : Supers s) : Supers (after finishLoad s) := by
  refine ⟨Dict.nodup_update h.nodup _, fun kv hkv => ?_, rfl⟩
  rcases mem_update (d := s.superTerms) (e := parserSuperTerms s) hkv with hm | hm
  · exact h.low kv hm
  · unfold parserSuperTerms at hm
    split at hm
    · exact h.low kv hm
    · rcases mem_update hm with hm | hm
      · cases hm
      · obtain ⟨⟨k, e⟩, -, he⟩ := List.mem_filterMap.1 hm
        cases hi : e.props.get? (py!"inheritsfrom") with
        | none => rw [hi] at he; cases he
        | some v =>
          rw [hi] at he
          cases he
          exact ⟨lower_lower _, lower_lower _⟩

theorem supers_parse {s : St} (h : Supers s) (files : Files) (fuel : Nat) (path : Str) (rows : List (List Str)) :
    Supers (parseRows files fuel path rows s).st := by
  obtain ⟨s1, hs1⟩ : ∃ s1 : St, s1 = { s with p := initP s.root } := ⟨_, rfl⟩
  have hd : DocTab s (gen files true fuel false (dirname path) path rows s1).st := by
    have := tabR_gen doc_manageDeclare files true fuel false (dirname path) path rows s1
    exact DocTab.trans (by rw [hs1]; exact ⟨rfl, rfl, rfl, rfl, rfl⟩) this
  have hr : parseRows files fuel path rows s = (gen files true fuel false (dirname path) path rows >>= fun _ => finishLoad) s1 := by
    unfold parseRows; rw [bind_run, modify_run, ← hs1]
  rw [hr, bind_run]
  cases hg : gen files true fuel false (dirname path) path rows s1 with
  | err e s2 => rw [hg] at hd; exact h.same hd
  | ok u s2 => rw [hg] at hd; exact (h.same hd).finish

theorem supers_load {s : St} (h : Supers s) (files : Files) (fuel : Nat) (decls : List Str) :
    Supers (loadDeclarations files fuel decls s).st := by
  by_cases hne : decls = []
  · unfold loadDeclarations; rw [if_pos hne]; exact h
  · have := C70_load (files := files) (fuel := fuel) (s := s) hne
    cases hl : loadDeclarations files fuel decls s with
    | ok u s2 =>
      rw [hl] at this
      obtain ⟨-, -, e1, e2⟩ := this
      exact ⟨by show s2.superTerms.keys.Nodup; rw [e1]; exact h.nodup, by show ∀ kv ∈ s2.superTerms, _; rw [e1]; exact h.low,
        by show s2.derived = derivedOf s2.superTerms; rw [e1, e2]; exact h.der⟩
    | err e s2 => rw [hl] at this; exact h.same this

theorem reach_supers {allow : Op → Prop} {s : St} (h : Reach allow s) : Supers s := by
  induction h with
  | new env classes => exact ⟨List.nodup_nil, fun kv h => (by cases h), rfl⟩
  | @step s op _ _ _ ih =>
    have hop := tab_op op
    rw [after_eq]
    cases op <;> first
      | exact ih.same (hop s).doc
      | exact supers_parse ih _ _ _ _
      | exact supers_load ih _ _ _
      | exact ⟨ih.nodup, ih.low, ih.der⟩

/-- **C39** in every document made by any sequence of calls: `x` is listed as derived from `y` exactly when `y` is recorded as the super-term
of `x`, and it is listed once; the names are lower-case. -/
theorem C39_always {allow : Op → Prop} {s : St} (h : Reach allow s) (x y : Str) :
    ((∃ l, s.derived.get? y = some l ∧ x ∈ l) ↔ s.superTerms.get? x = some y) ∧ (∀ l, s.derived.get? y = some l → l.Nodup) ∧
      (s.superTerms.get? x = some y → lower x = x ∧ lower y = y) := by
  have w := reach_supers h
  rw [w.der]
  exact ⟨C39_inverse w.nodup x y, fun l hl => C39_once w.nodup hl, fun hg => w.low _ (Dict.mem_of_get? hg)⟩

/-- **C41** in every document made by any sequence of calls. -/
theorem C41_always {allow : Op → Prop} {s : St} (h : Reach allow s) (hn : s.classes.keys.Nodup) (ops : List RegOp) :
    ∃ s', runReg ops s = .ok () s' ∧ { s' with classes := s.classes } = s ∧
      ∀ name, docTermClass s' name =
        match Spec.registered (s.classes.get? (lower name)) name ops.reverse with
        | some c => c
        | none => match s.superTerms.get? (lower name) with
          | none => .term
          | some sup => (Spec.registered (s.classes.get? (lower sup)) sup ops.reverse).getD .term :=
  C41_registry ops s hn fun k v hk => ((reach_supers h).low (k, v) (Dict.mem_of_get? hk)).2

/-- The document with one inheritance is such a document. -/
example : Reach (fun _ => True) inhDoc ∧ inhDoc.derived.get? (py!"root.datafile") = some [py!"root.sql"] ∧ inhDoc.classes.keys.Nodup :=
  ⟨Reach.step (.parse inhFiles 3 (py!"m.csv") [[py!"Declare", py!"a.csv"], [py!"Sql", py!"x"]]) (Reach.new exEnv _) trivial trivial,
    by decide +kernel, by decide +kernel⟩

end Metatab
