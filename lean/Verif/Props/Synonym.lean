import Verif.Props.Declare
import Verif.Lemmas.PlainRows
import Verif.Lemmas.Rows
import Verif.Lemmas.Reach
/-! # C37: synonyms -/
namespace Metatab
open Py

theorem lstrip_self {s : Str} : lstrip s = s ↔ ∀ a, s.head? = some a → isSpace a = false := dropWhile_eq_self _

theorem rstrip_self {s : Str} : rstrip s = s ↔ ∀ a, s.getLast? = some a → isSpace a = false := by
  have := lstrip_self (s := s.reverse)
  rw [List.head?_reverse] at this
  rw [← this]
  unfold rstrip lstrip
  constructor
  · intro h; rw [← List.reverse_inj, List.reverse_reverse]; exact h
  · intro h; rw [h, List.reverse_reverse]

theorem strip_self {s : Str} : strip s = s ↔ lstrip s = s ∧ rstrip s = s := by
  constructor
  · intro h
    have h1 : lstrip s = s := by rw [← h]; exact lstrip_strip s
    refine ⟨h1, ?_⟩
    unfold strip at h; rw [h1] at h; exact h
  · rintro ⟨h1, h2⟩; unfold strip; rw [h1, h2]

theorem strip_dotJoin {p r : Str} (h0 : p ≠ []) (h1 : strip p = p) (h2 : strip r = r) : strip (dotJoin p r) = dotJoin p r := by
  rw [strip_self]
  obtain ⟨a1, -⟩ := strip_self.1 h1
  obtain ⟨-, b2⟩ := strip_self.1 h2
  rw [lstrip_self] at a1 ⊢
  rw [rstrip_self] at b2 ⊢
  constructor
  · intro a ha
    cases p with
    | nil => exact absurd rfl h0
    | cons x p => exact a1 a ha
  · intro a ha
    cases r with
    | nil =>
      unfold dotJoin at ha
      rw [List.getLast?_append] at ha
      simp only [List.getLast?_singleton, Option.some_or, Option.some.injEq] at ha
      subst ha; decide
    | cons x r =>
      apply b2
      unfold dotJoin at ha
      rw [List.getLast?_append, List.getLast?_cons_cons] at ha
      cases hl : (x :: r).getLast? with
      | none => simp at hl
      | some y => rw [hl] at ha; exact ha

theorem norm_key {k : Str} (h : normalizeTerm k = .ok k) : strip k = k ∧ lower k = k ∧ '.' ∈ k := by
  unfold normalizeTerm at h
  cases hs : splitTermLower k with
  | error e => rw [hs] at h; cases h
  | ok pr =>
    obtain ⟨p, r⟩ := pr
    rw [hs] at h
    have e : dotJoin p r = k := Except.ok.inj h
    obtain ⟨h0, h1, h2, -, -, h5, h6⟩ := splitTermLower_cases hs
    rw [← e]
    refine ⟨strip_dotJoin h0 h1 h2, ?_, ?_⟩
    · unfold dotJoin lower; rw [List.map_append, List.map_cons]
      unfold lower at h5 h6
      rw [h5, h6]; rfl
    · unfold dotJoin; simp

/-- The synonym declared for a name: the non-empty property `Synonym` of the declared term of that name. -/
def synonymFor (d : Dict DTerm) (name : Str) : Option Str :=
  match d.get? name with
  | some e =>
    match e.props.get? (py!"synonym") with
    | some v => if v = [] then none else some v
    | none => none
  | none => none

theorem synonyms_fold {d : Dict DTerm} (hn : d.keys.Nodup) (hk : ∀ kv ∈ d, normalizeTerm kv.1 = .ok kv.1) (acc : Dict Str) (n : Str) :
    Dict.get? (d.foldl synonymStep acc) n = (synonymFor d n).or (acc.get? n) := by
  induction d generalizing acc with
  | nil => rfl
  | cons kv d ih =>
    obtain ⟨k, e⟩ := kv
    obtain ⟨k1, k2, k3⟩ := norm_key (hk (k, e) (List.mem_cons_self ..))
    have hkd : k ∉ Dict.keys d ∧ (Dict.keys d).Nodup := by simpa [Dict.keys] using hn
    have hnk : synonymFor d k = none := by unfold synonymFor; rw [Dict.get?_eq_none.2 hkd.1]
    rw [List.foldl_cons, ih hkd.2 fun kv h => hk kv (List.mem_cons_of_mem _ h)]
    unfold synonymStep
    dsimp only
    have hs : synonymFor ((k, e) :: d) n = if k = n then synonymFor [(k, e)] n else synonymFor d n := by
      unfold synonymFor; rw [Dict.get?_cons, Dict.get?_cons]; by_cases hkn : k = n <;> simp [hkn]
    rw [hs]
    cases hp : e.props.get? (py!"synonym") with
    | none =>
      dsimp only
      split
      · next hkn => subst hkn; rw [hnk]; unfold synonymFor; rw [Dict.get?_cons, if_pos rfl]; simp only [hp]
      · rfl
    | some v =>
      dsimp only
      by_cases hv : v = []
      · rw [if_pos hv]
        split
        · next hkn => subst hkn; rw [hnk]; unfold synonymFor; rw [Dict.get?_cons, if_pos rfl]; simp only [hp, if_pos hv]
        · rfl
      · rw [if_neg hv, k1, k2, if_neg (not_not_intro k3), Dict.get?_set]
        split
        · next hkn => subst hkn; rw [hnk]; unfold synonymFor; rw [Dict.get?_cons, if_pos rfl]; simp only [hp, if_neg hv]; rfl
        · rfl

theorem synonyms_get {d : Dict DTerm} (h : NormKeys d) (n : Str) : (synonyms d).get? n = synonymFor d n := by
  have := synonyms_fold h.nodup (fun kv hm => h.norm kv.1 kv.2 (Dict.get?_of_mem h.nodup hm)) [] n
  unfold synonyms
  rw [this]; cases synonymFor d n <;> rfl

/-- The object made for a row. -/
theorem rowTerm_any {s : St} {d : Bool} {c : Str} {rest : List Str} {p r : Str} (hc : splitTermLower c = .ok (p, r))
    (hcls : (parserTermClass s (dotJoin p r)).isSection = false) :
    rowTerm d (c :: rest) s =
      .ok s.next ({ s with next := s.next + 1 }.setObj s.next { rowObj (parserTermClass s (dotJoin p r)) p r rest with isDecl := d }) := by
  unfold rowTerm
  have hn : normalizeTerm c = .ok (dotJoin p r) := by unfold normalizeTerm; rw [hc]; rfl
  have h2 := splitTermLower_again hc
  simp only [bind_run, lift_run, List.headD_cons, hn, get_run]
  have e : ∀ cl, newTermObj cl (dotJoin p r) (Val.str (((c :: rest)[1]?).getD [])) ((c :: rest).drop 2) none none 1 d s =
      .ok s.next ({ s with next := s.next + 1 }.setObj s.next { rowObj cl p r rest with isDecl := d }) := by
    intro cl
    unfold newTermObj
    simp only [bind_run, lift_run, h2, alloc_run]
    cases rest <;> rfl
  cases hk : parserTermClass s (dotJoin p r) with
  | term => exact e _
  | user n => exact e _
  | «section» => rw [hk] at hcls; cases hcls
  | root => rw [hk] at hcls; cases hcls

/-- Names are looked up among the synonyms before anything else happens to a term. -/
theorem iterBody_synonym {s : St} {t : Nat} {o o' : Obj} {p' r' : Str} (ht : t ≠ s.root)
    (h1 : substSynonym s.p.declTerms o.pt o.rt = .ok (p', r')) (h2 : substSynonym s.p.declTerms o'.pt o'.rt = .ok (p', r'))
    (he : { o with pt := p', rt := r' } = { o' with pt := p', rt := r' }) : iterBody t (s.setObj t o) = iterBody t (s.setObj t o') := by
  have he2 : ∀ r'', ({ o with pt := p', rt := r'' } : Obj) = { o' with pt := p', rt := r'' } := by
    intro r''
    have := congrArg (fun o : Obj => { o with rt := r'' }) he
    exact this
  have hh : ∀ (o : Obj), (s.setObj t o).heap s.root = s.heap s.root := by
    intro o; unfold St.setObj; dsimp only; rw [if_neg (Ne.symm ht)]
  have hs : ∀ (o : Obj) (f : Obj → Obj), (s.setObj t o).setObj t (f ((s.setObj t o).heap t)) = s.setObj t (f o) := by
    intro o f; unfold St.setObj; congr 1; funext j; dsimp only; split <;> simp_all
  unfold iterBody
  simp only [bind_run, get_run, lift_run, upd_run]
  have e1 : substSynonym (s.setObj t o).p.declTerms ((s.setObj t o).heap t).pt ((s.setObj t o).heap t).rt = .ok (p', r') := by
    simpa [St.setObj] using h1
  have e2 : substSynonym (s.setObj t o').p.declTerms ((s.setObj t o').heap t).pt ((s.setObj t o').heap t).rt = .ok (p', r') := by
    simpa [St.setObj] using h2
  rw [e1, e2]
  dsimp only
  rw [hs o fun x => { x with pt := p', rt := remapRecord (s.setObj t o).p.paramMap r' },
    hs o' fun x => { x with pt := p', rt := remapRecord (s.setObj t o').p.paramMap r' }]
  have hroot : ∀ o, (s.setObj t o).root = s.root := fun _ => rfl
  have hp : ∀ o, (s.setObj t o).p = s.p := fun _ => rfl
  simp only [hroot, hp, hh]
  rw [he2]

theorem yield_synonym {s : St} {load d : Bool} {t : Nat} {o o' : Obj} {p' r' : Str} (ht : t ≠ s.root)
    (h1 : substSynonym s.p.declTerms o.pt o.rt = .ok (p', r')) (h2 : substSynonym s.p.declTerms o'.pt o'.rt = .ok (p', r'))
    (he : { o with pt := p', rt := r' } = { o' with pt := p', rt := r' }) :
    yieldWithArgs load d t (s.setObj t o) = yieldWithArgs load d t (s.setObj t o') := by
  unfold yieldWithArgs consume
  simp only [bind_run]
  rw [iterBody_synonym ht h1 h2 he]

/-- **C37**. The first cell of a row is a name for which a synonym `v` is declared. Reading the row is reading the row with `v` in the
first cell, except that the new term remembers how it was spelt (the attribute `term`) and has the Python class registered for the name
it was spelt with. The second part says what reading that row is,
for comparison. `NormKeys` holds of every table the parser has built (`normKeys_gen`). -/
theorem C37_rows {F : Prop} (files : Files) (sub : Str → Bool → M Unit) (load d : Bool) (dir ref : Str) (x : Nat) {c v : Str}
    {rest : List Str} (rows : List (List Str)) {s : St} (w : WF F s) (hk : NormKeys s.p.declTerms) {p r p' r' : Str}
    (hc : splitTermLower c = .ok (p, r)) (hsyn : synonymFor s.p.declTerms (dotJoin p r) = some v)
    (hv : splitTermLower v = .ok (p', r')) (hnot : synonymFor s.p.declTerms (dotJoin p' r') = none)
    (hskip : skipRow (c :: rest) = false) (hskip' : skipRow (v :: rest) = false)
    (hsec : (parserTermClass s (dotJoin p r)).isSection = false) (hsec' : (parserTermClass s (dotJoin p' r')).isSection = false)
    (hname : dotJoin p r ∉ [py!"root.include", py!"root.declare", py!"root.section"])
    (hname' : dotJoin p' r' ∉ [py!"root.include", py!"root.declare", py!"root.section"]) :
    genRows files sub load d dir ref x ((c :: rest) :: rows) s =
        (do
          let t ← rowTerm d (v :: rest)
          upd t fun o => { o with raw := dotJoin p r, cls := parserTermClass s (dotJoin p r) }
          yieldWithArgs load d t
          genRows files sub load d dir ref x rows : M Nat) s ∧
      genRows files sub load d dir ref x ((v :: rest) :: rows) s =
        (do
          let t ← rowTerm d (v :: rest)
          yieldWithArgs load d t
          genRows files sub load d dir ref x rows : M Nat) s := by
  simp only [List.mem_cons, List.not_mem_nil, or_false, not_or] at hname hname'
  have key : ∀ {c : Str} {p r : Str}, splitTermLower c = .ok (p, r) → (parserTermClass s (dotJoin p r)).isSection = false →
      skipRow (c :: rest) = false → (¬ dotJoin p r = py!"root.include" ∧ ¬ dotJoin p r = py!"root.declare" ∧ ¬ dotJoin p r = py!"root.section") →
      genRows files sub load d dir ref x ((c :: rest) :: rows) s =
        (do
          let t ← rowTerm d (c :: rest)
          yieldWithArgs load d t
          genRows files sub load d dir ref x rows : M Nat) s := by
    intro c p r hc hsec hskip hname
    obtain ⟨-, -, -, -, -, l1, l2⟩ := splitTermLower_cases hc
    rw [genRows_cons, hskip]
    simp only [Bool.false_eq_true, if_false]
    simp only [bind_run, rowTerm_any hc hsec, obj_run, heap_setObj_self]
    have hj : ({ rowObj (parserTermClass s (dotJoin p r)) p r rest with isDecl := d } : Obj).joinLc = dotJoin p r := by
      unfold Obj.joinLc rowObj; simp only [l1, l2]
    simp only [hj, hname.1, hname.2.1, hname.2.2, or_self, if_false, bind_run]
  refine ⟨?_, key hv hsec' hskip' hname'⟩
  rw [key hc hsec hskip hname]
  simp only [bind_run, rowTerm_any hc hsec, rowTerm_any hv hsec', upd_run]
  have hroot : s.next ≠ s.root := by have := w.rootLt; omega
  obtain ⟨-, -, -, -, -, l1, l2⟩ := splitTermLower_cases hc
  obtain ⟨-, -, -, -, -, l1', l2'⟩ := splitTermLower_cases hv
  rw [setObj_setObj, heap_setObj_self]
  rw [yield_synonym (s := { s with next := s.next + 1 }) (p' := p') (r' := r') hroot ?_ ?_ ?_]
  · show substSynonym s.p.declTerms p r = _
    unfold substSynonym; rw [l1, l2, synonyms_get hk, hsyn]; exact hv
  · show substSynonym s.p.declTerms p' r' = _
    unfold substSynonym; rw [l1', l2', synonyms_get hk, hnot]
  · rfl

/-! Concrete cases -/
/-- A declare file with a synonym. -/
def exSynRows : List (List Str) :=
  [[py!"Section", py!"DeclaredTerms", py!"Section", py!"Synonym"], [py!"DeclareSection", py!"Data", py!"Title"],
   [py!"DeclareTerm", py!"Ref", py!"Data", py!"Root.Reference"]]
/-- The file system with this file. -/
def exSynFiles : Files :=
  ⟨fun t => if t = py!"d.csv" then some exSynRows else none, fun _ n => if n = py!"d.csv" then some (py!"d.csv") else none⟩
/-- Declarations and a section. -/
def exSynDoc : List (List Str) := [[py!"Declare", py!"d.csv"], [py!"Section", py!"Data", py!"Title"]]
/-- After reading these rows. -/
def exSyn : St := after (parseRows exSynFiles 3 (py!"m.csv") exSynDoc) exDoc

theorem exSyn_reach : Reach (fun _ => True) exSyn := by
  unfold exSyn exDoc
  exact Reach.step (.parse exSynFiles 3 (py!"m.csv") exSynDoc) (.new exEnv _) trivial trivial

/-- The hypotheses of `C37_rows` can be met, with and without the prefix, and with any capitalisation. -/
example (c : Str) (hc : c ∈ [py!"Ref", py!"Root.Ref", py!"ROOT.rEF"]) : genRows noFiles (fun _ _ => pure ()) true false [] [] 1 [[c, py!"x", py!"t"]] exSyn =
    (do
      let t ← rowTerm false [py!"Root.Reference", py!"x", py!"t"]
      upd t fun o => { o with raw := py!"root.ref", cls := .term }
      yieldWithArgs true false t
      genRows noFiles (fun _ _ => pure ()) true false [] [] 1 [] : M Nat) exSyn := by
  have hs : splitTermLower c = .ok (py!"root", py!"ref") ∧ skipRow [c, py!"x", py!"t"] = false := by
    simp only [List.mem_cons, List.not_mem_nil, or_false] at hc
    rcases hc with rfl | rfl | rfl <;> decide
  have hcl : parserTermClass exSyn (py!"root.ref") = .term := by decide +kernel
  rw [← hcl]
  exact (C37_rows noFiles (fun _ _ => pure ()) true false [] [] 1 (c := c) (v := py!"Root.Reference") (rest := [py!"x", py!"t"]) []
    (s := exSyn) (exSyn_reach.wf (F := False) fun f => f.elim) (normKeys_of_all (by decide +kernel) (by decide +kernel)) (p := py!"root")
    (r := py!"ref") (p' := py!"root") (r' := py!"reference") hs.1 (by decide +kernel) (by decide) (by decide +kernel) hs.2
    (by decide) (by decide +kernel) (by decide +kernel) (by decide) (by decide)).1

/-- What a reader of the document sees. -/
example : show_ (after (parseRows exSynFiles 3 (py!"m.csv") (exSynDoc ++ [[py!"Ref", py!"x", py!"t"]])) exDoc)
      ((after (parseRows exSynFiles 3 (py!"m.csv") (exSynDoc ++ [[py!"Ref", py!"x", py!"t"]])) exDoc).heap 13).children =
    [(py!"reference.title", .str (py!"t"))] := by
  decide +kernel

/-- Why `C37_rows` speaks of the class: it is looked up under the name in the row, so a term written with a
synonym does not get the class registered for the name it stands for. -/
theorem C37_class_witness :
    let doc := newDoc exEnv (initClasses ++ [(py!"root.reference", .user 1)])
    let s := after (parseRows exSynFiles 3 (py!"m.csv") (exSynDoc ++ [[py!"Ref", py!"x"], [py!"Reference", py!"x"]])) doc
    (s.heap 13).join = py!"root.reference" ∧ (s.heap 14).join = py!"root.reference" ∧
    (s.heap 13).cls = .term ∧ (s.heap 14).cls = .user 1 := by
  decide +kernel

end Metatab
