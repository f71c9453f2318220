import Verif.Model.Report
import Verif.Spec.Report
import Verif.Lemmas.Where
import Verif.Lemmas.Firm
import Verif.Props.IncludeErrors
/-! Reading rows with reports reads as without them; what a report says. -/
namespace Metatab
open Py _root_.Spec

theorem gbind_run {α β : Type} (m : GenM α) (f : α → GenM β) (s : St) : (m >>= f) s =
    match m s with
    | (l, .ok a s') => (l ++ (f a s').1, (f a s').2)
    | (l, .failed r s') => (l, .failed r s')
    | (l, .err e s') => (l, .err e s') := rfl

/-- The objects built. -/
def builds : List Ev → List Built
  | [] => []
  | .built b :: l => b :: builds l
  | .yielded _ :: l => builds l

theorem builds_append : ∀ l l' : List Ev, builds (l ++ l') = builds l ++ builds l'
  | [], _ => rfl
  | .built b :: l, l' => congrArg (b :: ·) (builds_append l l')
  | .yielded _ :: l, l' => builds_append l l'
theorem builds_map : ∀ l : List Built, builds (l.map .built) = l
  | [] => rfl
  | b :: l => congrArg (b :: ·) (builds_map l)

theorem lastYield_append : ∀ l l' : List Ev, lastYield (l ++ l') = (lastYield l').or (lastYield l)
  | [], l' => by simp [lastYield]
  | .built b :: l, l' => lastYield_append l l'
  | .yielded t :: l, l' => by
    show some ((lastYield (l ++ l')).getD t) = _
    rw [lastYield_append l l']
    show _ = (lastYield l').or (some ((lastYield l).getD t))
    cases lastYield l' <;> rfl

/-- The result without the report. -/
def Out.toRes {α : Type} : Out α → Res α
  | .ok a s => .ok a s
  | .failed _ s => .err .includeError s
  | .err e s => .err e s

theorem toRes_ofRes {α : Type} (r : Res α) : (Out.ofRes r).toRes = r := by cases r <;> rfl

/-- Without what it yields and reports `m` is `m'`. -/
structure Mirrors {α : Type} (m : GenM α) (m' : LogM Built α) : Prop where
  run : ∀ s, (m s).2.toRes = (m' s).2 ∧ builds (m s).1 = (m' s).1

theorem Mirrors.pure {α : Type} (a : α) : Mirrors (Pure.pure a) (Pure.pure a) := ⟨fun _ => ⟨rfl, rfl⟩⟩
theorem Mirrors.still {α : Type} (m : M α) : Mirrors (still m) (silent m) := ⟨fun _ => ⟨toRes_ofRes _, rfl⟩⟩
theorem Mirrors.building {α : Type} (m : LogM Built α) : Mirrors (building m) m := ⟨fun _ => ⟨toRes_ofRes _, builds_map _⟩⟩
theorem Mirrors.give (load : Bool) (t : Nat) : Mirrors (give load t) (silent (consume load t)) := ⟨fun _ => ⟨toRes_ofRes _, rfl⟩⟩
theorem Mirrors.failWith {α : Type} (os : Str → Str) (n : Nat) (c : Cause) :
    Mirrors (failWith os n c : GenM α) (silent (M.raise .includeError)) := ⟨fun _ => ⟨rfl, rfl⟩⟩
theorem Mirrors.bind {α β : Type} {m : GenM α} {m' : LogM Built α} {f : α → GenM β} {f' : α → LogM Built β} (h : Mirrors m m')
    (k : ∀ a, Mirrors (f a) (f' a)) : Mirrors (m >>= f) (m' >>= f') := ⟨fun s => by
  obtain ⟨h1, h2⟩ := h.run s
  rw [gbind_run, pbind_run]
  rcases hm' : m' s with ⟨l', r'⟩
  rw [hm'] at h1 h2
  rcases hm : m s with ⟨l, ⟨a, s'⟩ | ⟨r, s'⟩ | ⟨e, s'⟩⟩ <;> rw [hm] at h1 h2 <;> cases h1 <;> dsimp only at h2 ⊢ <;> subst h2
  · obtain ⟨k1, k2⟩ := (k a).run s'
    exact ⟨k1, by rw [builds_append, k2]⟩
  · exact ⟨rfl, rfl⟩
  · exact ⟨rfl, rfl⟩⟩
theorem Mirrors.ite {α : Type} {c : Prop} [Decidable c] {m k : GenM α} {m' k' : LogM Built α} (h : Mirrors m m') (h' : Mirrors k k') :
    Mirrors (if c then m else k) (if c then m' else k') := by split <;> assumption
theorem Mirrors.naming {m : GenM Unit} {m' : LogM Built Unit} (t : Nat) (h : Mirrors m m') : Mirrors (naming t m) m' := ⟨fun s => by
  have := h.run s
  unfold Metatab.naming
  rcases hm : m s with ⟨l, ⟨a, s'⟩ | ⟨r, s'⟩ | ⟨e, s'⟩⟩ <;> rw [hm] at this <;> exact this⟩
theorem Mirrors.adding {α : Type} {m : GenM α} {m' : LogM Built α} (f : Source) (h : Mirrors m m') : Mirrors (adding f m) m' := ⟨fun s => by
  have := h.run s
  unfold Metatab.adding
  rcases hm : m s with ⟨l, ⟨a, s'⟩ | ⟨r, s'⟩ | ⟨e, s'⟩⟩ <;> rw [hm] at this <;> exact this⟩

theorem findIncludeDoc_cases (dir n : Str) : (∃ t, includeTarget dir n = some t ∧ findIncludeDoc dir n = .ok t) ∨
    includeTarget dir n = none ∧ findIncludeDoc dir n = .error .includeError := by
  cases h : includeTarget dir n with
  | some t => exact .inl ⟨t, rfl, resolve_ok h⟩
  | none => exact .inr ⟨rfl, resolve_none h⟩

theorem resolveE_run (os : Str → Str) (files : Files) (dir : Str) (n : Nat) (o : Obj) :
    Mirrors (resolveE os files dir n o) (silent (M.lift fun _ => resolveTarget files dir o)) := ⟨fun s => by
  unfold resolveE resolveTarget
  rw [silent_run, lift_run]
  cases o.value with
  | str v =>
    dsimp only
    split
    · rcases findIncludeDoc_cases dir (strip v) with ⟨t, -, e⟩ | ⟨-, e⟩ <;> rw [e] <;> exact ⟨rfl, rfl⟩
    · cases files.decl dir (strip v) <;> exact ⟨rfl, rfl⟩
  | _ => exact ⟨rfl, rfl⟩⟩

theorem argLoopE_run (f : Source) (n : Nat) (load d : Bool) (t : Nat) : ∀ (vs : List Str) (col : Nat),
    Mirrors (argLoopE f n load d t col vs) (argLoopL f n load d t col vs)
  | [], _ => .pure _
  | v :: vs, col => by
    unfold argLoopE argLoopL
    dsimp only
    split
    · exact (Mirrors.building _).bind fun _ => (Mirrors.give _ _).bind fun _ => argLoopE_run f n load d t vs _
    · exact argLoopE_run f n load d t vs _
theorem yieldWithArgsE_run (f : Source) (n : Nat) (load d : Bool) (t : Nat) :
    Mirrors (yieldWithArgsE f n load d t) (yieldWithArgsL f n load d t) :=
  (Mirrors.give _ _).bind fun _ => (Mirrors.still _).bind fun _ => .ite (.pure _) (argLoopE_run ..)

theorem genRowsE_run {os : Str → Str} {files : Files} {sub : Nat → Str → Bool → GenM Unit} {sub' : Str → Bool → LogM Built Unit}
    (h : ∀ n t d, Mirrors (sub n t d) (sub' t d)) (f : Source) (load d : Bool) (dir : Str) : ∀ (rows : List (List Str)) (n ls : Nat),
    Mirrors (genRowsE os files sub f load d dir n ls rows) (genRowsL files sub' f load d dir n ls rows)
  | [], _, _ => .pure _
  | row :: rows, n, ls => by
    have ih := genRowsE_run (os := os) (files := files) h f load d dir rows (n + 1)
    unfold genRowsE genRowsL
    refine .ite (ih _) ((Mirrors.building _).bind fun t => (Mirrors.still _).bind fun o => .ite ?_ (.ite ?_ ?_))
    · exact (resolveE_run ..).bind fun _ => .ite (.failWith ..) ((Mirrors.give _ _).bind fun _ => (Mirrors.still _).bind fun _ =>
        (Mirrors.naming _ (h _ _ _)).bind fun _ => (Mirrors.give _ _).bind fun _ => ih _)
    · exact (Mirrors.still _).bind fun _ => (yieldWithArgsE_run ..).bind fun _ => ih _
    · exact (yieldWithArgsE_run ..).bind fun _ => ih _

/-- A nested generator with its reports. -/
def includedE (os : Str → Str) (files : Files) (nm : Naming) (load : Bool) (fuel : Nat) (n : Nat) (target : Str) (d : Bool) : GenM Unit :=
  match files.rows target with
  | none => failWith os n (.unreadable target)
  | some rows' => genE os files nm load fuel d [] (nm.source target) rows'

theorem genE_succ (os : Str → Str) (files : Files) (nm : Naming) (load : Bool) (fuel : Nat) (d : Bool) (dir : Str) (f : Source)
    (rows : List (List Str)) : genE os files nm load (fuel + 1) d dir f rows = (still M.get >>= fun s =>
      adding f (genRowsE os files (includedE os files nm load fuel) f load d dir 1 s.root rows) >>= fun _ => pure ()) := rfl

theorem genE_run (os : Str → Str) (files : Files) (nm : Naming) (load : Bool) : ∀ (fuel : Nat) (d : Bool) (dir : Str) (f : Source)
    (rows : List (List Str)), Mirrors (genE os files nm load fuel d dir f rows) (genL files nm load fuel d dir f rows)
  | 0, _, _, _, _ => .still _
  | fuel + 1, d, dir, f, rows => by
    rw [genE_succ]
    unfold genL
    refine (Mirrors.still _).bind fun s => (Mirrors.adding _ (genRowsE_run (fun n t d' => ?_) f load d dir rows 1 _)).bind fun _ => .pure _
    unfold includedE
    cases files.rows t with
    | none => exact .failWith ..
    | some rows' => exact genE_run os files nm load fuel d' [] _ rows'

theorem parseRowsE_run (os : Str → Str) (files : Files) (nm : Naming) (fuel : Nat) (path : Str) (rows : List (List Str)) :
    Mirrors (parseRowsE os files nm fuel path rows) (parseRowsL files nm fuel path rows) :=
  (Mirrors.still _).bind fun _ => (genE_run ..).bind fun _ => .still _

/-! ## What a report says -/

/-- If `m`, started in `s`, fails with a report, then `Q` holds of what it did before and of the report. -/
def Fails (Q : List Ev → Report → Prop) {α : Type} (m : GenM α) (s : St) : Prop := ∀ l r s', m s = (l, .failed r s') → Q l r

theorem Fails.still {Q : List Ev → Report → Prop} {α : Type} (m : M α) (s : St) : Fails Q (still m) s := fun l r s' h => by
  unfold Metatab.still at h
  cases hm : m s <;> rw [hm] at h <;> cases h
theorem Fails.building {Q : List Ev → Report → Prop} {α : Type} (m : LogM Built α) (s : St) : Fails Q (building m) s := fun l r s' h => by
  unfold Metatab.building at h
  cases hm : (m s).2 <;> rw [hm] at h <;> cases h
theorem Fails.give {Q : List Ev → Report → Prop} (load : Bool) (t : Nat) (s : St) : Fails Q (give load t) s := fun l r s' h => by
  unfold Metatab.give at h
  cases hm : consume load t s <;> rw [hm] at h <;> cases h
theorem Fails.pure {Q : List Ev → Report → Prop} {α : Type} (a : α) (s : St) : Fails Q (Pure.pure a : GenM α) s := fun l r s' h => by cases h

theorem Fails.bind {Q : List Ev → Report → Prop} {α β : Type} {m : GenM α} {f : α → GenM β} {s : St} (h : Fails Q m s)
    (k : ∀ l a s', m s = (l, .ok a s') → Fails (fun l' r => Q (l ++ l') r) (f a) s') : Fails Q (m >>= f) s := by
  intro l r s' e
  rw [gbind_run] at e
  rcases hm : m s with ⟨l1, ⟨a, s1⟩ | ⟨r1, s1⟩ | ⟨e1, s1⟩⟩ <;> rw [hm] at e
  · dsimp only at e
    rcases hf : f a s1 with ⟨l2, o⟩
    rw [hf] at e
    cases e
    exact k l1 a s1 hm _ _ _ hf
  · cases e; exact h _ _ _ hm
  · cases e

theorem argLoopE_fails (f : Source) (n : Nat) (load d : Bool) (t : Nat) : ∀ {Q : List Ev → Report → Prop} (vs : List Str) (col : Nat) (s : St),
    Fails Q (argLoopE f n load d t col vs) s
  | _, [], _, s => .pure _ s
  | _, v :: vs, col, s => by
    unfold argLoopE
    dsimp only
    split
    · exact .bind (.building _ _) fun _ _ _ _ => .bind (.give _ _ _) fun _ _ _ _ => argLoopE_fails f n load d t vs _ _
    · exact argLoopE_fails f n load d t vs _ _
theorem yieldWithArgsE_fails {Q : List Ev → Report → Prop} (f : Source) (n : Nat) (load d : Bool) (t : Nat) (s : St) :
    Fails Q (yieldWithArgsE f n load d t) s := by
  unfold yieldWithArgsE
  refine .bind (.give _ _ _) fun _ _ _ _ => .bind (.still _ _) fun _ o s' _ => ?_
  split
  · exact .pure _ _
  · exact argLoopE_fails _ _ _ _ _ _ _ _

/-- What a report says, once it has passed the generator of the file `f` with the rows `rows`; `l` is what that generator did. -/
structure Tells (os : Str → Str) (files : Files) (nm : Naming) (f : Source) (dir : Str) (rows : List (List Str)) (l : List Ev) (r : Report) :
    Prop where
  msg : r.msg = r.why.text os ++ passed (r.within.map (·.name))
  last : r.within.getLast? = some f
  chain : ∀ g ∈ r.within.dropLast, g = nm.source g.ref ∧ ∃ rows', files.rows g.ref = some rows'
  spot : ∃ f0 dir0 rows0 row, r.within.head? = some f0 ∧ (r.within.length = 1 → dir0 = dir ∧ rows0 = rows) ∧
    (1 < r.within.length → dir0 = [] ∧ files.rows f0.ref = some rows0) ∧
    1 ≤ r.line ∧ rows0[r.line - 1]? = some row ∧ Hinders files.rows files.decl dir0 f0.ref row r.why
  term : (r.term = none ∧ r.within.length = 1 ∧ ∀ t, r.why ≠ .unreadable t) ∨
    ∃ t, r.term = some t ∧ lastYield l = some t ∧ (1 < r.within.length ∨ ∃ u, r.why = .unreadable u) ∧
      ∀ u, r.why = .unreadable u → ∃ f0, r.within.head? = some f0 ∧ (⟨t, ⟨f0.file, r.line, 1⟩, f0.ref⟩ : Built) ∈ builds l

theorem Tells.before {os : Str → Str} {files : Files} {nm : Naming} {f : Source} {dir : Str} {rows : List (List Str)} {l : List Ev} {r : Report}
    (h : Tells os files nm f dir rows l r) (l0 : List Ev) : Tells os files nm f dir rows (l0 ++ l) r := by
  refine ⟨h.msg, h.last, h.chain, h.spot, ?_⟩
  rcases h.term with h | ⟨t, h1, h2, h3, h4⟩
  · exact .inl h
  · refine .inr ⟨t, h1, by rw [lastYield_append, h2]; rfl, h3, fun u hu => ?_⟩
    obtain ⟨f0, h5, h6⟩ := h4 u hu
    exact ⟨f0, h5, by rw [builds_append]; exact List.mem_append_right _ h6⟩

/-- What the handler around the rows of `f` makes of a report. -/
def Report.past (r : Report) (f : Source) : Report := { r with msg := r.msg ++ inText f, within := r.within ++ [f] }

theorem passed_append (f : Source) : ∀ l : List Source, passed (l.map (·.name)) ++ inText f = passed ((l ++ [f]).map (·.name))
  | [] => by simp [passed, inText]
  | g :: l => by
    have := passed_append f l
    simp only [List.map_cons, List.cons_append, passed, List.append_assoc] at this ⊢
    rw [this]

/-- A report of the generator itself. -/
theorem Tells.own {os : Str → Str} {files : Files} {nm : Naming} {f : Source} {dir : Str} {rows : List (List Str)} {l : List Ev} {row : List Str}
    {n : Nat} {c : Cause} {t : Option Nat} (hn : 1 ≤ n) (hrow : rows[n - 1]? = some row) (hc : Hinders files.rows files.decl dir f.ref row c)
    (ht : (t = none ∧ ∀ u, c ≠ .unreadable u) ∨
      ∃ i u, t = some i ∧ c = .unreadable u ∧ lastYield l = some i ∧ (⟨i, ⟨f.file, n, 1⟩, f.ref⟩ : Built) ∈ builds l) :
    Tells os files nm f dir rows l (Report.past ⟨t, c.text os, c, n, []⟩ f) := by
  refine ⟨?_, rfl, ?_, ⟨f, dir, rows, row, rfl, fun _ => ⟨rfl, rfl⟩, ?_, hn, hrow, hc⟩, ?_⟩
  · show _ ++ inText f = _ ++ passed [f.name]
    simp [passed, inText, Report.past]
  · intro g hg; cases hg
  · intro h; exact absurd h (by simp [Report.past])
  · rcases ht with ⟨h1, h2⟩ | ⟨i, u, h1, h2, h3, h4⟩
    · exact .inl ⟨h1, rfl, h2⟩
    · exact .inr ⟨i, h1, h3, .inr ⟨u, h2⟩, fun _ _ => ⟨f, rfl, h4⟩⟩

/-- A report of a nested generator. -/
theorem Tells.nested {os : Str → Str} {files : Files} {nm : Naming} {f : Source} {dir target : Str} {rows rows' : List (List Str)} {l0 l : List Ev}
    {r : Report} {t : Nat} (hf : files.rows target = some rows') (h : Tells os files nm (nm.source target) [] rows' l r)
    (h0 : lastYield l0 = some t) :
    Tells os files nm f dir rows (l0 ++ l) (Report.past { r with term := some ((lastYield l).getD t) } f) := by
  obtain ⟨f0, dir0, rows0, row, h1, h2, h3, h4, h5, h6⟩ := h.spot
  have hne : r.within ≠ [] := by intro e; rw [e] at h1; cases h1
  have hpos : 0 < r.within.length := List.length_pos_iff.2 hne
  have hlen : (r.within ++ [f]).length = r.within.length + 1 := by simp
  have hhead : (r.within ++ [f]).head? = some f0 := by rw [List.head?_append, h1]; rfl
  have hrows : dir0 = [] ∧ files.rows f0.ref = some rows0 := by
    rcases Nat.lt_or_eq_of_le hpos with e | e
    · exact h3 e
    · obtain ⟨g1, g2⟩ := h2 e.symm
      refine ⟨g1, ?_⟩
      have hl := h.last
      rcases hw : r.within with _ | ⟨a, _ | ⟨b, m⟩⟩
      · exact absurd hw hne
      · rw [hw] at h1 hl
        cases h1; cases hl
        rw [g2]; exact hf
      · rw [hw] at e; simp at e
  refine ⟨?_, ?_, ?_, ⟨f0, dir0, rows0, row, hhead, ?_, fun _ => hrows, h4, h5, h6⟩, .inr ⟨_, rfl, ?_, .inl ?_, ?_⟩⟩
  · show r.msg ++ inText f = _
    rw [h.msg, List.append_assoc, passed_append]; rfl
  · show (r.within ++ [f]).getLast? = some f
    simp
  · intro g hg
    have hg : g ∈ (r.within ++ [f]).dropLast := hg
    rw [List.dropLast_concat] at hg
    rcases List.eq_nil_or_concat r.within with e | ⟨m, a, e⟩
    · exact absurd e hne
    · have hl := h.last
      have hc := h.chain
      rw [e] at hg hl hc
      rw [List.concat_eq_append] at hg hl hc
      rw [List.dropLast_concat] at hc
      rcases List.mem_append.1 hg with hg | hg
      · exact hc g hg
      · rw [List.mem_singleton.1 hg]
        simp at hl
        rw [hl]; exact ⟨rfl, rows', hf⟩
  · intro e
    have e : (r.within ++ [f]).length = 1 := e
    omega
  · rw [lastYield_append, h0]
    cases lastYield l <;> rfl
  · show 1 < (r.within ++ [f]).length
    omega
  · intro u hu
    rcases h.term with ⟨-, -, hx⟩ | ⟨i, -, hi, -, hx⟩
    · exact absurd hu (hx u)
    · obtain ⟨f1, e1, e2⟩ := hx u hu
      rw [h1] at e1
      cases e1
      refine ⟨f0, hhead, ?_⟩
      rw [builds_append, hi]
      exact List.mem_append_right _ e2

/-- The cells of an include or declare row. -/
theorem row_names {row : List Str} {o : Obj} {p r : Str} (hn : skipRow row = false) (hs : splitTermLower (row.headD []) = .ok (p, r))
    (hp : o.pt = p) (hr : o.rt = r) (hv : o.value = (Val.str ((row[1]?).getD [])).mk)
    (hj : o.joinLc = py!"root.include" ∨ o.joinLc = py!"root.declare") :
    o.value = .none ∨ ∃ v, o.value = .str v ∧ strip v = v ∧ (o.joinLc = py!"root.include" ∧ includeRow row = some v ∨
      o.joinLc = py!"root.declare" ∧ includeRow row = none ∧ declareRow row = some v) := by
  obtain _ | ⟨c, rest⟩ := row
  · cases hn
  have hv : o.value = (Val.str (rest.headD [])).mk := by rw [hv]; cases rest <;> rfl
  have hs : splitTermLower c = .ok (p, r) := hs
  obtain ⟨-, -, -, hd1, hd2, hl1, hl2⟩ := splitTermLower_cases hs
  have hjo : o.joinLc = dotJoin p r := by show dotJoin (lower o.pt) (lower o.rt) = _; rw [hp, hr, hl1, hl2]
  by_cases hne : rest.headD [] = []
  · exact .inl (by rw [hv, hne]; rfl)
  have hval : o.value = .str (strip (rest.headD [])) := by rw [hv, cellValue_mk]; unfold cellValue; rw [if_neg hne]
  have hnoise : ¬ (strip c = [] ∨ (strip c).head? = some '#') := noise_of hn
  have names : ∀ {k}, o.joinLc = dotJoin (py!"root") k → p = ROOT ∧ r = k := by
    intro k e
    rw [hjo] at e
    obtain ⟨e1, e2⟩ := (dotJoin_inj hd1 hd2).1 e.symm
    exact ⟨e1.symm, e2.symm⟩
  refine .inr ⟨_, hval, strip_strip _, ?_⟩
  rcases hj with hj | hj
  · obtain ⟨rfl, rfl⟩ := names (k := py!"include") hj
    exact .inl ⟨hj, by rw [includeRow, if_neg hnoise, if_pos ⟨cellNames_of_root hs, hne⟩]⟩
  · obtain ⟨rfl, rfl⟩ := names (k := py!"declare") hj
    refine .inr ⟨hj, ?_, by rw [declareRow, if_neg hnoise, if_pos ⟨cellNames_of_root hs, hne⟩]⟩
    rw [includeRow, if_neg hnoise, if_neg]
    rw [cellNames_of_root hs]; rintro ⟨e, -⟩; exact absurd e (by decide)

/-- What the search for the target gives. -/
theorem resolveE_cases {os : Str → Str} {files : Files} {dir : Str} {n : Nat} {row : List Str} {o : Obj} {ref : Str} (s : St)
    (h : o.value = .none ∨ ∃ v, o.value = .str v ∧ strip v = v ∧ (o.joinLc = py!"root.include" ∧ includeRow row = some v ∨
      o.joinLc = py!"root.declare" ∧ includeRow row = none ∧ declareRow row = some v)) :
    resolveE os files dir n o s = ([], .err .attributeError s) ∨
    (∃ t, resolveE os files dir n o s = ([], .ok t s) ∧ leads files.decl dir row = some t) ∨
    ∃ c, resolveE os files dir n o s = ([], .failed ⟨none, c.text os, c, n, []⟩ s) ∧ Hinders files.rows files.decl dir ref row c ∧
      ∀ u, c ≠ .unreadable u := by
  unfold resolveE
  rcases h with h | ⟨v, h, hv, ⟨hj, hi⟩ | ⟨hj, hi, hd⟩⟩ <;> rw [h] <;> dsimp only
  · exact .inl rfl
  · rw [if_pos hj, hv]
    rcases findIncludeDoc_cases dir v with ⟨t, ht, e⟩ | ⟨ht, e⟩ <;> rw [e]
    · exact .inr (.inl ⟨t, rfl, by unfold leads; rw [hi]; exact ht⟩)
    · exact .inr (.inr ⟨.noPath v, rfl, ⟨hi, ht⟩, fun u e => by cases e⟩)
  · rw [if_neg (by rw [hj]; decide), hv]
    cases e : files.decl dir v with
    | some t => exact .inr (.inl ⟨t, rfl, by unfold leads; rw [hi, hd]; exact e⟩)
    | none => exact .inr (.inr ⟨.noDecl v, rfl, ⟨hd, e⟩, fun u e => by cases e⟩)

/-- What a nested generator is asked to tell. -/
def SubTells (os : Str → Str) (files : Files) (nm : Naming) (n : Nat) (target : Str) (l : List Ev) (r : Report) : Prop :=
  (files.rows target = none ∧ l = [] ∧ r = ⟨none, (Cause.unreadable target).text os, .unreadable target, n, []⟩) ∨
  ∃ rows', files.rows target = some rows' ∧ Tells os files nm (nm.source target) [] rows' l r

theorem genRowsE_tells {os : Str → Str} {files : Files} {nm : Naming} {sub : Nat → Str → Bool → GenM Unit} {f : Source} {load d : Bool}
    {dir : Str} {whole : List (List Str)} (hsub : ∀ n t d s, Fails (SubTells os files nm n t) (sub n t d) s) :
    ∀ {rows : List (List Str)} {n ls : Nat} {s : St}, 1 ≤ n → (∀ i, rows[i]? = whole[n - 1 + i]?) →
    Fails (fun l r => Tells os files nm f dir whole l (r.past f)) (genRowsE os files sub f load d dir n ls rows) s
  | [], _, _, s, _, _ => .pure _ s
  | row :: rows, n, ls, s, hn, hrows => by
    have ih : ∀ l0 ls s, Fails (fun l r => Tells os files nm f dir whole (l0 ++ l) (r.past f))
        (genRowsE os files sub f load d dir (n + 1) ls rows) s := fun l0 ls s l r s' e =>
      (genRowsE_tells (rows := rows) (n := n + 1) hsub (Nat.le_succ_of_le hn) (fun i => by
        have := hrows (i + 1)
        rw [List.getElem?_cons_succ] at this
        rw [this]; congr 1; omega) l r s' e).before l0
    have hrow : whole[n - 1]? = some row := by have := hrows 0; rw [Nat.add_zero] at this; rw [← this]; rfl
    unfold genRowsE
    cases hs : skipRow row with
    | true => rw [if_pos rfl]; exact ih [] _ _
    | false =>
      rw [if_neg (by decide)]
      refine .bind (.building _ _) fun l1 t s1 e1 => .bind (.still _ _) fun l2 o s2 e2 => ?_
      have e2 : (([] : List Ev), Out.ok (s1.heap t) s1) = (l2, .ok o s2) := e2
      cases e2
      have e1' : ∃ col, (rowTermL f n d row s) = ([⟨t, ⟨f.file, n, col⟩, f.ref⟩], .ok t s1) ∧ rowTerm d row s = .ok t s1 ∧
          l1 = [.built ⟨t, ⟨f.file, n, col⟩, f.ref⟩] ∧ ((s1.heap t).cls.isSection = false → col = 1) := by
        unfold building rowTermL at e1
        unfold rowTermL
        cases hr : rowTerm d row s with
        | err e s' => rw [hr] at e1; cases e1
        | ok t' s' =>
          rw [hr] at e1
          cases e1
          exact ⟨_, rfl, rfl, rfl, fun h => by rw [h]; rfl⟩
      obtain ⟨col, -, hrt, rfl, hcol⟩ := e1'
      by_cases hj : (s1.heap t).joinLc = py!"root.include" ∨ (s1.heap t).joinLc = py!"root.declare"
      · rw [if_pos hj]
        obtain ⟨p, q, hsp, hp, hq, hv⟩ := rowTerm_ok hrt
        obtain ⟨-, -, hbirth, hraw⟩ := rowTerm_birth hrt
        have hc : (s1.heap t).cls.isSection = false := by
          cases hc : (s1.heap t).cls.isSection with
          | false => rfl
          | true =>
            have := hbirth.sec hc
            rw [← hraw] at this
            rcases hj with hj | hj <;> rw [hj] at this <;> exact absurd this (by decide)
        have hcol := hcol hc
        subst hcol
        have hrn := row_names hs hsp hp hq hv hj
        rcases resolveE_cases (os := os) (files := files) (dir := dir) (n := n) (ref := f.ref) s1 hrn with hx | ⟨target, hx, hl⟩ | ⟨c, hx, hh, hu⟩
        · intro l r s' e
          rw [gbind_run, hx] at e
          cases e
        · refine .bind (fun l r s' e => by rw [hx] at e; cases e) fun lx target' s2 ex => ?_
          rw [hx] at ex
          cases ex
          by_cases hloop : target = f.ref
          · rw [if_pos hloop]
            intro l r s' e
            cases e
            exact (Tells.own (l := _) hn hrow (show Hinders _ _ _ _ _ (.loop target) from ⟨hl, hloop⟩) (.inl ⟨rfl, fun u e => by cases e⟩))
          · rw [if_neg hloop]
            refine .bind (.give _ _ _) fun lg _ s3 eg => .bind (.still _ _) fun lo o s4 eo => .bind ?_ fun lr _ s5 _ => .bind (.give _ _ _) fun _ _ s6 _ => ?_
            · have hlg : lg = [.yielded t] := by
                unfold give at eg
                exact (Prod.mk.inj eg).1.symm
              have hlo : lo = [] := by
                unfold still at eo
                exact (Prod.mk.inj eo).1.symm
              subst hlg hlo
              intro l r s' e
              unfold naming at e
              rcases hm : sub n target (lower o.rt = py!"declare") s4 with ⟨l4, ⟨a, s7⟩ | ⟨r4, s7⟩ | ⟨e4, s7⟩⟩ <;> rw [hm] at e <;> cases e
              rcases hsub _ _ _ _ _ _ _ hm with ⟨hx, rfl, rfl⟩ | ⟨rows', hx, ht⟩
              · exact Tells.own hn hrow (show Hinders _ _ _ _ _ (.unreadable target) from ⟨hl, hloop, hx⟩)
                  (.inr ⟨t, target, rfl, rfl, rfl, List.mem_cons_self⟩)
              · exact Tells.nested (l0 := [.built ⟨t, ⟨f.file, n, 1⟩, f.ref⟩, .yielded t]) hx ht rfl
            · intro l r s' e
              have := ih [] _ _ l r s' e
              simp only [← List.append_assoc]
              exact this.before _
        · intro l r s' e
          rw [gbind_run, hx] at e
          cases e
          exact Tells.own hn hrow hh (.inl ⟨rfl, hu⟩)
      · rw [if_neg hj]
        split
        · exact .bind (.still _ _) fun _ _ _ _ => .bind (yieldWithArgsE_fails _ _ _ _ _ _) fun _ _ _ _ l r s' e => by
            have := ih [] _ _ l r s' e
            simp only [← List.append_assoc]
            exact this.before _
        · exact .bind (yieldWithArgsE_fails _ _ _ _ _ _) fun _ _ _ _ l r s' e => by
            have := ih [] _ _ l r s' e
            simp only [← List.append_assoc]
            exact this.before _

theorem genE_tells {os : Str → Str} {files : Files} {nm : Naming} {load : Bool} : ∀ {fuel : Nat} {d : Bool} {dir : Str} {f : Source}
    {rows : List (List Str)} {s : St}, Fails (Tells os files nm f dir rows) (genE os files nm load fuel d dir f rows) s
  | 0, _, _, _, _, s => .still _ s
  | fuel + 1, d, dir, f, rows, s => by
    rw [genE_succ]
    refine .bind (.still _ _) fun l s0 s1 e => .bind ?_ fun _ _ _ _ => .pure _ _
    have hl : l = [] := by
      unfold still at e
      exact (Prod.mk.inj e).1.symm
    subst hl
    intro l r s' e
    unfold adding at e
    rcases hm : genRowsE os files (includedE os files nm load fuel) f load d dir 1 s0.root rows s1 with ⟨l4, ⟨a, s7⟩ | ⟨r4, s7⟩ | ⟨e4, s7⟩⟩ <;>
      rw [hm] at e <;> cases e
    refine genRowsE_tells (fun n t d s => ?_) (Nat.le_refl _) (fun i => by rw [Nat.sub_self, Nat.zero_add]) _ _ _ hm
    unfold includedE
    cases hx : files.rows t with
    | none =>
      intro l r s' e
      cases e
      exact .inl ⟨hx, rfl, rfl⟩
    | some rows' =>
      intro l r s' e
      exact .inr ⟨rows', hx, genE_tells _ _ _ e⟩

theorem parseRowsE_tells (os : Str → Str) (files : Files) (nm : Naming) (fuel : Nat) (path : Str) (rows : List (List Str)) (s : St) :
    Fails (Tells os files nm (nm.top path) (dirname path) rows) (parseRowsE os files nm fuel path rows) s :=
  .bind (.still _ _) fun l _ _ e => .bind (fun l' r s' e' => (genE_tells _ _ _ e').before l) fun _ _ _ _ => .still _ _

/-! ## Every `IncludeError` has a report -/

/-- `m` raises no `IncludeError` without a report. -/
def Reported {α : Type} (m : GenM α) : Prop := ∀ s l s', m s ≠ (l, .err .includeError s')

theorem Reported.pure {α : Type} (a : α) : Reported (Pure.pure a : GenM α) := fun _ _ _ h => by cases h
theorem Reported.failWith {α : Type} (os : Str → Str) (n : Nat) (c : Cause) : Reported (failWith os n c : GenM α) := fun _ _ _ h => by cases h
theorem Reported.still {α : Type} {m : M α} (hm : Firm m) : Reported (still m) := fun s l s' h => by
  unfold Metatab.still at h
  cases e : m s <;> rw [e] at h <;> cases h
  exact hm _ _ e
theorem Reported.give (load : Bool) (t : Nat) : Reported (give load t) := fun s l s' h => by
  unfold Metatab.give at h
  cases e : consume load t s <;> rw [e] at h <;> cases h
  exact fm_consume _ _ _ _ e
theorem Reported.building {α : Type} {m : LogM Built α} {m' : M α} (he : Erases m m') (hm : Firm m') : Reported (building m) := fun s l s' h => by
  unfold Metatab.building at h
  rw [he.run s] at h
  cases e : m' s <;> rw [e] at h <;> cases h
  exact hm _ _ e
theorem Reported.bind {α β : Type} {m : GenM α} {f : α → GenM β} (h : Reported m) (k : ∀ a, Reported (f a)) : Reported (m >>= f) := by
  intro s l s' e
  rw [gbind_run] at e
  rcases hm : m s with ⟨l1, ⟨a, s1⟩ | ⟨r1, s1⟩ | ⟨e1, s1⟩⟩ <;> rw [hm] at e
  · dsimp only at e
    rcases hf : f a s1 with ⟨l2, o⟩
    rw [hf] at e
    cases e
    exact k _ _ _ _ hf
  · cases e
  · cases e; exact h _ _ _ hm
theorem Reported.ite {α : Type} {c : Prop} [Decidable c] {m k : GenM α} (h : Reported m) (h' : Reported k) : Reported (if c then m else k) := by
  split <;> assumption
theorem Reported.naming {m : GenM Unit} (t : Nat) (h : Reported m) : Reported (naming t m) := fun s l s' e => by
  unfold Metatab.naming at e
  rcases hm : m s with ⟨l1, ⟨a, s1⟩ | ⟨r1, s1⟩ | ⟨e1, s1⟩⟩ <;> rw [hm] at e <;> cases e
  exact h _ _ _ hm
theorem Reported.adding {α : Type} {m : GenM α} (f : Source) (h : Reported m) : Reported (adding f m) := fun s l s' e => by
  unfold Metatab.adding at e
  rcases hm : m s with ⟨l1, ⟨a, s1⟩ | ⟨r1, s1⟩ | ⟨e1, s1⟩⟩ <;> rw [hm] at e <;> cases e
  exact h _ _ _ hm

theorem resolveE_reported (os : Str → Str) (files : Files) (dir : Str) (n : Nat) (o : Obj) : Reported (resolveE os files dir n o) := by
  unfold resolveE
  split
  · refine .ite ?_ ?_ <;> split
    · exact .pure _
    · exact .failWith _ _ _
    · exact .pure _
    · exact .failWith _ _ _
  · exact .still (Firm.raise (by decide))
theorem argLoopE_reported (f : Source) (n : Nat) (load d : Bool) (t : Nat) : ∀ (vs : List Str) (col : Nat), Reported (argLoopE f n load d t col vs)
  | [], _ => .pure _
  | v :: vs, col => by
    unfold argLoopE
    dsimp only
    split
    · exact .bind (.building (argTermL_run f n d t col v) (fm_argTerm _ _ _ _)) fun _ => .bind (.give _ _) fun _ => argLoopE_reported f n load d t vs _
    · exact argLoopE_reported f n load d t vs _
theorem yieldWithArgsE_reported (f : Source) (n : Nat) (load d : Bool) (t : Nat) : Reported (yieldWithArgsE f n load d t) :=
  .bind (.give _ _) fun _ => .bind (.still (Firm.obj _)) fun _ => .ite (.pure _) (argLoopE_reported _ _ _ _ _ _ _)
theorem genRowsE_reported {os : Str → Str} {files : Files} {sub : Nat → Str → Bool → GenM Unit} (h : ∀ n t d, Reported (sub n t d)) (f : Source)
    (load d : Bool) (dir : Str) : ∀ (rows : List (List Str)) (n ls : Nat), Reported (genRowsE os files sub f load d dir n ls rows)
  | [], _, _ => .pure _
  | row :: rows, n, ls => by
    have ih := genRowsE_reported (os := os) (files := files) h f load d dir rows (n + 1)
    unfold genRowsE
    refine .ite (ih _) (.bind (.building (rowTermL_run f n d row) (fm_rowTerm _ _)) fun t => .bind (.still (Firm.obj _)) fun o => .ite ?_ (.ite ?_ ?_))
    · exact .bind (resolveE_reported _ _ _ _ _) fun _ => .ite (.failWith _ _ _) (.bind (.give _ _) fun _ => .bind (.still (Firm.obj _)) fun _ =>
        .bind (.naming _ (h _ _ _)) fun _ => .bind (.give _ _) fun _ => ih _)
    · exact .bind (.still (Firm.lift fun s => by unfold resolveSection; calm [])) fun _ => .bind (yieldWithArgsE_reported _ _ _ _ _) fun _ => ih _
    · exact .bind (yieldWithArgsE_reported _ _ _ _ _) fun _ => ih _
theorem genE_reported (os : Str → Str) (files : Files) (nm : Naming) (load : Bool) : ∀ (fuel : Nat) (d : Bool) (dir : Str) (f : Source)
    (rows : List (List Str)), Reported (genE os files nm load fuel d dir f rows)
  | 0, _, _, _, _ => .still (Firm.raise (by decide))
  | fuel + 1, d, dir, f, rows => by
    rw [genE_succ]
    refine .bind (.still Firm.get) fun s => .bind (.adding _ (genRowsE_reported (fun n t d' => ?_) f load d dir rows 1 _)) fun _ => .pure _
    unfold includedE
    split
    · exact .failWith _ _ _
    · exact genE_reported os files nm load fuel d' [] _ _
theorem parseRowsE_reported (os : Str → Str) (files : Files) (nm : Naming) (fuel : Nat) (path : Str) (rows : List (List Str)) :
    Reported (parseRowsE os files nm fuel path rows) :=
  .bind (.still (Firm.modify _)) fun _ => .bind (genE_reported _ _ _ _ _ _ _ _ _) fun _ => .still fm_finishLoad

end Metatab
