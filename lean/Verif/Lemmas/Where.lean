import Verif.Model.Where
import Verif.Lemmas.Stream
import Verif.Lemmas.Fixed
/-! Reading rows with a list of the objects built reads as without it; what the list says holds of the objects at the end. -/
namespace Metatab
open Py

instance {ε : Type} : LawfulMonad (LogM ε) := LawfulMonad.mk' (LogM ε)
  (id_map := fun m => by
    funext s
    show (match m s with | (l, .ok a s') => (l ++ [], .ok a s') | (l, .err e s') => (l, .err e s')) = m s
    rcases m s with ⟨l, _ | _⟩ <;> simp)
  (pure_bind := fun a f => by
    funext s
    rfl)
  (bind_assoc := fun m f g => by
    funext s
    simp only [pbind_run]
    rcases m s with ⟨l, a | ⟨e, s'⟩⟩
    · dsimp only
      rcases f a _ with ⟨l', b | _⟩ <;> simp
    · rfl)

/-- Without its list `m` is `m'`. -/
structure Erases {ε α : Type} (m : LogM ε α) (m' : M α) : Prop where
  run : ∀ s, (m s).2 = m' s

theorem Erases.silent {ε α : Type} (m : M α) : Erases (silent m : LogM ε α) m := ⟨fun _ => rfl⟩
theorem Erases.pure {ε α : Type} (a : α) : Erases (Pure.pure a : LogM ε α) (Pure.pure a) := ⟨fun _ => rfl⟩
theorem Erases.bind {ε α β : Type} {m : LogM ε α} {m' : M α} {f : α → LogM ε β} {f' : α → M β} (h : Erases m m')
    (k : ∀ a, Erases (f a) (f' a)) : Erases (m >>= f) (m' >>= f') := ⟨fun s => by
  rw [pbind_run, bind_run, ← h.run s]
  rcases m s with ⟨l, a | _⟩
  · exact (k _).run _
  · rfl⟩
theorem Erases.ite {ε α : Type} {c : Prop} [Decidable c] {m k : LogM ε α} {m' k' : M α} (h : Erases m m') (h' : Erases k k') :
    Erases (if c then m else k) (if c then m' else k') := by split <;> assumption

theorem rowTermL_run (f : Source) (n : Nat) (d : Bool) (row : List Str) : Erases (rowTermL f n d row) (rowTerm d row) := ⟨fun s => by
  unfold rowTermL; cases rowTerm d row s <;> rfl⟩
theorem argTermL_run (f : Source) (n : Nat) (d : Bool) (t col : Nat) (v : Str) : Erases (argTermL f n d t col v) (argTerm d t col v) := ⟨fun s => by
  unfold argTermL; cases argTerm d t col v s <;> rfl⟩
theorem argLoopL_run (f : Source) (n : Nat) (load d : Bool) (t : Nat) : ∀ (vs : List Str) (col : Nat),
    Erases (argLoopL f n load d t col vs) (argLoop load d t col vs)
  | [], _ => .pure _
  | v :: vs, col => by
    unfold argLoopL argLoop
    dsimp only
    split
    · exact (argTermL_run ..).bind fun _ => (Erases.silent _).bind fun _ => argLoopL_run f n load d t vs _
    · exact argLoopL_run f n load d t vs _
theorem yieldWithArgsL_run (f : Source) (n : Nat) (load d : Bool) (t : Nat) : Erases (yieldWithArgsL f n load d t) (yieldWithArgs load d t) :=
  (Erases.silent _).bind fun _ => (Erases.silent _).bind fun _ => .ite (.pure _) (argLoopL_run ..)

theorem genRowsL_run {files : Files} {sub : Str → Bool → LogM Built Unit} {sub' : Str → Bool → M Unit} (h : ∀ t d, Erases (sub t d) (sub' t d))
    (f : Source) (load d : Bool) (dir : Str) : ∀ (rows : List (List Str)) (n ls : Nat),
    Erases (genRowsL files sub f load d dir n ls rows) (genRows files sub' load d dir f.ref ls rows)
  | [], _, _ => .pure _
  | row :: rows, n, ls => by
    have ih := genRowsL_run (files := files) h f load d dir rows (n + 1)
    unfold genRowsL genRows
    refine .ite (ih _) ((rowTermL_run ..).bind fun t => (Erases.silent _).bind fun o => .ite ?_ (.ite ?_ ?_))
    · exact (Erases.silent _).bind fun _ => .ite (.silent _) ((Erases.silent _).bind fun _ => (Erases.silent _).bind fun _ => (h _ _).bind fun _ =>
        (Erases.silent _).bind fun _ => ih _)
    · exact (Erases.silent _).bind fun _ => (yieldWithArgsL_run ..).bind fun _ => ih _
    · exact (yieldWithArgsL_run ..).bind fun _ => ih _

/-- A nested generator with its list. -/
def includedL (files : Files) (nm : Naming) (load : Bool) (fuel : Nat) (target : Str) (d : Bool) : LogM Built Unit :=
  match files.rows target with
  | none => silent (M.raise .includeError)
  | some rows' => genL files nm load fuel d [] (nm.source target) rows'

theorem genL_succ (files : Files) (nm : Naming) (load : Bool) (fuel : Nat) (d : Bool) (dir : Str) (f : Source) (rows : List (List Str)) (s : St) :
    genL files nm load (fuel + 1) d dir f rows s =
      (genRowsL files (includedL files nm load fuel) f load d dir 1 s.root rows >>= fun _ => pure ()) s := rfl

/-- `genL` reads as `gen` does. -/
theorem genL_run (files : Files) (nm : Naming) (load : Bool) : ∀ (fuel : Nat) (d : Bool) (dir : Str) (f : Source) (rows : List (List Str)),
    Erases (genL files nm load fuel d dir f rows) (gen files load fuel d dir f.ref rows)
  | 0, _, _, _, _ => .silent _
  | fuel + 1, d, dir, f, rows => by
    unfold genL gen
    refine (Erases.silent _).bind fun s => (genRowsL_run (fun t d' => ?_) f load d dir rows 1 _).bind fun _ => .pure _
    cases files.rows t with
    | none => exact .silent _
    | some rows' => exact genL_run files nm load fuel d' [] _ rows'

theorem parseRowsL_run (files : Files) (nm : Naming) (fuel : Nat) (path : Str) (rows : List (List Str)) :
    Erases (parseRowsL files nm fuel path rows) (parseRows files fuel path rows) :=
  (Erases.silent _).bind fun _ => (genL_run ..).bind fun _ => .silent _

/-! ## What the list says -/

/-- What a list entry says of an object holds as long as what the object was built with stays. -/
def Steady (P : Built → Obj → Prop) : Prop := ∀ b o o', SameBirth o o' → P b o → P b o'

/-- Started in `s`, `m` lists only new objects, in the order of their building and each once, and `P` holds of them at the end. -/
structure Lists (P : Built → Obj → Prop) {α : Type} (m : LogM Built α) (s : St) : Prop where
  fixed : Fixed s (m s).2.st
  new : ∀ b ∈ (m s).1, s.next ≤ b.id ∧ b.id < (m s).2.st.next
  order : (m s).1.Pairwise fun b b' => b.id < b'.id
  holds : ∀ b ∈ (m s).1, P b ((m s).2.st.heap b.id)

theorem Lists.silent {P : Built → Obj → Prop} {α : Type} {m : M α} (h : Pres Fixed m) (s : St) : Lists P (Metatab.silent m) s :=
  ⟨h s, (fun _ hb => by cases hb), List.Pairwise.nil, (fun _ hb => by cases hb)⟩
theorem Lists.pure {P : Built → Obj → Prop} {α : Type} (a : α) (s : St) : Lists P (Pure.pure a : LogM Built α) s :=
  ⟨Pre.refl s, (fun _ hb => by cases hb), List.Pairwise.nil, (fun _ hb => by cases hb)⟩

theorem Lists.bind {P : Built → Obj → Prop} (hP : Steady P) {α β : Type} {m : LogM Built α} {f : α → LogM Built β} {s : St} (h : Lists P m s)
    (k : ∀ l a s', m s = (l, .ok a s') → Fixed s s' → Lists P (f a) s') : Lists P (m >>= f) s := by
  rcases hm : m s with ⟨l, ⟨a, s'⟩ | ⟨e, s'⟩⟩
  · have hf : Fixed s s' := by have := h.fixed; rw [hm] at this; exact this
    have hk := k l a s' hm hf
    have e : (m >>= f) s = (l ++ (f a s').1, (f a s').2) := by rw [pbind_run, hm]
    have new : ∀ b ∈ l, s.next ≤ b.id ∧ b.id < s'.next := by have := h.new; rw [hm] at this; exact this
    refine ⟨?_, ?_, ?_, ?_⟩ <;> rw [e]
    · exact Pre.trans hf hk.fixed
    · intro b hb
      rcases List.mem_append.1 hb with hb | hb
      · exact ⟨(new b hb).1, Nat.lt_of_lt_of_le (new b hb).2 hk.fixed.next⟩
      · exact ⟨Nat.le_trans hf.next (hk.new b hb).1, (hk.new b hb).2⟩
    · refine List.pairwise_append.2 ⟨by have := h.order; rw [hm] at this; exact this, hk.order, fun b hb b' hb' => ?_⟩
      exact Nat.lt_of_lt_of_le (new b hb).2 (hk.new b' hb').1
    · intro b hb
      rcases List.mem_append.1 hb with hb | hb
      · have := h.holds b (by rw [hm]; exact hb)
        rw [hm] at this
        exact hP _ _ _ (hk.fixed.birth _ (new b hb).2) this
      · exact hk.holds b hb
  · have e' : (m >>= f) s = (l, .err e s') := by rw [pbind_run, hm]
    have h' := h
    refine ⟨?_, ?_, ?_, ?_⟩ <;> rw [e']
    · have := h.fixed; rw [hm] at this; exact this
    · have := h.new; rw [hm] at this; exact this
    · have := h.order; rw [hm] at this; exact this
    · have := h.holds; rw [hm] at this; exact this

theorem newTermObj_ok {c : Cls} {n : Str} {v : Val} {a : List Str} {p x : Option Nat} {col t : Nat} {d : Bool} {s s' : St}
    (h : newTermObj c n v a p x col d s = .ok t s') : t = s.next ∧ s'.next = s.next + 1 ∧ (s'.heap t).raw = n ∧ (s'.heap t).args = a.map strip ∧
      (s'.heap t).cls = c ∧ (s'.heap t).col = col ∧ (p = none → ∃ q r, splitTermLower n = .ok (q, r) ∧ (s'.heap t).pt = q ∧ (s'.heap t).rt = r) := by
  unfold newTermObj at h
  rw [bind_run, lift_run] at h
  cases hsp : splitTermLower n with
  | error e => rw [hsp] at h; cases h
  | ok pr =>
    rw [hsp] at h
    cases p with
    | none =>
      dsimp only at h
      rw [alloc_run] at h
      cases h
      refine ⟨rfl, rfl, ?_⟩
      rw [heap_setObj_self]
      exact ⟨rfl, rfl, rfl, rfl, fun _ => ⟨_, _, rfl, rfl, rfl⟩⟩
    | some q =>
      dsimp only at h
      rw [bind_run, obj_run] at h
      dsimp only at h
      rw [bind_run, assert_run] at h
      generalize decide (lower (s.heap q).rt = lower (if pr.1 = ROOT then (s.heap q).rt else pr.1)) = b at h
      cases b with
      | false => cases h
      | true =>
        rw [if_pos rfl] at h
        dsimp only at h
        rw [alloc_run] at h
        cases h
        refine ⟨rfl, rfl, ?_⟩
        rw [heap_setObj_self]
        exact ⟨rfl, rfl, rfl, rfl, fun e => by cases e⟩

/-- What the object of a row is built with. -/
structure RowBirth (row : List Str) (o : Obj) : Prop where
  name : normalizeTerm (row.headD []) = .ok o.raw
  col : o.col = 1
  args : o.cls.isSection = false → o.args = (row.drop 2).map strip
  sec : o.cls.isSection = true → o.raw = py!"root.section" ∨ o.raw = py!"root.root"

theorem dotJoin_of_normal {c n q r : Str} (hn : normalizeTerm c = .ok n) (hs : splitTermLower n = .ok (q, r)) : dotJoin (lower q) (lower r) = n := by
  unfold normalizeTerm at hn
  cases hc : splitTermLower c with
  | error e => rw [hc] at hn; cases hn
  | ok pr =>
    rw [hc] at hn
    cases hn
    have := splitTermLower_again hc
    rw [this] at hs
    cases hs
    obtain ⟨-, -, -, -, -, h5, h6⟩ := splitTermLower_cases hc
    rw [h5, h6]

theorem rowTerm_birth {d : Bool} {row : List Str} {s s' : St} {t : Nat} (h : rowTerm d row s = .ok t s') :
    t = s.next ∧ s'.next = s.next + 1 ∧ RowBirth row (s'.heap t) ∧ (s'.heap t).joinLc = (s'.heap t).raw := by
  unfold rowTerm at h
  rw [bind_run, lift_run] at h
  cases hn : normalizeTerm (row.headD []) with
  | error e => rw [hn] at h; cases h
  | ok name =>
    rw [hn] at h
    dsimp only at h
    rw [bind_run, get_run] at h
    dsimp only at h
    have fin : ∀ {args t s'} {c : Cls}, newTermObj c name (.str ((row[1]?).getD [])) args none none 1 d s = .ok t s' →
        t = s.next ∧ s'.next = s.next + 1 ∧ (s'.heap t).raw = name ∧ (s'.heap t).args = args.map strip ∧ (s'.heap t).cls = c ∧
        (s'.heap t).col = 1 ∧ (s'.heap t).joinLc = (s'.heap t).raw := by
      intro args t s' c h
      obtain ⟨h1, h2, h3, h4, h5, h6, h7⟩ := newTermObj_ok h
      obtain ⟨q, r, hs, e1, e2⟩ := h7 rfl
      refine ⟨h1, h2, h3, h4, h5, h6, ?_⟩
      rw [h3]; unfold Obj.joinLc; rw [e1, e2]; exact dotJoin_of_normal hn hs
    have key : parserTermClass s name = .section ∧ newSectionObj name (.str ((row[1]?).getD [])) (row.drop 2) d s = .ok t s' ∨
        ∃ c, c.isSection = false ∧ newTermObj c name (.str ((row[1]?).getD [])) (row.drop 2) none none 1 d s = .ok t s' := by
      cases hc : parserTermClass s name <;> rw [hc] at h
      · exact .inr ⟨_, rfl, h⟩
      · exact .inl ⟨rfl, h⟩
      · cases h
      · exact .inr ⟨_, rfl, h⟩
    rcases key with ⟨-, h⟩ | ⟨c, hc, h⟩
    · have key : ∃ args, (do
            let i ← newTermObj .section name (.str ((row[1]?).getD [])) args none none 1 d
            let o ← obj i
            M.assert (o.joinLc = py!"root.section" ∨ o.joinLc = py!"root.root")
            return i : M Nat) s = .ok t s' := by
        unfold newSectionObj at h
        by_cases hr : row.drop 2 ≠ []
        · rw [if_pos hr] at h; exact ⟨_, h⟩
        · rw [if_neg hr, bind_run, lift_run] at h
          cases hsa : sectionArgs s (.str ((row[1]?).getD [])) with
          | error e => rw [hsa] at h; cases h
          | ok a => rw [hsa] at h; exact ⟨a, h⟩
      obtain ⟨args, h⟩ := key
      rw [bind_run] at h
      cases hi : newTermObj .section name (.str ((row[1]?).getD [])) args none none 1 d s with
      | err e s2 => rw [hi] at h; cases h
      | ok i s2 =>
        rw [hi] at h
        obtain ⟨h1, h2, h3, h4, h5, h6, h7⟩ := fin hi
        dsimp only at h
        rw [bind_run, obj_run] at h
        dsimp only at h
        rw [bind_run, assert_run] at h
        by_cases hj : (s2.heap i).joinLc = py!"root.section" ∨ (s2.heap i).joinLc = py!"root.root"
        · rw [if_pos (by simpa using hj)] at h
          cases h
          rw [h7] at hj
          exact ⟨h1, h2, ⟨by rw [h3, hn], h6, (fun hc => by rw [h5] at hc; cases hc), fun _ => hj⟩, h7⟩
        · rw [if_neg (by simpa using hj)] at h
          cases h
    · obtain ⟨h1, h2, h3, h4, h5, h6, h7⟩ := fin h
      exact ⟨h1, h2, ⟨by rw [h3, hn], h6, fun _ => h4, fun hc' => by rw [h5, hc] at hc'; cases hc'⟩, h7⟩

theorem argTerm_birth {d : Bool} {q k : Nat} {v : Str} {s s' : St} {t : Nat} (h : argTerm d q k v s = .ok t s') :
    t = s.next ∧ s'.next = s.next + 1 ∧ (s'.heap t).col = k + 2 := by
  unfold argTerm at h
  rw [bind_run, get_run] at h
  dsimp only at h
  have key : ∃ c, newTermObj c (lower (s.heap q).rt ++ '.' :: natStr k) (.str v) [] (some q) none (k + 2) d s = .ok t s' := by
    cases hc : parserTermClass s (lower (s.heap q).rt ++ '.' :: natStr k) <;> rw [hc] at h
    · exact ⟨_, h⟩
    · cases h
    · cases h
    · exact ⟨_, h⟩
  obtain ⟨c, h⟩ := key
  obtain ⟨h1, h2, -, -, -, h6, -⟩ := newTermObj_ok h
  exact ⟨h1, h2, h6⟩

theorem fx_rowTerm (d : Bool) (row : List Str) : Pres Fixed (rowTerm d row) := by
  unfold rowTerm; fixd [fx_newSectionObj _ _ _ _, fx_newTermObj _ _ _ _ _ _ _ _]
theorem fx_argTerm (d : Bool) (t k : Nat) (v : Str) : Pres Fixed (argTerm d t k v) := by
  unfold argTerm; fixd [fx_newTermObj _ _ _ _ _ _ _ _]

theorem lists_rowTerm {P : Built → Obj → Prop} {f : Source} {n : Nat} {d : Bool} {row : List Str} {s : St}
    (h : ∀ o t, RowBirth row o → P ⟨t, ⟨f.file, n, if o.cls.isSection then n else 1⟩, f.ref⟩ o) : Lists P (rowTermL f n d row) s := by
  have hf := fx_rowTerm d row s
  cases hr : rowTerm d row s with
  | err e s' =>
    have e' : rowTermL f n d row s = ([], .err e s') := by unfold rowTermL; rw [hr]
    rw [hr] at hf
    refine ⟨?_, ?_, ?_, ?_⟩ <;> rw [e']
    · exact hf
    · intro b hb; cases hb
    · exact .nil
    · intro b hb; cases hb
  | ok t s' =>
    have e' : rowTermL f n d row s = ([⟨t, ⟨f.file, n, if (s'.heap t).cls.isSection then n else 1⟩, f.ref⟩], .ok t s') := by
      unfold rowTermL; rw [hr]
    obtain ⟨h1, h2, h3, -⟩ := rowTerm_birth hr
    rw [hr] at hf
    refine ⟨?_, ?_, ?_, ?_⟩ <;> rw [e']
    · exact hf
    · intro b hb; rw [List.mem_singleton.1 hb]
      exact ⟨Nat.le_of_eq h1.symm, by show t < s'.next; rw [h1, h2]; exact Nat.lt_succ_self _⟩
    · exact List.pairwise_singleton _ _
    · intro b hb; rw [List.mem_singleton.1 hb]; exact h _ _ h3

theorem lists_argTerm {P : Built → Obj → Prop} {f : Source} {n : Nat} {d : Bool} {q k : Nat} {v : Str} {s : St}
    (h : ∀ o t, o.col = k + 2 → P ⟨t, ⟨f.file, n, k + 2⟩, f.ref⟩ o) : Lists P (argTermL f n d q k v) s := by
  have hf := fx_argTerm d q k v s
  cases hr : argTerm d q k v s with
  | err e s' =>
    have e' : argTermL f n d q k v s = ([], .err e s') := by unfold argTermL; rw [hr]
    rw [hr] at hf
    refine ⟨?_, ?_, ?_, ?_⟩ <;> rw [e']
    · exact hf
    · intro b hb; cases hb
    · exact .nil
    · intro b hb; cases hb
  | ok t s' =>
    have e' : argTermL f n d q k v s = ([⟨t, ⟨f.file, n, k + 2⟩, f.ref⟩], .ok t s') := by
      unfold argTermL; rw [hr]
    obtain ⟨h1, h2, h3⟩ := argTerm_birth hr
    rw [hr] at hf
    refine ⟨?_, ?_, ?_, ?_⟩ <;> rw [e']
    · exact hf
    · intro b hb; rw [List.mem_singleton.1 hb]
      exact ⟨Nat.le_of_eq h1.symm, by show t < s'.next; rw [h1, h2]; exact Nat.lt_succ_self _⟩
    · exact List.pairwise_singleton _ _
    · intro b hb; rw [List.mem_singleton.1 hb]; exact h _ _ h3

theorem lists_argLoop {P : Built → Obj → Prop} (hP : Steady P) {f : Source} {n : Nat} {load d : Bool} {q : Nat} : ∀ {vs : List Str} {k : Nat} {s : St},
    (∀ i v o t, vs[i]? = some v → strip v ≠ [] → o.col = k + i + 2 → P ⟨t, ⟨f.file, n, k + i + 2⟩, f.ref⟩ o) → Lists P (argLoopL f n load d q k vs) s
  | [], _, s, _ => .pure _ s
  | v :: vs, k, s, h => by
    have ih : ∀ s, Lists P (argLoopL f n load d q (k + 1) vs) s := fun s => lists_argLoop hP fun i w o t hi hw => by
      have e : k + 1 + i = k + (i + 1) := by omega
      rw [e]; exact h (i + 1) w o t (by simpa using hi) hw
    unfold argLoopL
    dsimp only
    split
    · next hv =>
      exact .bind hP (lists_argTerm fun o t ho => h 0 v o t rfl hv ho) fun _ _ _ _ _ => .bind hP (.silent (fx_consume _ _) _) fun _ _ _ _ _ => ih _
    · exact ih s

theorem lists_yield {P : Built → Obj → Prop} (hP : Steady P) {f : Source} {n : Nat} {load d : Bool} {t : Nat} {s : St}
    (h : ∀ i v o c ob, (t < s.next → SameBirth (s.heap t) ob) → ob.args[i]? = some v → strip v ≠ [] → o.col = i + 2 →
      P ⟨c, ⟨f.file, n, i + 2⟩, f.ref⟩ o) : Lists P (yieldWithArgsL f n load d t) s := by
  unfold yieldWithArgsL
  refine .bind hP (.silent (fx_consume _ _) _) fun _ _ s1 e1 f1 => .bind hP (.silent (Pres.obj _) _) fun _ o s2 e2 f2 => ?_
  rw [silent_run, obj_run] at e2
  cases e2
  split
  · exact .pure _ _
  · refine lists_argLoop hP fun i v o c hi hv ho => ?_
    rw [Nat.zero_add] at ho ⊢
    exact h i v o c _ (fun ht => f1.birth t ht) hi hv ho

/-- The object stands in this row, at this place: it is the object of the row, or the term of a cell after the value. The name of a section
row or of the root says nothing of cells. -/
def AtCell (row : List Str) (p : Place) (o : Obj) : Prop :=
  (normalizeTerm (row.headD []) = .ok o.raw ∧ o.col = 1 ∧
    (o.cls.isSection = false → p.col = 1 ∧ o.args = (row.drop 2).map strip) ∧
    (o.cls.isSection = true → p.col = p.row ∧ (o.raw = py!"root.section" ∨ o.raw = py!"root.root"))) ∨
  (p.col = o.col ∧ 2 ≤ o.col ∧
    (normalizeTerm (row.headD []) ≠ .ok (py!"root.section") → normalizeTerm (row.headD []) ≠ .ok (py!"root.root") →
      ∃ v, row[p.col]? = some v ∧ strip v ≠ []))

theorem SameBirth.atCell {row : List Str} {p : Place} {o o' : Obj} (h : SameBirth o o') (k : AtCell row p o) : AtCell row p o' := by
  unfold AtCell
  rw [h.raw, h.col, h.cls, h.args]
  exact k

theorem lists_genRows {P : Built → Obj → Prop} (hP : Steady P) {files : Files} {sub : Str → Bool → LogM Built Unit} {f : Source}
    {load d : Bool} {dir : Str} (hsub : ∀ t d s, Lists P (sub t d) s) : ∀ {rows : List (List Str)} {n ls : Nat} {s : St},
    (∀ i row b o, rows[i]? = some row → skipRow row = false → b.place.file = f.file → b.src = f.ref → b.place.row = n + i →
      AtCell row b.place o → P b o) → Lists P (genRowsL files sub f load d dir n ls rows) s
  | [], _, _, s, _ => .pure _ s
  | row :: rows, n, ls, s, h => by
    have ih : ∀ ls s, Lists P (genRowsL files sub f load d dir (n + 1) ls rows) s := fun ls s =>
      lists_genRows hP hsub fun i row b o hi hn h1 h2 h3 h4 => h (i + 1) row b o (by simpa using hi) hn h1 h2 (by rw [h3]; omega) h4
    unfold genRowsL
    cases hs : skipRow row with
    | true => rw [if_pos rfl]; exact ih _ _
    | false =>
      rw [if_neg (by decide)]
      have h0 : ∀ b o, b.place.file = f.file → b.src = f.ref → b.place.row = n → AtCell row b.place o → P b o :=
        fun b o h1 h2 h3 h4 => h 0 row b o rfl hs h1 h2 h3 h4
      refine .bind hP (lists_rowTerm fun o t ho => h0 _ _ rfl rfl rfl (.inl ⟨ho.name, ho.col, ?_, ?_⟩)) fun l t s1 e1 f1 => ?_
      · intro hc; exact ⟨by dsimp only; rw [hc]; rfl, ho.args hc⟩
      · intro hc; exact ⟨by dsimp only; rw [hc]; rfl, ho.sec hc⟩
      have e1' : rowTerm d row s = .ok t s1 := by rw [← (rowTermL_run f n d row).run s, e1]
      obtain ⟨b1, b2, b3, b4⟩ := rowTerm_birth e1'
      refine .bind hP (.silent (Pres.obj _) _) fun l' o s2 e2 f2 => ?_
      rw [silent_run, obj_run] at e2
      cases e2
      have cells : ∀ x s, (normalizeTerm (row.headD []) ≠ .ok (py!"root.section") → x < s.next ∧ SameBirth (s1.heap t) (s.heap x)) →
          Lists P (yieldWithArgsL f n load d x) s := fun x s hx =>
        lists_yield hP fun i v o c ob hob hi hv ho => h0 _ _ rfl rfl rfl (.inr ⟨ho.symm, by rw [ho]; omega, fun n1 n2 => by
          obtain ⟨x1, x2⟩ := hx n1
          have hsb := x2.trans (hob x1)
          have hc : (s1.heap t).cls.isSection = false := by
            cases hc : (s1.heap t).cls.isSection with
            | false => rfl
            | true =>
              rcases b3.sec hc with e | e
              · exact absurd (b3.name.trans (by rw [e])) n1
              · exact absurd (b3.name.trans (by rw [e])) n2
          rw [hsb.args, b3.args hc, List.getElem?_map, List.getElem?_drop] at hi
          cases hw : row[2 + i]? with
          | none => rw [hw] at hi; cases hi
          | some w =>
            rw [hw] at hi
            cases hi
            exact ⟨w, by dsimp only; rw [Nat.add_comm, hw], by rwa [strip_strip] at hv⟩⟩)
      split
      · refine .bind hP (.silent (Pres.lift _) _) fun _ target s2 e2 f2 => ?_
        split
        · exact .silent (Pres.raise _) _
        · exact .bind hP (.silent (fx_consume _ _) _) fun _ _ _ _ _ => .bind hP (.silent (Pres.obj _) _) fun _ _ _ _ _ =>
            .bind hP (hsub _ _ _) fun _ _ _ _ _ => .bind hP (.silent (fx_consume _ _) _) fun _ _ _ _ _ => ih _ _
      · split
        · next hj =>
          refine .bind hP (.silent (Pres.lift _) _) fun _ x s2 e2 f2 => .bind hP (cells _ _ fun hn => ?_) fun _ _ _ _ _ => ih _ _
          rw [b4] at hj
          exact absurd (b3.name.trans (by rw [hj])) hn
        · exact .bind hP (cells _ _ fun _ => ⟨by rw [b1, b2]; exact Nat.lt_succ_self _, .refl _⟩) fun _ _ _ _ _ => ih _ _

theorem lists_gen {P : Built → Obj → Prop} (hP : Steady P) {files : Files} {nm : Naming} {load : Bool}
    (hfile : ∀ t rows', files.rows t = some rows' → ∀ i row b o, rows'[i]? = some row → skipRow row = false → b.place.file = nm.sub t → b.src = t →
      b.place.row = 1 + i → AtCell row b.place o → P b o) : ∀ {fuel : Nat} {d : Bool} {dir : Str} {f : Source} {rows : List (List Str)} {s : St},
    (∀ i row b o, rows[i]? = some row → skipRow row = false → b.place.file = f.file → b.src = f.ref → b.place.row = 1 + i →
      AtCell row b.place o → P b o) → Lists P (genL files nm load fuel d dir f rows) s
  | 0, _, _, _, _, s, _ => .silent (Pres.raise _) s
  | fuel + 1, d, dir, f, rows, s, h => by
    unfold genL
    refine .bind hP (.silent Pres.get _) fun _ s0 s1 _ _ => .bind hP (lists_genRows hP (fun t d' s2 => ?_) h) fun _ _ _ _ _ => .pure _ _
    cases hr : files.rows t with
    | none => exact .silent (Pres.raise _) _
    | some rows' => exact lists_gen hP hfile (hfile t rows' hr)

end Metatab
