import Verif.Props.Include
/-! # Includes that fail, and includes without end (C33, C34) -/
namespace Metatab
open Py Spec

theorem known_later {a : Reader} {row : List Str} {k : Str} (h : (Dict.get? a.known k).isSome) : (Dict.get? (a.row row).known k).isSome := by
  rw [known_row]
  cases kind row with
  | named p r => simp only [Dict.get?_cons]; split <;> simp [h]
  | _ => exact h

theorem known_reopen (a : Reader) (here : Str) : (a.reopen here).known = a.known := by
  unfold Reader.reopen
  split
  · rfl
  · split <;> rfl

/-- Rows that are not skipped. -/
theorem noise_of {c : Str} {rest : List Str} (h : skipRow (c :: rest) = false) : ¬ (strip c = [] ∨ (strip c).head? = some '#') := by
  unfold skipRow startsWith at h
  simp only [Bool.or_eq_false_iff, decide_eq_false_iff_not] at h
  rintro (e | e)
  · exact h.1 e
  · cases hc : strip c with
    | nil => exact h.1 hc
    | cons x xs => rw [hc] at e h; simp at e; subst e; simp at h

theorem reads_known {files : Str → Option (List (List Str))} {n : Nat} {dir ref here : Str} {rows : List (List Str)} {a b : Reader}
    (h : Reads files n dir ref here rows a b) {k : Str} (hk : (Dict.get? a.known k).isSome) : (Dict.get? b.known k).isSome := by
  induction h with
  | nil => exact hk
  | row _ _ _ ih => exact ih (known_later hk)
  | «include» _ _ _ _ _ _ ih1 ih2 =>
    refine ih2 ?_
    rw [known_reopen]
    refine ih1 ?_
    unfold Reader.includeTerm
    simp only [Dict.get?_cons]
    split <;> simp [hk]

/-- Every file of ordinary rows and include rows is either read or stops the reader. -/
theorem reads_or_stops {files : Str → Option (List (List Str))} {decl : Str → Str → Option Str}
    (hfs : ∀ t rows, files t = some rows → includesFrom [py!"root"] rows = true) : ∀ (n : Nat) (rows : List (List Str)) (known : List Str)
    (dir ref here : Str) (a : Reader), includesFrom known rows = true → (∀ k ∈ py!"root" :: known, (Dict.get? a.known k).isSome) →
    (∃ b, Reads files n dir ref here rows a b) ∨ ∃ w, Stops files decl n dir ref here rows a w := by
  intro n
  induction n with
  | zero =>
    intro rows
    induction rows with
    | nil => intro known dir ref here a _ _; exact .inl ⟨a, .nil⟩
    | cons row rows ih =>
      intro known dir ref here a h hk
      unfold includesFrom at h
      cases hi : includeRow row with
      | some v =>
        cases hb : brokenInclude files dir ref v with
        | true => exact .inr ⟨_, .broken hi hb⟩
        | false =>
          unfold brokenInclude at hb
          cases ht : includeTarget dir v with
          | none => rw [ht] at hb; cases hb
          | some t =>
            rw [ht] at hb
            simp only [Bool.or_eq_false_iff, beq_eq_false_iff_ne] at hb
            cases hf : files t with
            | none => rw [hf] at hb; simp at hb
            | some inc => exact .inr ⟨_, .tooDeep hi ht hb.1 hf⟩
      | none =>
        rw [hi] at h
        simp only [Option.isSome_none, Bool.false_eq_true, if_false] at h
        obtain ⟨known', hr, hpar, hk'⟩ : ∃ known', includesFrom known' rows = true ∧ (kind row ≠ .special ∧ ∀ p r, kind row = .named p r → (Dict.get? a.known p).isSome) ∧
            ∀ k ∈ py!"root" :: known', (Dict.get? (a.row row).known k).isSome := by
          cases hkd : kind row <;> rw [hkd] at h <;> simp only [Bool.and_eq_true, List.contains_eq_mem, decide_eq_true_eq] at h
          case special => cases h
          case named p r =>
            refine ⟨_, h.2, ⟨by simp, fun p' r' e' => by cases e'; exact hk _ (List.mem_cons_of_mem _ h.1)⟩, fun k hm => ?_⟩
            by_cases hkr : r = k
            · rw [known_row, hkd]; simp [Dict.get?_cons, hkr]
            · refine known_later (hk _ ?_)
              simp only [List.mem_cons] at hm ⊢
              rcases hm with h | h | h
              · exact .inl h
              · exact absurd h.symm hkr
              · exact .inr h
          all_goals exact ⟨_, h, ⟨by simp, fun p' r' e' => by cases e'⟩, fun k hm => known_later (hk k hm)⟩
        rcases ih known' dir ref (sectionAfter here row) (a.row row) hr hk' with ⟨b, h⟩ | ⟨w, h⟩
        · exact .inl ⟨b, .row hpar.1 hpar.2 h⟩
        · exact .inr ⟨w, .row hpar.1 hpar.2 h⟩
  | succ n ihn =>
    intro rows
    induction rows with
    | nil => intro known dir ref here a _ _; exact .inl ⟨a, .nil⟩
    | cons row rows ih =>
      intro known dir ref here a h hk
      unfold includesFrom at h
      cases hi : includeRow row with
      | some v =>
        rw [hi] at h
        simp only [Option.isSome_some, if_true] at h
        cases hb : brokenInclude files dir ref v with
        | true => exact .inr ⟨_, .broken hi hb⟩
        | false =>
          unfold brokenInclude at hb
          cases ht : includeTarget dir v with
          | none => rw [ht] at hb; cases hb
          | some t =>
            rw [ht] at hb
            simp only [Bool.or_eq_false_iff, beq_eq_false_iff_ne] at hb
            cases hf : files t with
            | none => rw [hf] at hb; simp at hb
            | some inc =>
              have hk1 : ∀ k ∈ py!"root" :: known, (Dict.get? (a.includeTerm v).known k).isSome := by
                intro k hm
                unfold Reader.includeTerm
                simp only [Dict.get?_cons]
                split <;> simp [hk k hm]
              rcases ihn inc [py!"root"] [] t (py!"root") (a.includeTerm v) (hfs t inc hf) (by
                intro k hm
                refine hk1 k ?_
                simp only [List.mem_cons, List.not_mem_nil, or_false, or_self] at hm
                simp [hm]) with ⟨b, hsub⟩ | ⟨w, hsub⟩
              · rcases ih known dir ref here (b.reopen here) h (by
                  intro k hm; rw [known_reopen]; exact reads_known hsub (hk1 k hm)) with ⟨c, h⟩ | ⟨w, h⟩
                · exact .inl ⟨c, .include hi ht hb.1 hf hsub h⟩
                · exact .inr ⟨w, .include hi ht hb.1 hf hsub h⟩
              · exact .inr ⟨w, .inside hi ht hb.1 hf hsub⟩
      | none =>
        rw [hi] at h
        simp only [Option.isSome_none, Bool.false_eq_true, if_false] at h
        obtain ⟨known', hr, hpar, hk'⟩ : ∃ known', includesFrom known' rows = true ∧ (kind row ≠ .special ∧ ∀ p r, kind row = .named p r → (Dict.get? a.known p).isSome) ∧
            ∀ k ∈ py!"root" :: known', (Dict.get? (a.row row).known k).isSome := by
          cases hkd : kind row <;> rw [hkd] at h <;> simp only [Bool.and_eq_true, List.contains_eq_mem, decide_eq_true_eq] at h
          case special => cases h
          case named p r =>
            refine ⟨_, h.2, ⟨by simp, fun p' r' e' => by cases e'; exact hk _ (List.mem_cons_of_mem _ h.1)⟩, fun k hm => ?_⟩
            by_cases hkr : r = k
            · rw [known_row, hkd]; simp [Dict.get?_cons, hkr]
            · refine known_later (hk _ ?_)
              simp only [List.mem_cons] at hm ⊢
              rcases hm with h | h | h
              · exact .inl h
              · exact absurd h.symm hkr
              · exact .inr h
          all_goals exact ⟨_, h, ⟨by simp, fun p' r' e' => by cases e'⟩, fun k hm => known_later (hk k hm)⟩
        rcases ih known' dir ref (sectionAfter here row) (a.row row) hr hk' with ⟨b, h⟩ | ⟨w, h⟩
        · exact .inl ⟨b, .row hpar.1 hpar.2 h⟩
        · exact .inr ⟨w, .row hpar.1 hpar.2 h⟩

/-- **C33.** If the reader comes, in the file itself or in an included one at any depth, to an include row that cannot be followed — no
directory, the file itself, or no such file — or to a declare row whose document is not found, then parsing raises `IncludeError`. -/
theorem C33_fails {env : Env} {classes : Dict Cls} (hcl : PlainClasses classes) {files : Files} {fuel : Nat} {path : Str}
    {rows : List (List Str)} (h : Stops files.rows files.decl fuel (dirname path) path (py!"root") rows Reader.start .broken) :
    ∃ s, parseRows files (fuel + 1) path rows (newDoc env classes) = .err .includeError s := stops_parse hcl h

/-- **C33, and nothing else.** If all files consist of ordinary rows and include rows, then parsing ends in one of three ways: the
reference reader reads the file and so does the parser; the reader comes to an include row that cannot be followed, and the parser raises
`IncludeError`; or the includes are nested deeper than the interpreter can bear. -/
theorem C33_total {env : Env} {classes : Dict Cls} (hcl : PlainClasses classes) {files : Files} (fuel : Nat) (path : Str)
    {rows : List (List Str)} (hfs : ∀ t rows, files.rows t = some rows → includesFrom [py!"root"] rows = true)
    (hrows : includesFrom [py!"root"] rows = true) :
    (∃ s b ids, parseRows files (fuel + 1) path rows (newDoc env classes) = .ok () s ∧ Holds s b ids ∧
      Reads files.rows fuel (dirname path) path (py!"root") rows Reader.start b) ∨
    (∃ s, parseRows files (fuel + 1) path rows (newDoc env classes) = .err .includeError s ∧
      Stops files.rows files.decl fuel (dirname path) path (py!"root") rows Reader.start .broken) ∨
    (∃ s, parseRows files (fuel + 1) path rows (newDoc env classes) = .err .recursionError s ∧
      Stops files.rows files.decl fuel (dirname path) path (py!"root") rows Reader.start .tooDeep) := by
  rcases reads_or_stops (decl := files.decl) hfs fuel rows [py!"root"] (dirname path) path (py!"root") Reader.start hrows (by
    intro k hk
    obtain rfl : k = py!"root" := by simpa using hk
    rfl) with ⟨b, h⟩ | ⟨w, h⟩
  · obtain ⟨s, ids, e, hh⟩ := C32_reads (env := env) hcl h (Nat.lt_succ_self fuel)
    exact .inl ⟨s, b, ids, e, hh, h⟩
  · obtain ⟨s, e⟩ := stops_parse (env := env) hcl h
    cases w with
    | broken => exact .inr (.inl ⟨s, e, h⟩)
    | tooDeep => exact .inr (.inr ⟨s, e, h⟩)

/-- Files that include each other, a file that includes itself, a file with a relative include, and one that includes a missing file. -/
def badFiles : Files :=
  ⟨fun p => if p = py!"http://a" then some [[py!"Title", py!"T"], [py!"Include", py!"http://b"]]
            else if p = py!"http://b" then some [[py!".Note", py!"n"], [py!"Include", py!"http://a"]]
            else if p = py!"http://self" then some [[py!"Include", py!"http://self"]]
            else if p = py!"http://rel" then some [[py!"Section", py!"S"], [py!"Include", py!"x.csv"]]
            else if p = py!"http://gone" then some [[py!"Include", py!"http://nowhere"]]
            else none, fun _ _ => none⟩

/-- All these files consist of ordinary rows and include rows. -/
theorem badFiles_ok : ∀ t rows, badFiles.rows t = some rows → includesFrom [py!"root"] rows = true := by
  intro t rows h
  simp only [badFiles] at h
  repeat' split at h
  all_goals first | cases h; decide +kernel | cases h

/-- Each way to fail, inside an included file. -/
example : ∀ u ∈ [py!"http://self", py!"http://rel", py!"http://gone"], ∀ fuel,
    Stops badFiles.rows badFiles.decl (fuel + 1) (dirname (py!"/d/m.csv")) (py!"/d/m.csv") (py!"root") [[py!"A", py!"1"], [py!"Include", u], [py!"B"]]
      Reader.start .broken := by
  intro u hu fuel
  simp only [List.mem_cons, List.not_mem_nil, or_false] at hu
  rcases hu with rfl | rfl | rfl
  · exact .row (by decide +kernel) (fun p r h => by cases h; rfl) (.inside (t := py!"http://self") (v := py!"http://self") (by decide +kernel) (by decide +kernel) (by decide) rfl
      (.broken (v := py!"http://self") (by decide +kernel) (by decide +kernel)))
  · exact .row (by decide +kernel) (fun p r h => by cases h; rfl) (.inside (t := py!"http://rel") (v := py!"http://rel") (by decide +kernel) (by decide +kernel) (by decide) rfl
      (.row (by decide +kernel) (fun p r h => by cases h) (.broken (v := py!"x.csv") (by decide +kernel) (by decide +kernel))))
  · exact .row (by decide +kernel) (fun p r h => by cases h; rfl) (.inside (t := py!"http://gone") (v := py!"http://gone") (by decide +kernel) (by decide +kernel) (by decide) rfl
      (.broken (v := py!"http://nowhere") (by decide +kernel) (by decide +kernel)))

/-- A declare row whose document is not found. -/
example (fuel : Nat) : Stops badFiles.rows badFiles.decl fuel (dirname (py!"/d/m.csv")) (py!"/d/m.csv") (py!"root") [[py!"Declare", py!"zz"]] Reader.start .broken :=
  .noDeclaration (v := py!"zz") (by decide +kernel) rfl

/-- An include row without a file name raises `AttributeError` instead. -/
theorem C33_empty_witness : ∃ s, parseRows badFiles 5 (py!"/d/m.csv") [[py!"Include"]] (newDoc exEnv) = .err .attributeError s := by
  have : (match parseRows badFiles 5 (py!"/d/m.csv") [[py!"Include"]] (newDoc exEnv) with | .err e _ => e | .ok _ _ => .includeError) = .attributeError := by decide +kernel
  split at this
  · next e s h => exact ⟨s, by rw [h, this]⟩
  · cases this

/-! ## C34 -/

/-- `m` and `m'` do the same, unless `m` runs out of depth. -/
def SameUnlessDeep {α : Type} (m m' : M α) : Prop := ∀ s, (∃ s', m s = .err .recursionError s') ∨ m' s = m s

theorem SameUnlessDeep.refl {α : Type} (m : M α) : SameUnlessDeep m m := fun _ => .inr rfl

theorem SameUnlessDeep.bind {α β : Type} {m m' : M α} {k k' : α → M β} (h : SameUnlessDeep m m') (hk : ∀ a, SameUnlessDeep (k a) (k' a)) :
    SameUnlessDeep (m >>= k) (m' >>= k') := by
  intro s
  simp only [bind_run]
  rcases h s with ⟨s', e⟩ | e
  · rw [e]; exact .inl ⟨s', rfl⟩
  · rw [e]
    cases m s with
    | err x s1 => exact .inr rfl
    | ok a s1 => exact hk a s1

theorem SameUnlessDeep.ite {α : Type} {p : Prop} [Decidable p] {m m' k k' : M α} (h : SameUnlessDeep m m') (hk : SameUnlessDeep k k') :
    SameUnlessDeep (if p then m else k) (if p then m' else k') := by split <;> assumption

theorem genRows_deep {files : Files} {sub sub' : Str → Bool → M Unit} (h : ∀ t d, SameUnlessDeep (sub t d) (sub' t d)) {load isDecl : Bool}
    {dir ref : Str} : ∀ (rows : List (List Str)) (ls : Nat), SameUnlessDeep (genRows files sub load isDecl dir ref ls rows) (genRows files sub' load isDecl dir ref ls rows)
  | [], _ => .refl _
  | row :: rows, ls => by
    have ih := genRows_deep (files := files) h (load := load) (isDecl := isDecl) (dir := dir) (ref := ref) rows
    rw [genRows_cons, genRows_cons]
    refine .ite (ih ls) (.bind (.refl _) fun t => .bind (.refl _) fun o => .ite ?_ (.ite ?_ ?_))
    · exact .bind (.refl _) fun target => .ite (.refl _) (.bind (.refl _) fun _ => .bind (.refl _) fun o => .bind (h _ _) fun _ => .bind (.refl _) fun _ => ih _)
    · exact .bind (.refl _) fun x => .bind (.refl _) fun _ => ih _
    · exact .bind (.refl _) fun _ => ih _

theorem gen_deep (files : Files) (load : Bool) : ∀ (f g : Nat), f ≤ g → ∀ (d : Bool) (dir ref : Str) (rows : List (List Str)),
    SameUnlessDeep (gen files load f d dir ref rows) (gen files load g d dir ref rows)
  | 0, _, _, _, _, _, _ => fun s => .inl ⟨s, rfl⟩
  | f + 1, 0, h, _, _, _, _ => by omega
  | f + 1, g + 1, h, d, dir, ref, rows => by
    intro s
    rw [gen_succ, gen_succ]
    refine SameUnlessDeep.bind (genRows_deep (fun t d' => ?_) rows s.root) (fun _ => .refl _) s
    unfold included
    cases files.rows t with
    | none => exact .refl _
    | some rows' => exact gen_deep files load f g (by omega) d' [] t rows'

/-- **C34, the limit does not matter.** If parsing with some recursion limit ends with a document or with any error but `RecursionError`,
then it ends in the same way, with the same document, for every larger limit. -/
theorem C34_stable (files : Files) {fuel : Nat} {path : Str} {rows : List (List Str)} {s : St}
    (h : ∀ s', parseRows files fuel path rows s ≠ .err .recursionError s') {fuel' : Nat} (hf : fuel ≤ fuel') :
    parseRows files fuel' path rows s = parseRows files fuel path rows s := by
  have hb : SameUnlessDeep (parseRows files fuel path rows) (parseRows files fuel' path rows) :=
    .bind (.refl _) fun _ => .bind (gen_deep files true _ _ hf _ _ _ _) fun _ => .refl _
  rcases hb s with ⟨s', e⟩ | e
  · exact absurd e (h s')
  · exact e

/-- The names of a term that is parsed as `Root.X`. -/
theorem cellNames_of_root {c r : Str} (h : splitTermLower c = .ok (ROOT, r)) : cellNames c = some (py!"root", r) := by
  unfold splitTermLower splitTerm at h
  by_cases hd : '.' ∈ c
  · rw [if_pos hd] at h
    split at h
    · next a b hab =>
      simp only [bind, Except.bind, pure, Except.pure, Except.ok.injEq, Prod.mk.injEq] at h
      unfold cellNames
      rw [hab]
      dsimp only
      have h1 := h.1
      split at h1
      · exact absurd h1 (by decide)
      · rw [h1, h.2]; rfl
    · cases h
  · rw [if_neg hd] at h
    simp only [bind, Except.bind, pure, Except.pure, Except.ok.injEq, Prod.mk.injEq] at h
    unfold cellNames
    rw [splitOn_not_mem hd]
    rw [← h.2]

/-- The object of a row has the name and the value of the row. -/
theorem rowTerm_ok {isDecl : Bool} {row : List Str} {s s' : St} {t : Nat} (h : rowTerm isDecl row s = .ok t s') :
    ∃ p r, splitTermLower (row.headD []) = .ok (p, r) ∧ (s'.heap t).pt = p ∧ (s'.heap t).rt = r ∧ (s'.heap t).value = (Val.str ((row[1]?).getD [])).mk := by
  unfold rowTerm at h
  simp only [bind_run, lift_run] at h
  unfold normalizeTerm at h
  cases hsp : splitTermLower (row.headD []) with
  | error e => rw [hsp] at h; cases h
  | ok pr =>
    obtain ⟨p, r⟩ := pr
    rw [hsp] at h
    simp only [bind, Except.bind, pure, Except.pure, get_run] at h
    have hag := splitTermLower_again hsp
    refine ⟨p, r, rfl, ?_⟩
    have key : ∀ {c args col}, newTermObj c (dotJoin p r) (Val.str ((row[1]?).getD [])) args none none col isDecl s = .ok t s' →
        (s'.heap t).pt = p ∧ (s'.heap t).rt = r ∧ (s'.heap t).value = (Val.str ((row[1]?).getD [])).mk := by
      intro c args col h
      unfold newTermObj at h
      simp only [bind_run, lift_run, hag, alloc_run] at h
      cases h
      simp [heap_setObj_self]
    cases hcl : parserTermClass s (dotJoin p r) with
    | «section» =>
      rw [hcl] at h
      dsimp only at h
      have tail : ∀ args, (newTermObj .section (dotJoin p r) (Val.str ((row[1]?).getD [])) args none none 1 isDecl >>= fun i => obj i >>= fun o =>
          M.assert (o.joinLc = py!"root.section" ∨ o.joinLc = py!"root.root") >>= fun _ => pure i) s = .ok t s' →
          (s'.heap t).pt = p ∧ (s'.heap t).rt = r ∧ (s'.heap t).value = (Val.str ((row[1]?).getD [])).mk := by
        intro args h
        simp only [bind_run] at h
        cases h2 : newTermObj .section (dotJoin p r) (Val.str ((row[1]?).getD [])) args none none 1 isDecl s with
        | err e s2 => rw [h2] at h; cases h
        | ok i s2 =>
          rw [h2] at h
          simp only [obj_run, assert_run] at h
          split at h
          · next h3 =>
            split at h3
            · cases h3; cases h; exact key h2
            · cases h3
          · cases h
      unfold newSectionObj at h
      by_cases ha : List.drop 2 row = []
      · rw [if_neg (by simp [ha])] at h; exact tail _ h
      · rw [if_pos ha] at h; exact tail _ h
    | root => rw [hcl] at h; cases h
    | term => rw [hcl] at h; exact key h
    | user n => rw [hcl] at h; exact key h

/-- Where an include or declare row goes. -/
theorem leads_of {files : Files} {dir c : Str} {rest : List Str} {o : Obj} {t p r : Str} (hn : skipRow (c :: rest) = false) (hs : splitTermLower c = .ok (p, r))
    (hp : o.pt = p) (hr : o.rt = r) (hv : o.value = (Val.str (rest.headD [])).mk) (hj : o.joinLc = py!"root.include" ∨ o.joinLc = py!"root.declare")
    (h : resolveTarget files dir o = .ok t) : leads files.decl dir (c :: rest) = some t := by
  obtain ⟨-, -, -, hd1, hd2, hl1, hl2⟩ := splitTermLower_cases hs
  have hjo : o.joinLc = dotJoin p r := by show dotJoin (lower o.pt) (lower o.rt) = _; rw [hp, hr, hl1, hl2]
  have hne : rest.headD [] ≠ [] := by
    intro e
    rw [e] at hv
    unfold resolveTarget at h
    rw [hv] at h
    cases h
  have hval : o.value = .str (strip (rest.headD [])) := by rw [hv, cellValue_mk]; unfold cellValue; rw [if_neg hne]
  have hnoise : ¬ (strip c = [] ∨ (strip c).head? = some '#') := noise_of hn
  unfold resolveTarget at h
  rw [hval] at h
  dsimp only at h
  rw [strip_strip] at h
  have names : ∀ {k}, o.joinLc = dotJoin (py!"root") k → '.' ∉ k → p = ROOT ∧ r = k := by
    intro k e hk
    rw [hjo] at e
    obtain ⟨e1, e2⟩ := (dotJoin_inj hd1 hd2).1 e.symm
    exact ⟨e1.symm, e2.symm⟩
  rcases hj with hj | hj
  · obtain ⟨rfl, rfl⟩ := names (k := py!"include") hj (by decide)
    rw [if_pos hj] at h
    have hi : includeRow (c :: rest) = some (strip (rest.headD [])) := by
      rw [includeRow, if_neg hnoise, if_pos ⟨cellNames_of_root hs, hne⟩]
    · unfold leads
      rw [hi]
      dsimp only
      cases ht : includeTarget dir (strip (rest.headD [])) with
      | none => rw [resolve_none ht] at h; cases h
      | some t' => rw [resolve_ok ht] at h; cases h; rfl
  · obtain ⟨rfl, rfl⟩ := names (k := py!"declare") hj (by decide)
    rw [if_neg (by rw [hj]; decide)] at h
    have hi : includeRow (c :: rest) = none := by
      rw [includeRow, if_neg hnoise, if_neg]
      rw [cellNames_of_root hs]; rintro ⟨e, -⟩; exact absurd e (by decide)
    have hd : declareRow (c :: rest) = some (strip (rest.headD [])) := by
      rw [declareRow, if_neg hnoise, if_pos ⟨cellNames_of_root hs, hne⟩]
    · unfold leads
      rw [hi, hd]
      dsimp only
      split at h
      · next r hr => cases h; exact hr
      · cases h

theorem genRows_subs {files : Files} {sub sub' : Str → Bool → M Unit} {load isDecl : Bool} {dir ref : Str} : ∀ (rows : List (List Str)),
    (∀ row ∈ rows, ∀ t, leads files.decl dir row = some t → t ≠ ref → ∀ d, sub t d = sub' t d) → ∀ (ls : Nat),
    genRows files sub load isDecl dir ref ls rows = genRows files sub' load isDecl dir ref ls rows
  | [], _, _ => rfl
  | row :: rows, h, ls => by
    have ih := genRows_subs (files := files) (load := load) (isDecl := isDecl) rows fun r hr => h r (List.mem_cons_of_mem _ hr)
    rw [genRows_cons, genRows_cons]
    simp only [ih]
    cases hn : skipRow row with
    | true => rfl
    | false =>
      simp only [Bool.false_eq_true, if_false]
      funext s
      simp only [bind_run]
      cases hrt : rowTerm isDecl row s with
      | err e s1 => rfl
      | ok t s1 =>
        simp only [obj_run]
        by_cases hj : (s1.heap t).joinLc = py!"root.include" ∨ (s1.heap t).joinLc = py!"root.declare"
        · rw [if_pos hj, if_pos hj]
          simp only [bind_run, lift_run]
          cases hres : resolveTarget files dir (s1.heap t) with
          | error e => rfl
          | ok target =>
            dsimp only
            by_cases ht : target = ref
            · rw [if_pos ht, if_pos ht]
            · rw [if_neg ht, if_neg ht]
              obtain ⟨p, r, hs, hp, hr, hv⟩ := rowTerm_ok hrt
              cases row with
              | nil => cases hn
              | cons c rest =>
                have hl : leads files.decl dir (c :: rest) = some target := by
                  refine leads_of hn hs hp hr ?_ hj hres
                  rw [hv]; cases rest <;> rfl
                simp only [h _ (List.mem_cons_self ..) target hl ht]
        · rw [if_neg hj, if_neg hj]

/-- The rank bounds the depth. -/
theorem gen_ranked {files : Files} {load : Bool} {rank : Str → Nat}
    (hr : ∀ t rows, files.rows t = some rows → ∀ row ∈ rows, ∀ t', leads files.decl [] row = some t' → t' ≠ t → (files.rows t').isSome → rank t' < rank t) :
    ∀ (f g : Nat) (d : Bool) (t : Str) (rows : List (List Str)), files.rows t = some rows → rank t < f → rank t < g →
      gen files load f d [] t rows = gen files load g d [] t rows
  | 0, _, _, _, _, _, h, _ => by omega
  | _ + 1, 0, _, _, _, _, _, h => by omega
  | f + 1, g + 1, d, t, rows, ht, hf, hg => by
    funext s
    rw [gen_succ, gen_succ, genRows_subs rows fun row hrow t' hl hne d' => ?_]
    unfold included
    cases hx : files.rows t' with
    | none => rfl
    | some rows' =>
      have := hr t rows ht row hrow t' hl hne (by rw [hx]; rfl)
      exact gen_ranked hr f g d' t' rows' hx (by omega) (by omega)

/-- **C34.** If the files can be ranked so that includes and declares lead to files of smaller rank, then the recursion limit plays no role
beyond the rank: parsing gives the same result, whatever it is, for all larger limits. Nothing else is assumed about the rows, the document
or the file system; a file may name itself, which is detected, and missing files need no rank. -/
theorem C34_ranked {files : Files} {rank : Str → Nat} {k : Nat} {path : Str} {rows : List (List Str)}
    (hr : ∀ t rows, files.rows t = some rows → ∀ row ∈ rows, ∀ t', leads files.decl [] row = some t' → t' ≠ t → (files.rows t').isSome → rank t' < rank t)
    (h0 : ∀ row ∈ rows, ∀ t', leads files.decl (dirname path) row = some t' → t' ≠ path → (files.rows t').isSome → rank t' < k)
    (s : St) {fuel : Nat} (hf : k < fuel) : parseRows files fuel path rows s = parseRows files (k + 1) path rows s := by
  obtain ⟨f, rfl⟩ : ∃ f, fuel = f + 1 := ⟨fuel - 1, by omega⟩
  have e : gen files true (f + 1) false (dirname path) path rows = gen files true (k + 1) false (dirname path) path rows := by
    funext s
    rw [gen_succ, gen_succ, genRows_subs rows fun row hrow t' hl hne d' => ?_]
    unfold included
    cases hx : files.rows t' with
    | none => rfl
    | some rows' =>
      have := h0 row hrow t' hl hne (by rw [hx]; rfl)
      exact gen_ranked hr f k d' t' rows' hx (by omega) this
  unfold parseRows
  rw [e]

/-- **C34, endless includes.** Two files that include each other are not detected: the nesting always reaches the limit. -/
theorem C34_loop_witness (fuel : Nat) : ∃ s, parseRows badFiles (fuel + 1) (py!"http://a") [[py!"Title", py!"T"], [py!"Include", py!"http://b"]] (newDoc exEnv) =
    .err .recursionError s := by
  have key : ∀ n dir here a, (Dict.get? a.known (py!"root")).isSome →
      (Stops badFiles.rows badFiles.decl n dir (py!"http://a") here [[py!"Title", py!"T"], [py!"Include", py!"http://b"]] a .tooDeep) ∧
      (Stops badFiles.rows badFiles.decl n dir (py!"http://b") here [[py!".Note", py!"n"], [py!"Include", py!"http://a"]] a .tooDeep) := by
    intro n
    have hk1 : kind [py!"Title", py!"T"] = .named (py!"root") (py!"title") := by decide +kernel
    have hk2 : kind [py!".Note", py!"n"] = .elided (py!"note") := by decide +kernel
    have hi1 : includeRow [py!"Include", py!"http://b"] = some (py!"http://b") := by decide +kernel
    have hi2 : includeRow [py!"Include", py!"http://a"] = some (py!"http://a") := by decide +kernel
    have ht : ∀ dir : Str, includeTarget dir (py!"http://a") = some (py!"http://a") ∧ includeTarget dir (py!"http://b") = some (py!"http://b") := fun dir => ⟨rfl, rfl⟩
    induction n with
    | zero =>
      intro dir here a ha
      exact ⟨.row (by rw [hk1]; simp) (fun p r h => by rw [hk1] at h; cases h; exact ha) (.tooDeep hi1 (ht _).2 (by decide) rfl),
        .row (by rw [hk2]; simp) (fun p r h => by rw [hk2] at h; cases h) (.tooDeep hi2 (ht _).1 (by decide) rfl)⟩
    | succ n ih =>
      intro dir here a ha
      have hk : ∀ row v, (Dict.get? ((a.row row).includeTerm v).known (py!"root")).isSome := by
        intro row v
        unfold Reader.includeTerm
        simp only [Dict.get?_cons]
        split
        · rfl
        · exact known_later ha
      exact ⟨.row (by rw [hk1]; simp) (fun p r h => by rw [hk1] at h; cases h; exact ha) (.inside hi1 (ht _).2 (by decide) rfl (ih _ _ _ (hk _ _)).2),
        .row (by rw [hk2]; simp) (fun p r h => by rw [hk2] at h; cases h) (.inside hi2 (ht _).1 (by decide) rfl (ih _ _ _ (hk _ _)).1)⟩
  exact stops_parse plainClasses_init (key fuel _ _ _ rfl).1

/-- A chain of includes, and a file that includes itself. -/
def chainFiles : Files :=
  ⟨fun p => if p = py!"http://a" then some [[py!"Title", py!"T"], [py!"Include", py!"http://b"], [py!"Include", py!"http://gone"]]
            else if p = py!"http://b" then some [[py!".Note", py!"n"], [py!"Include", py!"http://b"]]
            else none, fun _ v => if v = py!"decl" then some (py!"http://a") else none⟩

def chainRank (p : Str) : Nat := if p = py!"http://a" then 1 else 0

/-- The hypotheses of `C34_ranked` are met. -/
example (s : St) {fuel : Nat} (hf : 2 < fuel) : parseRows chainFiles fuel (py!"/d/m.csv") [[py!"Declare", py!"decl"], [py!"Include", py!"http://b"]] s =
    parseRows chainFiles 3 (py!"/d/m.csv") [[py!"Declare", py!"decl"], [py!"Include", py!"http://b"]] s := by
  refine C34_ranked (rank := chainRank) ?_ ?_ s hf
  · intro t rows h row hrow t' hl hne hs
    simp only [chainFiles] at h
    split at h
    · next e =>
      subst e; cases h
      simp only [List.mem_cons, List.not_mem_nil, or_false] at hrow
      rcases hrow with rfl | rfl | rfl
      · exact absurd (hl.symm.trans (show _ = none by decide +kernel)) (by simp)
      · obtain rfl : py!"http://b" = t' := Option.some.inj ((show leads chainFiles.decl [] [py!"Include", py!"http://b"] = some (py!"http://b") by decide +kernel).symm.trans hl)
        decide
      · obtain rfl : py!"http://gone" = t' := Option.some.inj ((show leads chainFiles.decl [] [py!"Include", py!"http://gone"] = some (py!"http://gone") by decide +kernel).symm.trans hl)
        exact absurd hs (by decide)
    · split at h
      · next e =>
        subst e; cases h
        simp only [List.mem_cons, List.not_mem_nil, or_false] at hrow
        rcases hrow with rfl | rfl
        · exact absurd (hl.symm.trans (show _ = none by decide +kernel)) (by simp)
        · obtain rfl : py!"http://b" = t' := Option.some.inj ((show leads chainFiles.decl [] [py!"Include", py!"http://b"] = some (py!"http://b") by decide +kernel).symm.trans hl)
          exact absurd rfl hne
      · cases h
  · intro row hrow t' hl hne hs
    unfold chainRank
    split <;> decide

/-- The hypothesis of `C34_stable` is met by a file that is read, and by one that is refused. -/
example : ∀ u ∈ [py!"http://b", py!"http://a"], (match parseRows chainFiles 4 (py!"/d/m.csv") [[py!"Include", u]] (newDoc exEnv) with
    | .err e _ => e | .ok _ _ => .includeError) = Err.includeError := by decide +kernel

end Metatab
