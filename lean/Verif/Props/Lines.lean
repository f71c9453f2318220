import Verif.Model.TextRows
import Verif.Spec.Lines
import Verif.Lemmas.Str
/-! # C04, C05: the Lines format -/
namespace Metatab
open Py Spec

/-! ## Pipes -/

theorem unescape_esc (s : Str) : unescapePipe (escPipe s) = s := by
  unfold unescapePipe replace
  induction s with
  | nil => rfl
  | cons c s ih =>
    by_cases hc : c = '|'
    · subst hc
      have : escPipe ('|' :: s) = '\\' :: '|' :: escPipe s := rfl
      rw [this]
      simp [replaceGo, ih]
    · have : escPipe (c :: s) = c :: escPipe s := by simp [escPipe, hc]
      rw [this]
      have hp : (['\\', '|'] : Str).isPrefixOf (c :: escPipe s) = false := by
        cases s with
        | nil => simp [escPipe, List.isPrefixOf]
        | cons d s =>
          by_cases hd : d = '|'
          · subst hd
            have : escPipe ('|' :: s) = '\\' :: '|' :: escPipe s := rfl
            rw [this]; simp [List.isPrefixOf]
          · have : escPipe (d :: s) = d :: escPipe s := by simp [escPipe, hd]
            rw [this]; simp [List.isPrefixOf, Ne.symm hd]
      simp [replaceGo, hp, ih]

/-- Prepend to the first piece. -/
def consFirst (s : Str) : List Str → List Str
  | [] => [s]
  | h :: t => (s ++ h) :: t

theorem splitPipes_ne_nil (b : Bool) (s : Str) : splitPipes b s ≠ [] := by
  cases s with
  | nil => simp [splitPipes]
  | cons c s =>
    unfold splitPipes
    split
    · simp
    · split <;> simp

theorem consFirst_consFirst (a b : Str) {l : List Str} (h : l ≠ []) : consFirst a (consFirst b l) = consFirst (a ++ b) l := by
  cases l with
  | nil => exact absurd rfl h
  | cons x l => simp [consFirst]

theorem splitPipes_cons_keep {p : Bool} {c : Char} (h : ¬ (c = '|' ∧ p = false)) (k : Str) :
    splitPipes p (c :: k) = consFirst [c] (splitPipes (c = '\\') k) := by
  conv_lhs => unfold splitPipes
  rw [if_neg h]
  cases splitPipes (decide (c = '\\')) k <;> rfl

/-- The escaped text of a cell is never split. -/
theorem splitPipes_esc (c : Str) : ∀ (p : Bool) (k : Str),
    splitPipes p (escPipe c ++ k) = consFirst (escPipe c) (splitPipes (if c = [] then p else c.getLast? = some '\\') k) := by
  induction c with
  | nil =>
    intro p k
    have := splitPipes_ne_nil p k
    simp [escPipe]
    cases h : splitPipes p k with
    | nil => exact absurd h this
    | cons a b => simp [consFirst]
  | cons d c ih =>
    intro p k
    by_cases hd : d = '|'
    · subst hd
      have e : escPipe ('|' :: c) = ['\\', '|'] ++ escPipe c := rfl
      rw [e]
      simp only [List.cons_append, List.nil_append]
      rw [splitPipes_cons_keep (by simp), splitPipes_cons_keep (by simp)]
      rw [ih, consFirst_consFirst _ _ (by simp [consFirst]; cases c <;> (split <;> simp_all [splitPipes_ne_nil])),
        consFirst_consFirst _ _ (splitPipes_ne_nil _ _)]
      cases c with
      | nil => simp
      | cons x c => simp
    · have e : escPipe (d :: c) = [d] ++ escPipe c := by simp [escPipe, hd]
      rw [e]
      simp only [List.cons_append, List.nil_append]
      rw [splitPipes_cons_keep (by simp [hd]), ih, consFirst_consFirst _ _ (splitPipes_ne_nil _ _)]
      cases c with
      | nil => simp
      | cons x c => simp

theorem splitPipes_join (cells : List Str) (hne : cells ≠ []) (hb : ∀ c ∈ cells.dropLast, c.getLast? ≠ some '\\') :
    splitPipes false (join ['|'] (cells.map escPipe)) = cells.map escPipe := by
  induction cells with
  | nil => exact absurd rfl hne
  | cons a cells ih =>
    cases cells with
    | nil =>
      have := splitPipes_esc a false []
      simp only [List.append_nil] at this
      simp [join, this, splitPipes, consFirst]
    | cons b cells =>
      have ih := ih (by simp) (fun c hc => hb c (by simp [hc]))
      have ha := hb a (by simp)
      simp only [List.map_cons, join, List.append_assoc]
      simp only [List.map_cons] at ih
      rw [splitPipes_esc]
      have hf : (if a = [] then false else decide (a.getLast? = some '\\')) = false := by
        split
        · rfl
        · simp [ha]
      rw [hf]
      conv_lhs => unfold splitPipes
      simp [consFirst, ih]

/-! ## Splitting the line -/

theorem split1_append {sep : Char} {a : Str} (h : sep ∉ a) (b : Str) : split1 sep (a ++ sep :: b) = (a, some b) := by
  induction a with
  | nil => simp [split1]
  | cons c a ih =>
    simp at h
    simp [split1, ih h.2, Ne.symm h.1]

theorem strip_cons_space {c : Char} (h : isSpace c = true) (s : Str) : strip (c :: s) = strip s := by
  simp [strip, lstrip, h]

theorem lstrip_head {n : Str} (h : strip n = n) (k : Str) (hne : n ≠ []) : (lstrip (n ++ k)).head? = n.head? := by
  have h1 : lstrip n = n := by rw [← h, lstrip_strip]
  unfold lstrip at h1 ⊢
  rw [dropWhile_eq_self] at h1
  cases n with
  | nil => exact absurd rfl hne
  | cons c n => simp [h1 c rfl]

/-- **C04** (one line). -/
theorem C04_line {name : Str} {cells : List Str} (h : LineRow name cells) :
    textRow (writeLine name cells) = some (name :: cells) := by
  unfold textRow
  have e : writeLine name cells = name ++ ':' :: ' ' :: join ['|'] (cells.map escPipe) := by simp [writeLine]
  rw [e]
  have h1 : (lstrip (name ++ ':' :: ' ' :: join ['|'] (cells.map escPipe))).head? = name.head? :=
    lstrip_head h.stripped _ h.nonempty
  have h2 : startsWith (py!"====") (name ++ ':' :: ' ' :: join ['|'] (cells.map escPipe)) = false := by
    unfold startsWith
    by_contra hc
    have hc : (py!"====").isPrefixOf (name ++ ':' :: ' ' :: join ['|'] (cells.map escPipe)) = true := by simpa using hc
    rw [List.isPrefixOf_iff_prefix] at hc
    apply h.marker
    obtain ⟨t, ht⟩ := hc
    have hne := h.nonempty
    clear h h1 e
    match name with
    | [] => exact absurd rfl hne
    | [a] => simp at ht
    | [a, b] => simp at ht
    | [a, b, c] => simp at ht
    | a :: b :: c :: d :: n =>
      simp at ht
      obtain ⟨rfl, rfl, rfl, rfl, _⟩ := ht
      exact ⟨n, rfl⟩
  rw [h1, if_neg h.comment]
  simp only [h2]
  rw [if_neg (by simp), split1_append h.colon]
  simp only [h.stripped, strip_cons_space (show isSpace ' ' = true by decide), h.outer]
  rw [splitPipes_join cells h.cells_ne h.back]
  simp [Function.comp_def, unescape_esc]

/-! ## Lines -/

theorem splitlinesGo_append (l : Str) (hl : ∀ c ∈ l, isLineBreak c = false) (k : Str) : ∀ acc b,
    splitlinesGo b acc (l ++ k) = splitlinesGo (if l = [] then b else false) (l.reverse ++ acc) k := by
  induction l with
  | nil => intro acc b; simp
  | cons c l ih =>
    intro acc b
    have hc := hl c (by simp)
    have hn : c ≠ '\n' := by rintro rfl; revert hc; decide
    simp only [List.cons_append, splitlinesGo, hc, hn]
    simp [ih (fun c h => hl c (by simp [h]))]

/-- Joining non-empty break-free lines with line feeds and splitting them again gives the lines back. -/
theorem splitlines_join (ls : List Str) (h : ∀ l ∈ ls, l ≠ [] ∧ ∀ c ∈ l, isLineBreak c = false) :
    splitlines (join ['\n'] ls) = ls := by
  unfold splitlines
  induction ls with
  | nil => rfl
  | cons l ls ih =>
    have hl := h l (by simp)
    cases ls with
    | nil =>
      have := splitlinesGo_append l hl.2 [] [] false
      simp only [List.append_nil] at this
      simp [join, this, splitlinesGo, hl.1]
    | cons m ls =>
      have ih := ih (fun l hl => h l (by simp [hl]))
      simp only [join, List.append_assoc]
      rw [splitlinesGo_append l hl.2]
      have h1 : isLineBreak '\n' = true := by decide
      simp [hl.1, splitlinesGo, h1, ih]

theorem mem_join {c : Char} {sep : Str} {l : List Str} (h : c ∈ join sep l) : c ∈ sep ∨ ∃ s ∈ l, c ∈ s := by
  induction l with
  | nil => simp [join] at h
  | cons a l ih =>
    cases l with
    | nil => exact .inr ⟨a, by simp, h⟩
    | cons b l =>
      simp only [join, List.append_assoc, List.mem_append] at h
      rcases h with h | h | h
      · exact .inr ⟨a, by simp, h⟩
      · exact .inl h
      · rcases ih h with h | ⟨s, hs, h⟩
        · exact .inl h
        · exact .inr ⟨s, by simp [hs], h⟩

theorem writeLine_breaks {name : Str} {cells : List Str} (h : LineRow name cells) :
    ∀ c ∈ writeLine name cells, isLineBreak c = false := by
  intro c hc
  simp only [writeLine, List.append_assoc, List.mem_append] at hc
  rcases hc with hc | hc | hc
  · exact h.breaks c (by simp [hc])
  · simp at hc
    rcases hc with rfl | rfl <;> decide
  · rcases mem_join hc with hc | ⟨s, hs, hc⟩
    · simp at hc; subst hc; decide
    · simp only [List.mem_map] at hs
      obtain ⟨t, ht, rfl⟩ := hs
      simp only [escPipe, List.mem_flatMap] at hc
      obtain ⟨d, hd, hc⟩ := hc
      have := h.breaks d (by simp; exact .inr ⟨t, ht, hd⟩)
      split at hc
      · simp at hc; rcases hc with rfl | rfl <;> decide
      · simp at hc; subst hc; exact this

/-- **C04**. A text of escaped rows reads back as exactly those rows. -/
theorem C04_text (rows : List (Str × List Str)) (h : ∀ r ∈ rows, LineRow r.1 r.2) :
    textRows (join ['\n'] (rows.map fun r => writeLine r.1 r.2)) = rows.map fun r => r.1 :: r.2 := by
  unfold textRows
  rw [splitlines_join]
  · rw [List.filterMap_map]
    rw [show (rows.map fun r => r.1 :: r.2) = rows.filterMap (fun r => some (r.1 :: r.2)) by simp]
    induction rows with
    | nil => rfl
    | cons r rows ih =>
      have := C04_line (h r (by simp))
      simp only [List.filterMap_cons, Function.comp, this]
      rw [← ih (fun r hr => h r (by simp [hr]))]
  · intro l hl
    simp only [List.mem_map] at hl
    obtain ⟨r, hr, rfl⟩ := hl
    exact ⟨by simp [writeLine], writeLine_breaks (h r hr)⟩

/-- Non-trivial rows meet the hypotheses. -/
example : LineRow (py!"Table.Column") [py!"a|b", py!"", py!"C:\\x"] := by
  constructor <;> decide
/-- Outside them: a cell ending in a backslash swallows the following separator. -/
theorem C04_backslash_witness : textRow (writeLine (py!"A") [py!"x\\", py!"y"]) = some [py!"A", py!"x|y"] := by decide

/-! ## C05 -/

theorem commentLine_iff (l : Str) : CommentLine l ↔ (lstrip l).head? = some '#' := by
  constructor
  · rintro ⟨ws, rest, hw, rfl⟩
    have : lstrip (ws ++ '#' :: rest) = '#' :: rest := by
      unfold lstrip
      rw [List.dropWhile_append_of_pos (by simpa using hw)]
      simp [show isSpace '#' = false by decide]
    rw [this]; rfl
  · intro h
    refine ⟨l.takeWhile isSpace, (lstrip l).tail, fun c hc => ?_, ?_⟩
    · clear h
      induction l with
      | nil => simp at hc
      | cons d l ih =>
        rw [List.takeWhile_cons] at hc
        split at hc
        · rename_i hd
          simp at hc
          rcases hc with rfl | hc
          · exact hd
          · exact ih hc
        · simp at hc
    have e : '#' :: (lstrip l).tail = lstrip l := by
      cases hl : lstrip l with
      | nil => simp [hl] at h
      | cons a b => simp [hl] at h; simp [h]
    rw [e]; unfold lstrip; simp

/-- **C05** (comments and row count). A line is skipped exactly when it is a comment; every other line gives one row. -/
theorem C05_comment (l : Str) : textRow l = none ↔ CommentLine l := by
  rw [commentLine_iff]
  unfold textRow
  split
  · simp [*]
  · simp only [*, iff_false]
    split <;> simp

/-- **C05** (whole text). The number of rows is the number of non-comment lines. -/
theorem C05_count (text : Str) [DecidablePred CommentLine] :
    (textRows text).length = ((splitlines text).filter fun l => decide (¬ CommentLine l)).length := by
  unfold textRows
  induction splitlines text with
  | nil => rfl
  | cons l ls ih =>
    by_cases h : CommentLine l
    · rw [List.filterMap_cons_none ((C05_comment l).2 h)]
      simp [h, ih]
    · cases hr : textRow l with
      | none => exact absurd ((C05_comment l).1 hr) h
      | some r => rw [List.filterMap_cons_some hr]; simp [h, ih]

/-- **C05** (section markers). A line starting with four or more `=` reads like a `Section:` line; extra `=` are ignored. -/
theorem C05_section (n : Nat) (rest : Str) (h : rest.head? ≠ some '=') :
    textRow (List.replicate (n + 4) '=' ++ rest) = textRow (py!"Section:" ++ rest) := by
  have h1 : startsWith (py!"====") (List.replicate (n + 4) '=' ++ rest) = true := by
    unfold startsWith
    rw [List.isPrefixOf_iff_prefix]
    exact ⟨List.replicate n '=' ++ rest, by simp [List.replicate_succ]⟩
  have h2 : (List.replicate (n + 4) '=' ++ rest).dropWhile (· == '=') = rest := by
    rw [List.dropWhile_append_of_pos (by simp)]
    exact (dropWhile_eq_self _).2 (by
      intro a ha
      cases rest with
      | nil => simp at ha
      | cons c r => simp at ha h; subst ha; simpa using h)
  have h3 : (lstrip (List.replicate (n + 4) '=' ++ rest)).head? ≠ some '#' := by
    have : lstrip (List.replicate (n + 4) '=' ++ rest) = List.replicate (n + 4) '=' ++ rest := by
      unfold lstrip
      rw [dropWhile_eq_self]
      intro a ha
      simp [List.replicate_succ] at ha
      subst ha; decide
    rw [this]; simp [List.replicate_succ]
  have h4 : (lstrip (py!"Section:" ++ rest)).head? ≠ some '#' := by
    simp [lstrip, show isSpace 'S' = false by decide]
  have h5 : startsWith (py!"====") (py!"Section:" ++ rest) = false := by simp [startsWith, List.isPrefixOf]
  unfold textRow
  rw [if_neg h3, if_neg h4]
  simp only [h1, h2, h5, if_true]
  rfl

/-- **C05** (section markers, result). What such a line reads as: the `Section` row with the name as value. -/
theorem C05_section_row (n : Nat) (name : Str) (h : name.head? ≠ some '=') (hp : '|' ∉ name) :
    textRow (List.replicate (n + 4) '=' ++ name) = some [py!"Section", strip name] := by
  rw [C05_section n name h]
  have h4 : (lstrip (py!"Section:" ++ name)).head? ≠ some '#' := by
    simp [lstrip, show isSpace 'S' = false by decide]
  have h5 : startsWith (py!"====") (py!"Section:" ++ name) = false := by simp [startsWith, List.isPrefixOf]
  have h6 : split1 ':' (py!"Section:" ++ name) = (py!"Section", some name) :=
    split1_append (a := py!"Section") (by decide) name
  unfold textRow
  rw [if_neg h4]
  simp only [h5, Bool.false_eq_true, if_false, h6]
  have hns : ∀ s : Str, '|' ∉ s → escPipe s = s := by
    intro s hs
    induction s with
    | nil => rfl
    | cons c s ih =>
      simp at hs
      simp [escPipe, Ne.symm hs.1]
      simpa [escPipe] using ih hs.2
  have hp' : '|' ∉ strip name := fun h => hp (mem_strip h)
  have := splitPipes_join [strip name] (by simp) (by simp)
  simp [join, hns _ hp'] at this
  rw [this]
  have hu := unescape_esc (strip name)
  rw [hns _ hp'] at hu
  simp [hu]
  decide

example : textRow (py!"==== Schema") = some [py!"Section", py!"Schema"] ∧ textRow (py!"  # hi") = none ∧
    textRow (py!"") = some [[]] := by decide
example : CommentLine (py!"  # hi") := ⟨py!"  ", py!" hi", by decide, rfl⟩

end Metatab
