import Verif.Model.Csv
import Verif.Lemmas.Str
/-! # C07: CSV output reads back as the same rows -/
namespace Metatab
open Py

theorem csvRead_quoted (f g : Str) (row : List Str) (k : Str) :
    csvRead .inQuoted g row ((f.flatMap fun c => if c = '"' then ['"', '"'] else [c]) ++ '"' :: k) =
      csvRead .quoteInQuoted (g ++ f) row k := by
  induction f generalizing g with
  | nil => simp [csvRead]
  | cons c f ih =>
    by_cases hc : c = '"'
    · subst hc
      simp only [List.flatMap_cons, if_true, List.cons_append, List.nil_append, csvRead]
      rw [ih]; simp
    · simp only [List.flatMap_cons, hc, if_false, List.cons_append, List.nil_append, csvRead]
      rw [ih]; simp

theorem csvRead_plain (f : Str) (hf : csvNeedsQuote f = false) (g : Str) (row : List Str) (k : Str) :
    csvRead .inField g row (f ++ k) = csvRead .inField (g ++ f) row k := by
  induction f generalizing g with
  | nil => simp
  | cons c f ih =>
    simp [csvNeedsQuote] at hf
    simp only [List.cons_append, csvRead]
    rw [if_neg (by simp [hf]), if_neg (by simp [hf])]
    rw [ih (by simp [csvNeedsQuote]; exact hf.2)]; simp

/-- A written field followed by a comma is read as that field. -/
theorem csvRead_field_comma (f : Str) (row : List Str) (k : Str) :
    csvRead .startField [] row (csvField f ++ ',' :: k) = csvRead .startField [] (row ++ [f]) k := by
  unfold csvField
  split
  · simp only [List.cons_append, List.append_assoc, List.nil_append, csvRead]
    rw [if_neg (by decide)]
    simp only [if_true]
    rw [csvRead_quoted]
    simp [csvRead]
  · rename_i h
    cases f with
    | nil => simp [csvRead]
    | cons c f =>
      have h' : csvNeedsQuote (c :: f) = false := by simpa using h
      simp [csvNeedsQuote] at h'
      simp only [List.cons_append, csvRead]
      rw [if_neg (by simp [h']), if_neg (by simp [h']), if_neg (by simp [h']), csvRead_plain f (by simp [csvNeedsQuote]; exact h'.2)]
      simp [csvRead]

/-- A written field followed by the line terminator ends the record. -/
theorem csvRead_field_cr (f : Str) (row : List Str) (k : Str) :
    csvRead .startField [] row (csvField f ++ '\r' :: k) = (row ++ [f]) :: csvRead (.startRec true) [] [] k := by
  unfold csvField
  split
  · simp only [List.cons_append, List.append_assoc, List.nil_append, csvRead]
    rw [if_neg (by decide)]
    simp only [if_true]
    rw [csvRead_quoted]
    simp [csvRead]
  · rename_i h
    cases f with
    | nil => simp [csvRead]
    | cons c f =>
      have h' : csvNeedsQuote (c :: f) = false := by simpa using h
      simp [csvNeedsQuote] at h'
      simp only [List.cons_append, csvRead]
      rw [if_neg (by simp [h']), if_neg (by simp [h']), if_neg (by simp [h']), csvRead_plain f (by simp [csvNeedsQuote]; exact h'.2)]
      simp [csvRead]

theorem csvRead_fields (r : List Str) (hr : r ≠ []) (row : List Str) (k : Str) :
    csvRead .startField [] row (join [','] (r.map csvField) ++ '\r' :: k) = (row ++ r) :: csvRead (.startRec true) [] [] k := by
  induction r generalizing row with
  | nil => exact absurd rfl hr
  | cons a r ih =>
    cases r with
    | nil => simp [join, csvRead_field_cr]
    | cons b r =>
      have ih := ih (by simp) (row ++ [a])
      simp only [List.map_cons, join, List.append_assoc, List.cons_append, List.nil_append] at ih ⊢
      rw [csvRead_field_comma, ih]

/-- A record that starts with no line break is read as from the start of a field. -/
theorem csvRead_start (b : Bool) (s : Str) (hs : s ≠ []) (h : s.head? ≠ some '\n' ∧ s.head? ≠ some '\r') :
    csvRead (.startRec b) [] [] s = csvRead .startField [] [] s := by
  cases s with
  | nil => exact absurd rfl hs
  | cons c s =>
    simp at h
    simp [csvRead, h]

theorem csvField_head (f : Str) : (csvField f).head? ≠ some '\n' ∧ (csvField f).head? ≠ some '\r' := by
  unfold csvField
  split
  · simp
  · rename_i h
    cases f with
    | nil => simp
    | cons c f =>
      have h' : csvNeedsQuote (c :: f) = false := by simpa using h
      simp [csvNeedsQuote] at h'
      simp [h']

theorem head?_app {a : Str} (b : Str) (h : a ≠ []) : (a ++ b).head? = a.head? := by
  cases a <;> simp_all

theorem csvField_eq_nil {f : Str} (h : csvField f = []) : f = [] := by
  unfold csvField at h
  split at h
  · simp at h
  · exact h

theorem csvRead_row (b : Bool) (r : List Str) (k : Str) :
    csvRead (.startRec b) [] [] (csvRow r ++ k) = r :: csvRead (.startRec false) [] [] k := by
  unfold csvRow
  by_cases h1 : r = [[]]
  · subst h1
    simp [csvRead]
  · rw [if_neg h1]
    by_cases h2 : r = []
    · subst h2; simp [join, csvRead]
    · have hk : csvRead (.startRec true) [] [] ('\n' :: k) = csvRead (.startRec false) [] [] k := by simp [csvRead]
      have e : join [','] (r.map csvField) ++ ['\r', '\n'] ++ k = join [','] (r.map csvField) ++ '\r' :: '\n' :: k := by simp
      rw [e, csvRead_start, csvRead_fields r h2, hk]
      · simp
      · simp
      · match r with
        | [] => exact absurd rfl h2
        | [a] =>
          have ha : a ≠ [] := by rintro rfl; exact h1 rfl
          have : csvField a ≠ [] := fun h => ha (csvField_eq_nil h)
          simp only [List.map_cons, List.map_nil, join]
          rw [head?_app _ this]
          exact csvField_head a
        | a :: b :: r =>
          simp only [List.map_cons, join, List.append_assoc]
          by_cases ha : csvField a = []
          · rw [ha]; simp
          · rw [head?_app _ ha]
            exact csvField_head a

/-- **C07**. The CSV text of any rows reads back as exactly those rows. -/
theorem C07_roundtrip (rows : List (List Str)) : readCsv (asCsv rows) = rows := by
  unfold readCsv asCsv
  induction rows with
  | nil => rfl
  | cons r rows ih => rw [List.flatMap_cons, csvRead_row, ih]

/-- **C07** (injectivity). Different rows are written as different texts. -/
theorem C07_injective {a b : List (List Str)} (h : asCsv a = asCsv b) : a = b := by
  rw [← C07_roundtrip a, h, C07_roundtrip]

example : asCsv [[py!"a,b", py!"say \"hi\"", []], [[]], [], [py!"x\r\ny"]] =
    py!"\"a,b\",\"say \"\"hi\"\"\",\r\n\"\"\r\n\r\n\"x\r\ny\"\r\n" := by decide

end Metatab
