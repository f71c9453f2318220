import Verif.Lemmas.Norm
import Verif.Spec.LineFile
import Verif.Props.Lines
import Verif.Props.Reading
/-! The lines that are written for a document with a known outline, and how they are read. -/
namespace Metatab
open Py _root_.Spec

/-! ## The rows and the lines -/

/-- The filled argument cells with their columns. -/
def filledCells (cols vs : List Str) : List (Str × Str) := (cols.zip vs).filter fun cv => decide (strip cv.2 ≠ [])

/-- The rows that stand for a row in the Lines format. -/
def lineRows (cols : List Str) : List Str → List (List Str)
  | c :: v :: vs => [c, v] :: (filledCells cols vs).map fun cv => ['.' :: title cv.1, cv.2]
  | row => [row]

/-- The lines of a row. -/
def lineTexts (cols : List Str) : List Str → List Str
  | c :: v :: vs => (c ++ py!": " ++ v) :: (filledCells cols vs).map fun cv => py!"    ." ++ title cv.1 ++ py!": " ++ cv.2
  | _ => []

/-- The rows that stand for a section. -/
def partLineRows (d : Part) : List (List Str) :=
  (if d.name ≠ py!"Root" then [[[]], py!"Section" :: d.name :: d.cols] else []) ++
    (d.items.flatMap (itemRows d.cols (py!"root"))).flatMap (lineRows d.cols)

/-- The lines of a section. -/
def partTexts (d : Part) : List Str :=
  (if d.name ≠ py!"Root" then [[], py!"Section: " ++ join ['|'] (d.name :: d.cols)] else []) ++
    (d.items.flatMap (itemRows d.cols (py!"root"))).flatMap (lineTexts d.cols)

/-! ## Names in title case -/

theorem any_title {P : Char → Bool} (hP : ∀ c, P (lowerC c) = P c) (n : Str) : (title n).any P = n.any P := by
  have h : ∀ x : Str, (lower x).any P = x.any P := by
    intro x
    unfold lower
    rw [List.any_map]
    congr 1
    funext c
    exact hP c
  rw [← h (title n), lower_title, h]

theorem all_title {P : Char → Bool} (hP : ∀ c, P (lowerC c) = P c) (n : Str) : (title n).all P = n.all P := by
  rw [← Bool.not_inj_iff, List.not_all_eq_any_not, List.not_all_eq_any_not]
  exact any_title (P := fun c => !P c) (fun c => by rw [hP]) n

theorem lineBreak_lower (c : Char) : isLineBreak (lowerC c) = isLineBreak c := by
  unfold lowerC
  split
  · rename_i h
    have hn : 65 ≤ c.toNat ∧ c.toNat ≤ 90 := by simpa [isUpper] using h
    unfold isLineBreak
    rw [toNat_ofNat_small (by omega)]
    simp only
    have e1 : (10 ≤ c.toNat + 32 && c.toNat + 32 ≤ 13) = false := by simp; try omega
    have e2 : (10 ≤ c.toNat && c.toNat ≤ 13) = false := by simp; try omega
    have e3 : (28 ≤ c.toNat + 32 && c.toNat + 32 ≤ 30) = false := by simp; try omega
    have e4 : (28 ≤ c.toNat && c.toNat ≤ 30) = false := by simp; try omega
    rw [e1, e2, e3, e4]
    simp only [Bool.false_or]
    have f1 : (c.toNat + 32 == 0x85) = false := by simp; omega
    have f2 : (c.toNat == 0x85) = false := by simp; omega
    have f3 : (c.toNat + 32 == 0x2028) = false := by simp; omega
    have f4 : (c.toNat == 0x2028) = false := by simp; omega
    have f5 : (c.toNat + 32 == 0x2029) = false := by simp; omega
    have f6 : (c.toNat == 0x2029) = false := by simp; omega
    rw [f1, f2, f3, f4, f5, f6]
  · rfl

theorem colon_title {n : Str} : ':' ∈ title n ↔ ':' ∈ n := by
  have h : ∀ x : Str, ':' ∈ lower x ↔ ':' ∈ x := fun x => mem_lower (by decide) (by decide)
  rw [← h, lower_title, h]

theorem oneLine_title (n : Str) : oneLine (title n) = oneLine n :=
  all_title (P := fun c => !isLineBreak c) (fun c => by rw [lineBreak_lower]) n

theorem marker_lower (x : Str) : py!"====" <+: lower x ↔ py!"====" <+: x := by
  have e : ∀ c, lowerC c = '=' ↔ c = '=' := fun c => lowerC_eq_iff (by decide) (by decide)
  match x with
  | [] => simp [lower]
  | [a] => simp [lower, List.cons_prefix_cons]
  | [a, b] => simp [lower, List.cons_prefix_cons]
  | [a, b, c] => simp [lower, List.cons_prefix_cons]
  | a :: b :: c :: d :: n =>
    simp only [lower, List.map_cons, List.cons_prefix_cons, List.nil_prefix, and_true]
    simp only [eq_comm (a := '='), e]

theorem marker_title (n : Str) : py!"====" <+: title n ↔ py!"====" <+: n := by
  rw [← marker_lower (title n), lower_title, marker_lower]

theorem marker_dot {p n : Str} : py!"====" <+: p ++ '.' :: n ↔ py!"====" <+: p := by
  constructor
  · intro h
    match p with
    | [] => simp [List.cons_prefix_cons] at h
    | [a] => simp [List.cons_prefix_cons] at h
    | [a, b] => simp [List.cons_prefix_cons] at h
    | [a, b, c] => simp [List.cons_prefix_cons] at h
    | a :: b :: c :: d :: n =>
      simp only [List.cons_append, List.cons_prefix_cons, List.nil_prefix, and_true] at h ⊢
      exact h
  · intro h
    exact h.trans (List.prefix_append _ _)

/-! ## Lines -/

theorem esc_id {v : Str} (h : '|' ∉ v) : escPipe v = v := by
  unfold escPipe
  induction v with
  | nil => rfl
  | cons c v ih =>
    rw [List.mem_cons, not_or] at h
    rw [List.flatMap_cons, if_neg (Ne.symm h.1), ih h.2]
    rfl

theorem lineCell_iff {v : Str} : lineCell v = true ↔ '|' ∉ v ∧ ∀ c ∈ v, isLineBreak c = false := by
  unfold lineCell oneLine
  simp [List.all_eq_true]

theorem lineName_iff {n : Str} : lineName n = true ↔ ':' ∉ n ∧ (∀ c ∈ n, isLineBreak c = false) ∧ ¬ py!"====" <+: n := by
  unfold lineName oneLine
  rw [Bool.and_eq_true, Bool.and_eq_true, Bool.not_eq_true', Bool.not_eq_true', and_assoc]
  refine and_congr (by simp) (and_congr (by simp [List.all_eq_true]) ?_)
  rw [← Bool.not_eq_true, List.isPrefixOf_iff_prefix]

/-- The line of a term. -/
theorem lineRow_name {p n v : Str} (hn : Clean n) (hp : p = py!"root" ∨ (Clean p ∧ (py!"root").isSuffixOf p = false))
    (hln : lineName n = true) (hlp : p = py!"root" ∨ lineName p = true) (hv : lineCell v = true) (hs : strip v = v) :
    LineRow (rowName (dotJoin p n)) [v] := by
  obtain ⟨o1, o2, o3, o4, o5⟩ := ordinary_facts hn.ord
  obtain ⟨n1, n2, n3⟩ := lineName_iff.1 hln
  obtain ⟨v1, v2⟩ := lineCell_iff.1 hv
  have tb : ∀ x : Str, (∀ c ∈ x, isLineBreak c = false) → ∀ c ∈ title x, isLineBreak c = false := by
    intro x hx
    have : oneLine (title x) = true := by rw [oneLine_title]; unfold oneLine; simpa [List.all_eq_true] using hx
    unfold oneLine at this
    simpa [List.all_eq_true] using this
  have hout : strip (join ['|'] ([v].map escPipe)) = join ['|'] ([v].map escPipe) := by
    simp only [List.map_cons, List.map_nil, join, esc_id v1, hs]
  have hback : ∀ c ∈ [v].dropLast, c.getLast? ≠ some '\\' := by simp
  rcases hp with rfl | ⟨hp, hr⟩
  · rw [rowName_root hn.dot]
    refine ⟨by rw [colon_title]; exact n1, strip_title hn.strip, by rw [Ne, title_eq_nil]; exact o1, by rw [Ne, head_title]; exact hn.hash,
      by rw [marker_title]; exact n3, by simp, hback, hout, ?_⟩
    intro c hc
    simp only [List.flatten_cons, List.flatten_nil, List.append_nil, List.mem_append] at hc
    rcases hc with hc | hc
    · exact tb n n2 c hc
    · exact v2 c hc
  · obtain ⟨q1, q2, q3, q4, q5⟩ := ordinary_facts hp.ord
    obtain ⟨p1, p2, p3⟩ := lineName_iff.1 (hlp.resolve_left q3)
    rw [rowName_other hp.dot hn.dot hr]
    have q1' : title p ≠ [] := by rw [Ne, title_eq_nil]; exact q1
    refine ⟨?_, strip_dot (strip_title hp.strip) (strip_title hn.strip) q1' (by rw [Ne, title_eq_nil]; exact o1), by simp, ?_, ?_, by simp, hback, hout, ?_⟩
    · rw [List.mem_append, List.mem_cons, colon_title, colon_title]
      rintro (h | h | h)
      · exact p1 h
      · exact absurd h (by decide)
      · exact n1 h
    · have : (title p ++ '.' :: title n).head? = (title p).head? := by
        cases ht : title p with
        | nil => exact absurd ht q1'
        | cons c cs => rfl
      rw [this, Ne, head_title]
      exact hp.hash
    · rw [marker_dot, marker_title]; exact p3
    · intro c hc
      simp only [List.flatten_cons, List.flatten_nil, List.append_nil, List.mem_append, List.mem_cons] at hc
      rcases hc with (hc | rfl | hc) | hc
      · exact tb p p2 c hc
      · decide
      · exact tb n n2 c hc
      · exact v2 c hc

/-- Blanks before a line do not matter, unless it starts with `====`. -/
theorem textRow_blank {l : Str} (h : ¬ py!"====" <+: l) : textRow (' ' :: l) = textRow l := by
  have h1 : lstrip (' ' :: l) = lstrip l := by unfold lstrip; exact List.dropWhile_cons_of_pos (by decide)
  have h2 : startsWith (py!"====") (' ' :: l) = false := by
    rw [← Bool.not_eq_true]
    unfold startsWith
    rw [List.isPrefixOf_iff_prefix]
    simp [List.cons_prefix_cons]
  have h3 : startsWith (py!"====") l = false := by
    rw [← Bool.not_eq_true]
    unfold startsWith
    rw [List.isPrefixOf_iff_prefix]
    exact h
  have h4 : split1 ':' (' ' :: l) = (' ' :: (split1 ':' l).1, (split1 ':' l).2) := by
    rw [split1, if_neg (by decide)]
  unfold textRow
  simp only [h1, h2, h3, h4, Bool.false_eq_true, if_false]
  split
  · rfl
  · cases hs : split1 ':' l with
    | mk a b =>
      cases b <;> simp only [strip_cons_space (show isSpace ' ' = true by decide)]

/-- Texts without outer blanks. -/
theorem strip_of_ends {x : Str} (h1 : ∀ a, x.head? = some a → isSpace a = false) (h2 : ∀ a, x.getLast? = some a → isSpace a = false) :
    strip x = x := by
  unfold strip
  have e1 : lstrip x = x := by unfold lstrip; rw [dropWhile_eq_self]; exact h1
  rw [e1]
  unfold rstrip
  rw [List.reverse_eq_iff, dropWhile_eq_self]
  intro a ha
  rw [List.head?_reverse] at ha
  exact h2 a ha

theorem strip_last {x : Str} (h : strip x = x) : ∀ a, x.getLast? = some a → isSpace a = false := by
  intro a ha
  have hr : rstrip x = x := by rw [← h]; unfold strip; exact rstrip_idem _
  have hr' : x.reverse.dropWhile isSpace = x.reverse := by
    unfold rstrip at hr
    rw [← List.reverse_eq_iff]
    exact hr
  refine (dropWhile_eq_self isSpace).1 hr' a ?_
  rw [List.head?_reverse]
  exact ha

/-- The line of an argument cell. -/
theorem textRow_arg {c v : Str} (hc : strip c = c) (h0 : c ≠ []) (hcol : ':' ∉ c) (hv : '|' ∉ v) (hs : strip v = v) :
    textRow (py!"    ." ++ title c ++ py!": " ++ v) = some ['.' :: title c, v] := by
  have hm : ∀ k : Str, ¬ py!"====" <+: ' ' :: k := by intro k; simp [List.cons_prefix_cons]
  have hm' : ¬ py!"====" <+: '.' :: (title c ++ py!": " ++ v) := by simp [List.cons_prefix_cons]
  show textRow (' ' :: ' ' :: ' ' :: ' ' :: '.' :: (title c ++ py!": " ++ v)) = _
  rw [textRow_blank (hm _), textRow_blank (hm _), textRow_blank (hm _), textRow_blank hm']
  have h1 : lstrip ('.' :: (title c ++ py!": " ++ v)) = '.' :: (title c ++ py!": " ++ v) := by
    unfold lstrip; rw [List.dropWhile_cons_of_neg (by decide)]
  have h2 : startsWith (py!"====") ('.' :: (title c ++ py!": " ++ v)) = false := by
    rw [← Bool.not_eq_true]; unfold startsWith; rw [List.isPrefixOf_iff_prefix]; exact hm'
  have e : '.' :: (title c ++ py!": " ++ v) = ('.' :: title c) ++ ':' :: ' ' :: v := by simp
  have h3 : split1 ':' ('.' :: (title c ++ py!": " ++ v)) = ('.' :: title c, some (' ' :: v)) := by
    rw [e]
    exact split1_append (by rw [List.mem_cons, colon_title]; rintro (h | h); exact absurd h (by decide); exact hcol h) _
  unfold textRow
  rw [h1]
  simp only [h2, h3, Bool.false_eq_true, if_false, List.head?_cons, Option.some.injEq]
  rw [if_neg (by decide), strip_cons_space (show isSpace ' ' = true by decide), hs]
  have hp := splitPipes_join [v] (by simp) (by simp)
  simp only [List.map_cons, List.map_nil, join, esc_id hv] at hp
  rw [hp]
  have hu := unescape_esc v
  rw [esc_id hv] at hu
  have hst : strip ('.' :: title c) = '.' :: title c := by
    refine strip_of_ends (fun a ha => ?_) fun a ha => ?_
    · cases ha; decide
    · refine strip_last (strip_title hc) a ?_
      rw [List.getLast?_cons] at ha
      cases ht : title c with
      | nil => exact absurd (title_eq_nil.1 ht) h0
      | cons x y => rw [ht] at ha; simpa [List.getLast?_cons] using ha
  simp only [List.map_cons, List.map_nil, hu, hst]

theorem splitlines_join' (ls : List Str) (h : ∀ l ∈ ls, ∀ c ∈ l, isLineBreak c = false) (hl : ls.getLast? ≠ some []) :
    splitlines (join ['\n'] ls) = ls := by
  unfold splitlines
  induction ls with
  | nil => rfl
  | cons l ls ih =>
    have hb := h l List.mem_cons_self
    cases ls with
    | nil =>
      have h0 : l ≠ [] := by rintro rfl; exact hl rfl
      have := splitlinesGo_append l hb [] [] false
      simp only [List.append_nil] at this
      simp [join, this, splitlinesGo, h0]
    | cons m ls =>
      have ih := ih (fun l hl => h l (List.mem_cons_of_mem _ hl)) (by simpa using hl)
      simp only [join, List.append_assoc]
      rw [splitlinesGo_append l hb]
      have h1 : isLineBreak '\n' = true := by decide
      simp [splitlinesGo, h1, ih]

theorem join_last {cells : List Str} (h : ∀ c ∈ cells, strip c = c) : ∀ a, (join ['|'] cells).getLast? = some a → isSpace a = false := by
  induction cells with
  | nil => intro a ha; cases ha
  | cons x cells ih =>
    cases cells with
    | nil => exact strip_last (h x List.mem_cons_self)
    | cons y cells =>
      intro a ha
      rw [join, List.append_assoc, List.getLast?_append, List.getLast?_append] at ha
      have ih := ih fun c hc => h c (List.mem_cons_of_mem _ hc)
      cases hj : (join ['|'] (y :: cells)).getLast? with
      | some b =>
        rw [hj] at ha
        simp only [Option.or_some, Option.some_or, Option.some.injEq] at ha
        subst ha
        exact ih b hj
      | none =>
        rw [hj] at ha
        simp only [Option.none_or, List.getLast?_singleton, Option.some_or, Option.some.injEq] at ha
        subst ha
        decide

/-- The line of a section. -/
theorem lineRow_section {n : Str} {cols : List Str} (hn : n ≠ []) (hs : strip n = n) (hc : ∀ c ∈ cols, strip c = c)
    (hl : ∀ c ∈ n :: cols, lineCell c = true ∧ c.getLast? ≠ some '\\') :
    LineRow (py!"Section") (n :: cols) ∧ writeLine (py!"Section") (n :: cols) = py!"Section: " ++ join ['|'] (n :: cols) := by
  have he : (n :: cols).map escPipe = n :: cols := by
    have : (n :: cols).map escPipe = (n :: cols).map id := List.map_congr_left fun c hc => esc_id (lineCell_iff.1 (hl c hc).1).1
    rw [this, List.map_id]
  constructor
  · refine ⟨by decide, by decide, by decide, by decide, by decide, by simp, ?_, ?_, ?_⟩
    · intro c hc
      exact (hl c (List.dropLast_subset _ hc)).2
    · rw [he]
      refine strip_of_ends ?_ (join_last ?_)
      · intro a ha
        refine strip_head_mem hs a ?_
        cases n with
        | nil => exact absurd rfl hn
        | cons x n =>
          cases cols <;> simpa [join] using ha
      · intro c hc'
        rcases List.mem_cons.1 hc' with rfl | h
        · exact hs
        · exact hc c h
    · intro c hc'
      rcases List.mem_append.1 hc' with h | h
      · have : ∀ c ∈ py!"Section", isLineBreak c = false := by decide
        exact this c h
      · obtain ⟨x, hx, h⟩ := List.mem_flatten.1 h
        exact (lineCell_iff.1 (hl x hx).1).2 c h
  · unfold writeLine
    rw [he]
    rfl

end Metatab
