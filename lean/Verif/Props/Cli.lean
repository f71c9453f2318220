import Verif.Model.Cli
import Verif.Props.Writing
import Verif.Props.LineFile
import Verif.Props.FindOrderly
/-! # C72: the command `metatab`; C73: `get_table` -/
namespace Metatab
open Py _root_.Spec

/-! ## Names of files -/

/-- A path with a directory and the name of a file in it. -/
structure _root_.Spec.FileIn (p dir name : Str) : Prop where
  eq : p = dir ++ name
  dirEnd : dir = [] ∨ ∃ d, dir = d ++ py!"/"
  noSlash : '/' ∉ name
  nonempty : name ≠ []
  notDot : name ≠ py!"."

/-- The part of a name before its extension, that is, before the last dot if there is something before it and after it. -/
def _root_.Spec.BaseOf (name base : Str) : Prop :=
  (∃ e, name = base ++ '.' :: e ∧ base ≠ [] ∧ e ≠ [] ∧ '.' ∉ e) ∨
  (name = base ∧ ¬ ∃ b e, name = b ++ '.' :: e ∧ b ≠ [] ∧ e ≠ [] ∧ '.' ∉ e)

theorem splitOn_last {name : Str} (h : '/' ∉ name) : ∀ d : Str, ∃ l, splitOn '/' (d ++ '/' :: name) = l ++ [name] := by
  intro d
  induction hn : d.length using Nat.strongRecOn generalizing d with
  | _ n ih =>
    by_cases hd : '/' ∈ d
    · obtain ⟨a, b, rfl, ha⟩ := List.eq_append_cons_of_mem hd
      obtain ⟨l, hl⟩ := ih b.length (by rw [← hn]; simp; omega) b rfl
      refine ⟨a :: l, ?_⟩
      rw [List.append_assoc, List.cons_append, splitOn_append_sep ha, hl]
      rfl
    · exact ⟨[d], by rw [splitOn_append_sep hd, splitOn_not_mem h]; rfl⟩

theorem pathName_of {p dir name : Str} (h : FileIn p dir name) : pathName p = name := by
  have hf : ∀ l : List Str, (l ++ [name]).filter (fun c => c ≠ [] ∧ c ≠ ['.']) = l.filter (fun c => c ≠ [] ∧ c ≠ ['.']) ++ [name] := by
    intro l
    rw [List.filter_append]
    congr 1
    simp [h.nonempty, h.notDot]
  have : ∃ l, splitOn '/' p = l ++ [name] := by
    rw [h.eq]
    rcases h.dirEnd with e | ⟨d, e⟩
    · rw [e]; exact ⟨[], by rw [List.nil_append, splitOn_not_mem h.noSlash]; rfl⟩
    · rw [e, List.append_assoc]; exact splitOn_last h.noSlash d
  obtain ⟨l, hl⟩ := this
  unfold pathName
  rw [hl, hf]
  simp

theorem lastDot_none {n : Str} (h : '.' ∉ n) : lastDot n = none := by unfold lastDot; rw [if_neg h]

theorem withSuffix_of {p dir name base : Str} (h : FileIn p dir name) (hb : BaseOf name base) (suf : Str) :
    withSuffix p suf = .ok (dir ++ base ++ suf) := by
  unfold withSuffix
  rw [pathName_of h, if_neg h.nonempty]
  have key : p.take (p.length - (suffix p).length) = dir ++ base := by
    rcases hb with ⟨e, h1, h2, h3, h4⟩ | ⟨rfl, hno⟩
    · have : suffix p = '.' :: e := by
        unfold suffix
        rw [pathName_of h, h1, lastDot_append h4]
        simp only
        rw [if_pos ⟨h2, by simpa using h3⟩]
      rw [this, h.eq, h1, ← List.append_assoc]
      exact List.take_left' (by simp only [List.length_append]; omega)
    · have : suffix p = [] := by
        unfold suffix
        rw [pathName_of h]
        by_cases hd : '.' ∈ name
        · obtain ⟨b, e, h1, h2⟩ := exists_lastDot hd
          rw [h1, lastDot_append h2]
          simp only
          rw [if_neg]
          rintro ⟨g1, g2⟩
          exact hno ⟨b, e, h1, g1, by simpa using g2, h2⟩
        · rw [lastDot_none hd]
      rw [this, h.eq]
      exact List.take_of_length_le (by simp)
  rw [key]

/-! ## What a run does -/

/-- The text a run with this output format is to deliver for a document. -/
def _root_.Spec.Delivers (W : World) (s : St) : OutType → Str → Prop
  | .json, t => ∃ d s', docAsDict true s = .ok d s' ∧ t = W.dump .json d
  | .yaml, t => ∃ d s', docAsDict true s = .ok d s' ∧ t = W.dump .yaml d
  | .line, t => docText s = .ok t
  | .csv, t => docCsv s = .ok t
  | _, _ => False

theorem newMetatabFile_fails {D : Disk} {files : Files} {fuel : Nat} {env : Env} {dir f t : Str} {e : Err} {l : List FsStep}
    (h : newMetatabFile D files fuel env dir f t = (.error e, l)) : l = [] := by
  unfold newMetatabFile at h
  simp only at h
  split at h
  · cases h
  · split at h
    · cases h; rfl
    · next s hm =>
      rcases writeAs_cases (py!".csv") docCsv D (some (D.parse (templatePath dir (if t ≠ [] then t else py!"metatab")))) (some f) s with
        ⟨e', s', g⟩ | ⟨q, c, s', -, -, -, -, -, g⟩
      · unfold writeCsv at h; rw [g] at h; cases h; rfl
      · unfold writeCsv at h; rw [g] at h; cases h

theorem writeOrPrint_cases (W : World) (a : Args) (t : Str) :
    (writeOrPrint W a t).out = [] ∧ (writeOrPrint W a t).fs = [] ∧ (writeOrPrint W a t).exit ≠ .code 0 ∨
    a.write = false ∧ writeOrPrint W a t = { out := [printed t], exit := .code 0 } ∨
    ∃ p q, a.write = true ∧ (W.url a.file).fspath = some p ∧ withSuffix p ('.' :: a.outType.ext) = .ok q ∧
      writeOrPrint W a t = { fs := [.truncate q, .put q t], exit := .code 0 } := by
  unfold writeOrPrint
  split
  · exact .inl ⟨rfl, rfl, by simp⟩
  · split
    · next hw =>
      split
      · exact .inl ⟨rfl, rfl, by simp⟩
      · next p hp =>
        split
        · exact .inl ⟨rfl, rfl, by simp⟩
        · next q hq =>
          split
          · exact .inr (.inr ⟨p, q, hw, hp, hq, rfl⟩)
          · exact .inl ⟨rfl, rfl, by simp⟩
    · next hw => exact .inr (.inl ⟨by simpa using hw, rfl⟩)

/-- The ways a run without `-C` can end. -/
theorem runCli_cases (W : World) (a : Args) (hc : a.create = none) :
    (runCli W a).fs = [] ∧ ((runCli W a).exit ≠ .code 0 → a.outType ≠ .terms → (runCli W a).out = []) ∨
    ∃ s t, openDoc W a.named.file = .ok () s ∧ Delivers W s a.outType t ∧ runCli W a = writeOrPrint W a.named t := by
  have hn : a.named.create = none ∧ a.named.outType = a.outType := by
    unfold Args.named; split <;> exact ⟨hc, rfl⟩
  have made : ∀ o s (r : Except Err Str), (∀ t, r = .ok t → Delivers W s o t) →
      ((writeMade W a.named r).fs = [] ∧ ((writeMade W a.named r).exit ≠ .code 0 → (writeMade W a.named r).out = [])) ∨
      ∃ t, Delivers W s o t ∧ writeMade W a.named r = writeOrPrint W a.named t := by
    intro o s r hr
    cases r with
    | error e => exact .inl ⟨rfl, fun _ => rfl⟩
    | ok t => exact .inr ⟨t, hr t rfl, rfl⟩
  have dumped : ∀ o s t, dumpDoc W o s = .ok t → ∃ d s', docAsDict true s = .ok d s' ∧ t = W.dump o d := by
    intro o s t h
    unfold dumpDoc at h
    split at h
    · next d s' hd => cases h; exact ⟨d, s', hd, rfl⟩
    · cases h
  unfold runCli
  rw [hn.1]
  simp only
  split
  · exact .inl ⟨rfl, fun _ _ => rfl⟩
  · exact .inl ⟨rfl, fun _ _ => rfl⟩
  · next s ho =>
    suffices h : ((showDoc W a.named s).fs = [] ∧ ((showDoc W a.named s).exit ≠ .code 0 → a.outType ≠ .terms → (showDoc W a.named s).out = [])) ∨
        ∃ t, Delivers W s a.outType t ∧ showDoc W a.named s = writeOrPrint W a.named t by
      rcases h with h | ⟨t, h1, h2⟩
      · exact .inl h
      · exact .inr ⟨s, t, ho, h1, h2⟩
    unfold showDoc
    split
    · left
      unfold showDeclaration
      split
      · exact ⟨rfl, fun _ _ => rfl⟩
      · split <;> exact ⟨rfl, fun h => (h rfl).elim⟩
    · split
      · left
        unfold showFirst
        split
        · exact ⟨rfl, fun _ _ => rfl⟩
        · exact ⟨rfl, fun _ _ => rfl⟩
        · split
          · exact ⟨rfl, fun h => (h rfl).elim⟩
          · exact ⟨rfl, fun _ _ => rfl⟩
      · rw [hn.2]
        cases hout : a.outType with
        | terms => exact .inl ⟨by simp only [showTerms]; split <;> rfl, fun _ h => (h rfl).elim⟩
        | json => exact (made .json s _ fun t ht => dumped _ _ _ ht).imp (fun h => ⟨h.1, fun h1 _ => h.2 h1⟩) id
        | yaml => exact (made .yaml s _ fun t ht => dumped _ _ _ ht).imp (fun h => ⟨h.1, fun h1 _ => h.2 h1⟩) id
        | line => exact (made .line s _ fun t ht => ht).imp (fun h => ⟨h.1, fun h1 _ => h.2 h1⟩) id
        | csv => exact (made .csv s _ fun t ht => ht).imp (fun h => ⟨h.1, fun h1 _ => h.2 h1⟩) id
        | prety =>
          left
          dsimp only
          split
          · exact ⟨rfl, fun h => (h rfl).elim⟩
          · exact ⟨rfl, fun _ _ => rfl⟩

theorem named_fields (a : Args) : a.named.write = a.write ∧ a.named.create = a.create ∧ a.named.outType = a.outType ∧
    a.named.showDecl = a.showDecl ∧ a.named.findFirst = a.findFirst := by
  unfold Args.named; split <;> exact ⟨rfl, rfl, rfl, rfl, rfl⟩

/-- **C72** (fragments). A fragment alone means that part of the default file; any other name is used as it is given. -/
theorem C72_fragment (W : World) (a : Args) : (∀ f, runCli W { a with file := '#' :: f } = runCli W { a with file := py!"metadata.csv" ++ '#' :: f }) ∧
    (a.file.head? ≠ some '#' → a.named.file = a.file) := by
  refine ⟨fun f => ?_, fun h => by unfold Args.named; rw [if_neg h]⟩
  have e1 : ({ a with file := '#' :: f } : Args).named = { a with file := py!"metadata.csv" ++ '#' :: f } := by
    unfold Args.named; exact if_pos rfl
  have e2 : ({ a with file := py!"metadata.csv" ++ '#' :: f } : Args).named = { a with file := py!"metadata.csv" ++ '#' :: f } := by
    unfold Args.named; exact if_neg (show some 'm' ≠ some '#' by decide)
  unfold runCli
  rw [e1, e2]

/-- **C72** (failure). A run that does not end with exit code 0 has touched no file, and unless it was asked for terms with `-t` it has
printed nothing.

Missing for the full claim: `-t`, see the witness. -/
theorem C72_fails_partial (W : World) (a : Args) (h : (runCli W a).exit ≠ .code 0) :
    (runCli W a).fs = [] ∧ (a.outType ≠ .terms → (runCli W a).out = []) := by
  cases hc : a.create with
  | none =>
    rcases runCli_cases W a hc with ⟨h1, h2⟩ | ⟨s, t, -, -, h3⟩
    · exact ⟨h1, h2 h⟩
    · rw [h3] at h ⊢
      rcases writeOrPrint_cases W a.named t with ⟨g1, g2, -⟩ | ⟨-, g⟩ | ⟨p, q, -, -, -, g⟩
      · exact ⟨g2, fun _ => g1⟩
      · rw [g] at h; exact (h rfl).elim
      · rw [g] at h; exact (h rfl).elim
  | some tm =>
    unfold runCli at h ⊢
    rw [(named_fields a).2.1, hc] at h ⊢
    simp only at h ⊢
    unfold createFile at h ⊢
    split at h
    · exact (h rfl).elim
    · exact (h rfl).elim
    · next e l hm => exact ⟨newMetatabFile_fails hm, fun _ => rfl⟩

/-- **C72** (reading). Without `-C` and `-W` no run touches any file. -/
theorem C72_readonly (W : World) (a : Args) (hc : a.create = none) (hw : a.write = false) : (runCli W a).fs = [] := by
  rcases runCli_cases W a hc with ⟨h1, -⟩ | ⟨s, t, -, -, h3⟩
  · exact h1
  · rw [h3]
    rcases writeOrPrint_cases W a.named t with ⟨-, g2, -⟩ | ⟨-, g⟩ | ⟨p, q, g, -⟩
    · exact g2
    · rw [g]
    · rw [(named_fields a).1, hw] at g; cases g

/-- **C72** (`-W`). Without `-C` a run touches no file but the one with the base name of the input and the extension of the format; at
every moment that file is as before, empty, or holds the text asked for, and then nothing is printed. -/
theorem C72_in_place (W : World) (a : Args) (hc : a.create = none) {p dir name base : Str}
    (hu : (W.url a.named.file).fspath = some p) (hp : FileIn p dir name) (hb : BaseOf name base) {l : List FsStep} (hl : l <+: (runCli W a).fs) :
    (∀ q, q ≠ dir ++ base ++ '.' :: a.outType.ext → applySteps W.D.files l q = W.D.files q) ∧
    (l = [] ∨ (runCli W a).out = [] ∧ ∃ s t, openDoc W a.named.file = .ok () s ∧ Delivers W s a.outType t ∧
      applySteps W.D.files l (dir ++ base ++ '.' :: a.outType.ext) ∈ [some [], some t] ∧
      applySteps W.D.files (runCli W a).fs (dir ++ base ++ '.' :: a.outType.ext) = some t) := by
  rcases runCli_cases W a hc with ⟨h1, -⟩ | ⟨s, t, ho, hd, h3⟩
  · rw [h1] at hl
    rw [List.prefix_nil.1 hl]
    exact ⟨fun _ _ => rfl, .inl rfl⟩
  · rw [h3] at hl ⊢
    rcases writeOrPrint_cases W a.named t with ⟨-, g2, -⟩ | ⟨-, g⟩ | ⟨p', q', g1, g2, g3, g⟩
    · rw [g2] at hl; rw [List.prefix_nil.1 hl]; exact ⟨fun _ _ => rfl, .inl rfl⟩
    · rw [g] at hl; rw [List.prefix_nil.1 hl]; exact ⟨fun _ _ => rfl, .inl rfl⟩
    · rw [hu] at g2
      cases g2
      rw [(named_fields a).2.2.1, withSuffix_of hp hb] at g3
      cases g3
      rw [g] at hl ⊢
      obtain ⟨rest, hl⟩ := hl
      rcases l with _ | ⟨x, _ | ⟨y, _ | ⟨z, l⟩⟩⟩
      · exact ⟨fun _ _ => rfl, .inl rfl⟩
      · simp only [List.cons_append, List.nil_append, List.cons.injEq] at hl
        obtain ⟨rfl, -⟩ := hl
        refine ⟨fun q hq => ?_, .inr ⟨rfl, s, t, ho, hd, ?_, ?_⟩⟩ <;> simp_all [applySteps, FsStep.apply]
      · simp only [List.cons_append, List.nil_append, List.cons.injEq] at hl
        obtain ⟨rfl, rfl, -⟩ := hl
        refine ⟨fun q hq => ?_, .inr ⟨rfl, s, t, ho, hd, ?_, ?_⟩⟩ <;> simp_all [applySteps, FsStep.apply]
      · simp at hl

theorem runCli_delivers {W : World} {a : Args} (hc : a.create = none) (hd : a.showDecl = false) (hf : a.findFirst = [])
    {s : St} {t : Str} (ho : openDoc W a.named.file = .ok () s) (ht : Delivers W s a.outType t) :
    runCli W a = writeOrPrint W a.named t := by
  obtain ⟨-, n2, n3, n4, n5⟩ := named_fields a
  unfold runCli
  rw [n2, hc, ho]
  simp only
  unfold showDoc
  rw [n4, hd, n5, hf, n3]
  simp only [Bool.false_eq_true, if_false, ne_eq, not_true_eq_false]
  have dumped : ∀ o d s', docAsDict true s = .ok d s' → dumpDoc W o s = .ok (W.dump o d) := by
    intro o d s' h; unfold dumpDoc; rw [h]
  cases hout : a.outType with
  | terms => rw [hout] at ht; exact ht.elim
  | prety => rw [hout] at ht; exact ht.elim
  | json => rw [hout] at ht; obtain ⟨d, s', h1, rfl⟩ := ht; simp only; rw [dumped _ _ _ h1]; rfl
  | yaml => rw [hout] at ht; obtain ⟨d, s', h1, rfl⟩ := ht; simp only; rw [dumped _ _ _ h1]; rfl
  | line => rw [hout] at ht; simp only; rw [show docText s = .ok t from ht]; rfl
  | csv => rw [hout] at ht; simp only; rw [show docCsv s = .ok t from ht]; rfl

/-- **C72** (output). For a local file that can be read, the text asked for is printed, and nothing else; with `-W` it is put into the file
with the base name of the input and the extension of the format, no other file changes, and nothing is printed. The exit code is 0.

Missing for the full claim: files that are not local, see the witness. -/
theorem C72_delivers_partial (W : World) (a : Args) (hc : a.create = none) (hd : a.showDecl = false) (hf : a.findFirst = [])
    {s : St} {t : Str} (ho : openDoc W a.named.file = .ok () s) (ht : Delivers W s a.outType t) (hl : (W.url a.named.file).isFile = true) :
    (a.write = false → runCli W a = { out := [printed t], fs := [], exit := .code 0 }) ∧
    (a.write = true → ∀ {p dir name base : Str}, (W.url a.named.file).fspath = some p → FileIn p dir name → BaseOf name base →
      W.D.canOpen (dir ++ base ++ '.' :: a.outType.ext) = true →
      (runCli W a).exit = .code 0 ∧ (runCli W a).out = [] ∧
        ∀ q, applySteps W.D.files (runCli W a).fs q = if q = dir ++ base ++ '.' :: a.outType.ext then some t else W.D.files q) := by
  obtain ⟨n1, n2, n3, -⟩ := named_fields a
  rw [runCli_delivers hc hd hf ho ht]
  unfold writeOrPrint
  rw [hl, n1, n3]
  constructor
  · intro hw
    rw [hw]
    simp
  · intro hw p dir name base hu hp hb hop
    rw [hw, hu]
    simp only [Bool.not_true, Bool.false_eq_true, if_false, if_true]
    rw [withSuffix_of hp hb]
    simp only
    rw [hop]
    refine ⟨rfl, rfl, fun q => ?_⟩
    simp only [if_true, applySteps, List.foldl_cons, List.foldl_nil, FsStep.apply]
    by_cases e : q = dir ++ base ++ '.' :: a.outType.ext
    · rw [if_pos e, if_pos e]
    · rw [if_neg e, if_neg e, if_neg e]

/-- **C72** (success). A run without `-C`, `-d` and `-f` that is to print or write a text and ends with exit code 0 has read the document and
has printed the text asked for, or with `-W` written it: no error is passed over in silence. With `-f`, exit code 0 means that the value of
the first term of that name has been printed. -/
theorem C72_success (W : World) (a : Args) (hc : a.create = none) (hd : a.showDecl = false) (h : (runCli W a).exit = .code 0) :
    ∃ s, openDoc W a.named.file = .ok () s ∧
      (a.findFirst ≠ [] → ∃ i v, findFirst s a.findFirst = .ok (some i) ∧ (s.heap i).value.toStr = some v ∧
        (runCli W a).out = [printed v] ∧ (runCli W a).fs = []) ∧
      (a.findFirst = [] → a.outType ≠ .terms → a.outType ≠ .prety → ∃ t, Delivers W s a.outType t ∧
        (a.write = false → (runCli W a).out = [printed t] ∧ (runCli W a).fs = []) ∧
        (a.write = true → (runCli W a).out = [] ∧ ∃ p q, (W.url a.named.file).fspath = some p ∧
          withSuffix p ('.' :: a.outType.ext) = .ok q ∧ (runCli W a).fs = [.truncate q, .put q t])) := by
  obtain ⟨n1, n2, n3, n4, n5⟩ := named_fields a
  have hrun : ∀ s, openDoc W a.named.file = .ok () s → runCli W a = showDoc W a.named s := by
    intro s ho; unfold runCli; rw [n2, hc, ho]
  cases ho : openDoc W a.named.file with
  | err e s =>
    unfold runCli at h
    rw [n2, hc, ho] at h
    cases e <;> cases h
  | ok u s =>
    rw [hrun s ho] at h ⊢
    refine ⟨s, rfl, fun hf => ?_, fun hf h1 h2 => ?_⟩
    · unfold showDoc at h ⊢
      rw [n4, hd, n5] at h ⊢
      simp only [Bool.false_eq_true, if_false, if_pos hf] at h ⊢
      unfold showFirst at h ⊢
      cases hr : findFirst s a.findFirst with
      | error e => rw [hr] at h; cases h
      | ok o =>
        cases o with
        | none => rw [hr] at h; cases h
        | some i =>
          rw [hr] at h
          dsimp only at h ⊢
          cases hv : (s.heap i).value.toStr with
          | none => rw [hv] at h; cases h
          | some v => exact ⟨i, v, rfl, hv, rfl, rfl⟩
    · have made : ∀ (r : Except Err Str), (∀ t, r = .ok t → Delivers W s a.outType t) → showDoc W a.named s = writeMade W a.named r →
          ∃ t, Delivers W s a.outType t ∧ (a.write = false → (showDoc W a.named s).out = [printed t] ∧ (showDoc W a.named s).fs = []) ∧
            (a.write = true → (showDoc W a.named s).out = [] ∧ ∃ p q, (W.url a.named.file).fspath = some p ∧
              withSuffix p ('.' :: a.outType.ext) = .ok q ∧ (showDoc W a.named s).fs = [.truncate q, .put q t]) := by
        intro r hr e
        rw [e] at h ⊢
        cases r with
        | error e => cases h
        | ok t =>
          refine ⟨t, hr t rfl, ?_⟩
          show (_ → (writeOrPrint W a.named t).out = _ ∧ (writeOrPrint W a.named t).fs = _) ∧
            (_ → (writeOrPrint W a.named t).out = _ ∧ ∃ p q, _ ∧ _ ∧ (writeOrPrint W a.named t).fs = _)
          have h : (writeOrPrint W a.named t).exit = .code 0 := h
          rcases writeOrPrint_cases W a.named t with ⟨-, -, g⟩ | ⟨g1, g⟩ | ⟨p, q, g1, g2, g3, g⟩
          · exact absurd h g
          · rw [n1] at g1
            refine ⟨fun _ => by rw [g]; exact ⟨rfl, rfl⟩, fun hw => ?_⟩
            rw [g1] at hw; cases hw
          · rw [n1] at g1
            refine ⟨fun hw => ?_, fun _ => ?_⟩
            · rw [g1] at hw; cases hw
            · rw [n3] at g3
              exact ⟨by rw [g], p, q, g2, g3, by rw [g]⟩
      have dumped : ∀ o t, dumpDoc W o s = .ok t → ∃ d s', docAsDict true s = .ok d s' ∧ t = W.dump o d := by
        intro o t h
        unfold dumpDoc at h
        split at h
        · next d s' hd => cases h; exact ⟨d, s', hd, rfl⟩
        · cases h
      have hs : showDoc W a.named s = match a.outType with
          | .terms => showTerms W a.named.file s
          | .json => writeMade W a.named (dumpDoc W .json s)
          | .yaml => writeMade W a.named (dumpDoc W .yaml s)
          | .line => writeMade W a.named (docText s)
          | .csv => writeMade W a.named (docCsv s)
          | .prety =>
            match dumpDoc W .prety s with
            | .ok t => { out := [t], exit := .code 0 }
            | .error e => { exit := .raised e } := by
        unfold showDoc
        rw [n4, hd, n5, hf, n3]
        simp only [Bool.false_eq_true, if_false, ne_eq, not_true_eq_false]
        cases a.outType <;> rfl
      cases hout : a.outType with
      | terms => exact absurd hout h1
      | prety => exact absurd hout h2
      | json => rw [hout] at hs made; exact made _ (fun t ht => dumped _ _ ht) hs
      | yaml => rw [hout] at hs made; exact made _ (fun t ht => dumped _ _ ht) hs
      | line => rw [hout] at hs made; exact made _ (fun t ht => ht) hs
      | csv => rw [hout] at hs made; exact made _ (fun t ht => ht) hs

/-- **C72** (`-C`). An existing file is left alone, as are all others; otherwise, for a plain path, the file holds the text of the document
read from the template and no other file changes, or nothing changes and the exception is not caught. -/
theorem C72_create (W : World) (a : Args) {tm : Str} (hc : a.create = some tm) :
    (W.D.files a.named.file ≠ none → runCli W a = { out := [], fs := [], exit := .code 0 }) ∧
    (W.D.files a.named.file = none → Plain W.D a.named.file →
      (∃ e, runCli W a = { out := [], fs := [], exit := .raised e }) ∨
      ∃ s content, ReadsTemplate W.D W.files W.fuel W.env (W.templates ++ py!"/" ++ (if tm = [] then py!"metatab" else tm) ++ py!".csv") s ∧
        docCsv s = .ok content ∧ (runCli W a).exit = .code 0 ∧ (runCli W a).out ≠ [] ∧
        ∀ q, applySteps W.D.files (runCli W a).fs q = if q = a.named.file then some content else W.D.files q) := by
  have e : runCli W a = createFile W a.named.file tm := by
    unfold runCli; rw [(named_fields a).2.1, hc]
  rw [e]
  unfold createFile
  constructor
  · intro h
    rw [C55_exists h]
  · intro h hp
    rcases C55_new_partial (files := W.files) (fuel := W.fuel) (env := W.env) (dir := W.templates) (template := tm) h hp with
      ⟨er, g⟩ | ⟨l, s, content, g1, g2, g3, -, g5⟩
    · rw [g]; exact .inl ⟨er, rfl⟩
    · rw [g1]; exact .inr ⟨s, content, g2, g3, rfl, by simp, g5⟩

/-- **C72** (`-f`). With a name that no term has, the program ends in an exception; with one, the value of the first is printed. -/
theorem C72_find (W : World) (a : Args) (hc : a.create = none) (hd : a.showDecl = false) (hf : a.findFirst ≠ []) {s : St}
    (ho : openDoc W a.named.file = .ok () s) {l : List Nat} (hl : find s a.findFirst = .ok l) :
    (l = [] → runCli W a = { exit := .raised .attributeError }) ∧
    ∀ t ts v, l = t :: ts → (s.heap t).value = .str v → runCli W a = { out := [v ++ py!"\n"], exit := .code 0 } := by
  obtain ⟨-, n2, -, n4, n5⟩ := named_fields a
  have e : runCli W a = showFirst a.findFirst s := by
    unfold runCli
    rw [n2, hc, ho]
    simp only
    unfold showDoc
    rw [n4, hd, n5, if_neg (by decide), if_pos hf]
  rw [e]
  unfold showFirst findFirst
  rw [hl]
  constructor
  · rintro rfl; rfl
  · rintro t ts v rfl hv
    show (match (s.heap t).value.toStr with | some v => _ | none => _) = _
    rw [hv]
    rfl

/-! ## Repeated runs -/

/-- The world after a run. -/
def World.after (W : World) (o : Outcome) : World := { W with D := { W.D with files := applySteps W.D.files o.fs } }

theorem openDoc_csv {W : World} {file p text : Str} (h1 : (W.url file).isFile = true) (h2 : (W.url file).fspath = some p)
    (h3 : suffix p = py!".csv") (h4 : W.D.files p = some text) :
    openDoc W file = parseRows W.files W.fuel p (readCsv text) (newDoc W.env W.classes) := by
  unfold openDoc; rw [h1, h2]; simp only; rw [if_pos h3, h4]

theorem openDoc_txt {W : World} {file p text : Str} (h1 : (W.url file).isFile = true) (h2 : (W.url file).fspath = some p)
    (h3 : suffix p = py!".txt") (h4 : W.D.files p = some text) :
    openDoc W file = parseRows W.files W.fuel p (textRows text) (newDoc W.env W.classes) := by
  unfold openDoc; rw [h1, h2]; simp only; rw [if_neg (by rw [h3]; decide), if_pos h3, h4]

theorem parsed_reach {env : Env} {classes : Dict Cls} {files : Files} {fuel : Nat} {path : Str} {rows : List (List Str)} {s : St}
    (h : parseRows files fuel path rows (newDoc env classes) = .ok () s) : Reach Op.noAddChild s := by
  have hr : Reach Op.noAddChild (after (parseRows files fuel path rows) (newDoc env classes)) :=
    Reach.step (.parse files fuel path rows) (.new env _) trivial trivial
  unfold after at hr
  rwa [h] at hr

/-- A file that the command can read as CSV and rewrite. -/
structure _root_.Spec.CsvFile (W : World) (a : Args) (dir base : Str) : Prop where
  isFile : (W.url a.named.file).isFile = true
  fspath : (W.url a.named.file).fspath = some (dir ++ base ++ py!".csv")
  dirEnd : dir = [] ∨ ∃ d, dir = d ++ py!"/"
  noSlash : '/' ∉ base
  nonempty : base ≠ []
  canOpen : W.D.canOpen (dir ++ base ++ py!".csv") = true

theorem fileIn_ext {dir base ext : Str} (h1 : dir = [] ∨ ∃ d, dir = d ++ py!"/") (h2 : '/' ∉ base) (h3 : base ≠ []) (h4 : '/' ∉ ext)
    (h5 : ext ≠ []) (h6 : '.' ∉ ext) : FileIn (dir ++ base ++ '.' :: ext) dir (base ++ '.' :: ext) ∧ BaseOf (base ++ '.' :: ext) base := by
  refine ⟨⟨by rw [List.append_assoc], h1, by simp [h2, h4], by simp, ?_⟩, .inl ⟨ext, rfl, h3, h5, h6⟩⟩
  intro h
  have := congrArg List.length h
  have := List.length_pos_of_ne_nil h3
  simp only [List.length_append, List.length_cons, List.length_nil] at *
  omega

theorem suffix_ext {dir base ext : Str} (h1 : dir = [] ∨ ∃ d, dir = d ++ py!"/") (h2 : '/' ∉ base) (h3 : base ≠ []) (h4 : '/' ∉ ext)
    (h5 : ext ≠ []) (h6 : '.' ∉ ext) : suffix (dir ++ base ++ '.' :: ext) = '.' :: ext :=
  (suffix_iff h6 h5).2 (endsIn_iff.2 ⟨base, h3, pathName_of (fileIn_ext h1 h2 h3 h4 h5 h6).1⟩)

/-- **C72** (missing file). When a local CSV or line file does not exist, the program ends with 1, having printed and touched nothing. -/
theorem C72_missing (W : World) (a : Args) (hc : a.create = none) {dir base ext : Str} (hl : (W.url a.named.file).isFile = true)
    (hp : (W.url a.named.file).fspath = some (dir ++ base ++ '.' :: ext)) (hd : dir = [] ∨ ∃ d, dir = d ++ py!"/") (hb : '/' ∉ base) (hn : base ≠ [])
    (he : ext = py!"csv" ∨ ext = py!"txt") (hf : W.D.files (dir ++ base ++ '.' :: ext) = none) :
    runCli W a = { out := [], fs := [], exit := .code 1 } := by
  have h5 : suffix (dir ++ base ++ '.' :: ext) = '.' :: ext := by
    rcases he with rfl | rfl
    · exact suffix_ext hd hb hn (by decide) (by decide) (by decide)
    · exact suffix_ext hd hb hn (by decide) (by decide) (by decide)
  unfold runCli
  rw [(named_fields a).2.1, hc]
  unfold openDoc
  simp only [hl, hp, h5, hf]
  rcases he with rfl | rfl
  · rw [if_pos rfl]
  · rw [if_neg (by decide), if_pos rfl]

/-- **C72** (unreadable file). Any other failure to open the document is not caught. -/
theorem C72_unreadable (W : World) (a : Args) (hc : a.create = none) {e : Err} {s : St} (ho : openDoc W a.named.file = .err e s) (he : e ≠ .osError) :
    runCli W a = { out := [], fs := [], exit := .raised e } := by
  unfold runCli
  rw [(named_fields a).2.1, hc, ho]
  cases e <;> first | exact absurd rfl he | rfl

/-- **C72** (idempotence). `metatab -W -c` on a `.csv` file rewrites it; a second run succeeds and changes nothing.

Missing for the full claim: documents whose outline is not `writable` (C50). -/
theorem C72_idempotent_partial {W : World} {a : Args} {dir base : Str} (ha : CsvFile W a dir base) (hc : a.create = none) (hd : a.showDecl = false)
    (hf : a.findFirst = []) (ht : a.outType = .csv) (hw : a.write = true) (hfu : 0 < W.fuel) (hcl : PlainClasses W.classes)
    {s : St} (ho : openDoc W a.named.file = .ok () s) (hfile : (W.D.files (dir ++ base ++ py!".csv")).isSome) {O : List Part} (hO : Shows s O)
    (hwr : writable O = true) (hv : NamedValues s O) :
    (runCli W a).exit = .code 0 ∧
    let W' := W.after (runCli W a)
    (runCli W' a).exit = .code 0 ∧ (W'.after (runCli W' a)).D.files = W'.D.files := by
  obtain ⟨text0, h0⟩ := Option.isSome_iff_exists.1 hfile
  obtain ⟨fuel, hfu⟩ : ∃ n, W.fuel = n + 1 := ⟨W.fuel - 1, by omega⟩
  have hsuf : suffix (dir ++ base ++ py!".csv") = py!".csv" :=
    suffix_ext ha.dirEnd ha.noSlash ha.nonempty (ext := py!"csv") (by decide) (by decide) (by decide)
  obtain ⟨hp, hb⟩ := fileIn_ext ha.dirEnd ha.noSlash ha.nonempty (ext := py!"csv") (by decide) (by decide) (by decide)
  have hop := openDoc_csv ha.isFile ha.fspath hsuf h0
  rw [ho] at hop
  have hr := parsed_reach hop.symm
  obtain ⟨text, s', g1, g2, g3⟩ := C50_stable_partial hr hO hwr hv hcl W.files fuel (dir ++ base ++ py!".csv") (env := W.env)
  have hext : '.' :: a.outType.ext = py!".csv" := by rw [ht]; rfl
  have r1 := (C72_delivers_partial W a hc hd hf ho (t := text) (by rw [ht]; exact g1) ha.isFile).2 hw ha.fspath hp hb
    (by rw [hext]; exact ha.canOpen)
  refine ⟨r1.1, ?_⟩
  intro W'
  have hfs : W'.D.files = fun q => if q = dir ++ base ++ '.' :: a.outType.ext then some text else W.D.files q := funext r1.2.2
  have hW' : W'.D.files (dir ++ base ++ py!".csv") = some text := by rw [hfs, hext]; simp
  have ho' : openDoc W' a.named.file = .ok () s' := by
    rw [openDoc_csv (W := W') ha.isFile ha.fspath hsuf hW', ← g2, ← hfu]; rfl
  have r2 := (C72_delivers_partial W' a hc hd hf ho' (t := text) (by rw [ht]; exact g3) ha.isFile).2 hw ha.fspath hp hb
    (by rw [hext]; exact ha.canOpen)
  refine ⟨r2.1, ?_⟩
  show applySteps W'.D.files (runCli W' a).fs = _
  funext q
  rw [r2.2.2 q]
  by_cases e : q = dir ++ base ++ '.' :: a.outType.ext
  · rw [if_pos e, hfs]; simp [e]
  · rw [if_neg e]

/-- Options that ask for a format, in place. -/
structure _root_.Spec.InPlace (a : Args) (o : OutType) : Prop where
  create : a.create = none
  showDecl : a.showDecl = false
  findFirst : a.findFirst = []
  outType : a.outType = o
  write : a.write = true

/-- **C72** (conversion). `metatab -W -l x.csv` makes `x.txt` and leaves `x.csv` alone; then `metatab -W -c x.txt` makes `x.csv` what
`metatab -W -c x.csv` would have made it, and leaves `x.txt` alone.

Missing for the full claim: documents whose outline is not `lineWritable` (C63). -/
theorem C72_convert_partial {W : World} {a b c : Args} {dir base : Str} (ha : CsvFile W a dir base) (hap : InPlace a .line) (hbp : InPlace b .csv)
    (hcp : InPlace c .csv) (hca : c.file = a.file) (hb1 : (W.url b.named.file).isFile = true)
    (hb2 : (W.url b.named.file).fspath = some (dir ++ base ++ py!".txt")) (hopen : W.D.canOpen (dir ++ base ++ py!".txt") = true)
    (hfu : 0 < W.fuel) (hcl : PlainClasses W.classes)
    {s : St} (ho : openDoc W a.named.file = .ok () s) (hfile : (W.D.files (dir ++ base ++ py!".csv")).isSome) {O : List Part} (hO : Shows s O)
    (hlw : lineWritable O = true) (hv : NamedValues s O) :
    let W' := W.after (runCli W a)
    let W'' := W'.after (runCli W' b)
    (runCli W a).exit = .code 0 ∧ (runCli W' b).exit = .code 0 ∧
    (∀ q, q ≠ dir ++ base ++ py!".txt" → W'.D.files q = W.D.files q) ∧
    (∀ q, q ≠ dir ++ base ++ py!".csv" → W''.D.files q = W'.D.files q) ∧
    W''.D.files (dir ++ base ++ py!".csv") = (W.after (runCli W c)).D.files (dir ++ base ++ py!".csv") ∧
    (∃ text, docText s = .ok text ∧ W''.D.files (dir ++ base ++ py!".txt") = some text) := by
  have hwr : writable O = true := by unfold lineWritable at hlw; exact (Bool.and_eq_true _ _ ▸ hlw).1
  obtain ⟨text0, h0⟩ := Option.isSome_iff_exists.1 hfile
  obtain ⟨fuel, hfu⟩ : ∃ n, W.fuel = n + 1 := ⟨W.fuel - 1, by omega⟩
  have hsuf : suffix (dir ++ base ++ py!".csv") = py!".csv" :=
    suffix_ext ha.dirEnd ha.noSlash ha.nonempty (ext := py!"csv") (by decide) (by decide) (by decide)
  have hsuf2 : suffix (dir ++ base ++ py!".txt") = py!".txt" :=
    suffix_ext ha.dirEnd ha.noSlash ha.nonempty (ext := py!"txt") (by decide) (by decide) (by decide)
  obtain ⟨hp, hb⟩ := fileIn_ext ha.dirEnd ha.noSlash ha.nonempty (ext := py!"csv") (by decide) (by decide) (by decide)
  obtain ⟨hp2, hbb⟩ := fileIn_ext ha.dirEnd ha.noSlash ha.nonempty (ext := py!"txt") (by decide) (by decide) (by decide)
  have hne : dir ++ base ++ py!".csv" ≠ dir ++ base ++ py!".txt" := by
    intro h; exact absurd (List.append_cancel_left h) (by decide)
  have hop := openDoc_csv ha.isFile ha.fspath hsuf h0
  rw [ho] at hop
  have hr := parsed_reach hop.symm
  have w : WF True s := hr.wf fun _ op ha => ha
  obtain ⟨s1, g1, g2, g3, g4⟩ := lines_roundtrip w hO hlw hv hcl W.files fuel (dir ++ base ++ py!".txt") (env := W.env)
  obtain ⟨text, htext⟩ : ∃ text, text = join (py!"\n") (O.flatMap partTexts) := ⟨_, rfl⟩
  rw [← htext] at g1 g2
  have hr1 := parsed_reach g2
  have hcsv : ∀ {s : St} (w : WF True s) {D : List Part}, Shows s D → writable D = true → NamedValues s D → docCsv s = .ok (asCsv (D.flatMap partRows)) := by
    intro s w D hD hw hv
    obtain ⟨rows, _, e1, e2, -⟩ := roundtrip w hD hw hv hcl W.files 0 [] (env := W.env)
    unfold docCsv
    rw [e1]
    show (cellRows rows >>= _) = _
    rw [e2]
    rfl
  have c1 := hcsv w hO hwr hv
  have c2 := hcsv (hr1.wf fun _ op ha => ha) g3 (writable_norm hwr) (g4.named fun d hd => (writable_part (writable_norm hwr) d hd).2)
  rw [rows_norm hwr] at c2
  have ea : '.' :: a.outType.ext = py!".txt" := by rw [hap.outType]; rfl
  have eb : '.' :: b.outType.ext = py!".csv" := by rw [hbp.outType]; rfl
  have ec : '.' :: c.outType.ext = py!".csv" := by rw [hcp.outType]; rfl
  have hcn : c.named.file = a.named.file := by unfold Args.named; rw [hca]; split <;> simp [hca]
  have r1 := (C72_delivers_partial W a hap.create hap.showDecl hap.findFirst ho (t := text) (by rw [hap.outType]; exact g1) ha.isFile).2 hap.write
    ha.fspath hp hb (by rw [ea]; exact hopen)
  rw [ea] at r1
  have r3 := (C72_delivers_partial W c hcp.create hcp.showDecl hcp.findFirst (by rw [hcn]; exact ho) (by rw [hcp.outType]; exact c1)
    (by rw [hcn]; exact ha.isFile)).2 hcp.write (by rw [hcn]; exact ha.fspath) hp hb (by rw [ec]; exact ha.canOpen)
  rw [ec] at r3
  intro W' W''
  have hW' : ∀ q, W'.D.files q = if q = dir ++ base ++ py!".txt" then some text else W.D.files q := r1.2.2
  have ho' : openDoc W' b.named.file = .ok () s1 := by
    rw [openDoc_txt (W := W') hb1 hb2 hsuf2 (by rw [hW', if_pos rfl]), ← g2, ← hfu]; rfl
  have r2 := (C72_delivers_partial W' b hbp.create hbp.showDecl hbp.findFirst ho' (by rw [hbp.outType]; exact c2) hb1).2 hbp.write
    hb2 hp2 hbb (by rw [eb]; exact ha.canOpen)
  rw [eb] at r2
  have hW'' : ∀ q, W''.D.files q = if q = dir ++ base ++ py!".csv" then some (asCsv (O.flatMap partRows)) else W'.D.files q := r2.2.2
  refine ⟨r1.1, r2.1, fun q hq => by rw [hW', if_neg hq], fun q hq => by rw [hW'', if_neg hq], ?_, text, g1, ?_⟩
  · rw [hW'', if_pos rfl]
    exact (by rw [r3.2.2 _, if_pos rfl] : applySteps W.D.files (runCli W c).fs (dir ++ base ++ py!".csv") = _).symm
  · rw [hW'', if_neg hne.symm, hW', if_pos rfl]

/-! ## Concrete runs -/

/-- One local file; URLs are what contains a colon. -/
def cliWorld (text : Str) : World where
  D := { parse := fun p => ⟨true, some p⟩, files := fun p => if p = py!"/d/m.csv" then some text else none, canOpen := fun _ => true }
  url := fun f => if ':' ∈ f then ⟨false, none⟩ else ⟨true, some f⟩
  urlPath := id
  env := exEnv
  classes := initClasses
  files := noFiles
  cls := fun _ => py!"CsvSource"
  fuel := 3
  templates := py!"/t"
  other := fun _ => parseRows noFiles 3 [] [[py!"Title", py!"far"]] (newDoc exEnv)
  dump := fun _ _ => []
  dumpDecl := fun _ _ => py!"{}"
  otherTerms := fun s => ([], .ok () s)

/-- A document in the text it would write itself, but for a space. -/
def cliText : Str := py!"Title , T\r\n\"\"\r\nSection,Schema,DataType\r\nTable,t,\r\nTable.Column,c,int\r\n"

def cliOut : Str := py!"Title,T\r\n\"\"\r\nSection,Schema,DataType\r\nTable,t,\r\nTable.Column,c,int\r\n"

def cliLines : Str := py!"Title: T\n\nSection: Schema|DataType\nTable: t\nTable.Column: c\n    .Datatype: int"

def cliOutline : List Part :=
  [⟨py!"Root", [], [.mk (py!"title") (some (py!"T")) []]⟩,
   ⟨py!"Schema", [py!"DataType"], [.mk (py!"table") (some (py!"t")) [.mk (py!"column") (some (py!"c")) [.mk (py!"datatype") (some (py!"int")) []]]]⟩]

/-- Printing, writing in place, writing lines. -/
example : runCli (cliWorld cliText) { file := py!"/d/m.csv" } = { out := [cliOut ++ py!"\n"], exit := .code 0 } ∧
    runCli (cliWorld cliText) { file := py!"/d/m.csv", write := true } = { fs := [.truncate (py!"/d/m.csv"), .put (py!"/d/m.csv") cliOut], exit := .code 0 } ∧
    runCli (cliWorld cliText) { file := py!"/d/m.csv", write := true, outType := .line } =
      { fs := [.truncate (py!"/d/m.txt"), .put (py!"/d/m.txt") cliLines], exit := .code 0 } := by
  decide +kernel

def cliDoc : St := after (parseRows noFiles 3 (py!"/d/m.csv") (readCsv cliText)) exDoc

theorem cli_opens : openDoc (cliWorld cliText) (py!"/d/m.csv") = .ok () cliDoc := by
  rw [openDoc_csv (p := py!"/d/m.csv") (text := cliText) (by decide) (by decide) (by decide) (by decide)]
  exact ok_after (m := parseRows noFiles 3 (py!"/d/m.csv") (readCsv cliText)) (s := exDoc) (a := ()) (by decide +kernel)

theorem cli_shows : Shows cliDoc cliOutline := showsB_sound (by decide +kernel)
theorem cli_named : NamedValues cliDoc cliOutline := by unfold NamedValues; decide +kernel

/-- Such runs: the text is written, a value is printed. -/
example : (runCli (cliWorld cliText) { file := py!"/d/m.csv", write := true, outType := .line }).exit = .code 0 ∧
    (runCli (cliWorld cliText) { file := py!"/d/m.csv", findFirst := py!"Root.Title" }).exit = .code 0 ∧
    (runCli (cliWorld cliText) { file := py!"/d/m.csv", findFirst := py!"Root.Title" }).out ≠ [] := by
  decide +kernel

theorem cli_csvFile (a : Args) (h : a.file = py!"/d/m.csv") : CsvFile (cliWorld cliText) a (py!"/d/") (py!"m") := by
  have e : a.named = a := by unfold Args.named; rw [h]; rfl
  exact ⟨by rw [e, h]; decide, by rw [e, h]; decide, .inr ⟨py!"/d", rfl⟩, by decide, by decide, rfl⟩

/-- Running `metatab -W -c /d/m.csv` twice. -/
example : let W := cliWorld cliText
    let a : Args := { file := py!"/d/m.csv", write := true }
    (runCli W a).exit = .code 0 ∧ (runCli (W.after (runCli W a)) a).exit = .code 0 ∧
    ((W.after (runCli W a)).after (runCli (W.after (runCli W a)) a)).D.files = (W.after (runCli W a)).D.files :=
  C72_idempotent_partial (cli_csvFile _ rfl) rfl rfl rfl rfl rfl (by decide) plainClasses_init cli_opens (by decide) cli_shows
    (by decide +kernel) cli_named

/-- Converting to lines and back. -/
example : let W := cliWorld cliText
    let W' := W.after (runCli W { file := py!"/d/m.csv", write := true, outType := .line })
    let W'' := W'.after (runCli W' { file := py!"/d/m.txt", write := true })
    W''.D.files (py!"/d/m.csv") = some cliOut ∧ W''.D.files (py!"/d/m.txt") = some cliLines := by
  have h := C72_convert_partial (W := cliWorld cliText) (a := { file := py!"/d/m.csv", write := true, outType := .line })
    (b := { file := py!"/d/m.txt", write := true }) (c := { file := py!"/d/m.csv", write := true }) (cli_csvFile _ rfl)
    ⟨rfl, rfl, rfl, rfl, rfl⟩ ⟨rfl, rfl, rfl, rfl, rfl⟩ ⟨rfl, rfl, rfl, rfl, rfl⟩ rfl (by decide) (by decide) rfl (by decide) plainClasses_init
    cli_opens (by decide) cli_shows (by decide +kernel) cli_named
  refine ⟨h.2.2.2.2.1.trans (by decide +kernel), ?_⟩
  obtain ⟨text, h1, h2⟩ := h.2.2.2.2.2
  have : docText cliDoc = .ok cliLines := by decide +kernel
  rw [this] at h1
  cases h1
  exact h2

/-- The program refuses to print a document that is not local, though nothing is to be written. -/
theorem C72_remote_witness : let W := cliWorld cliText
    (∃ s, openDoc W (py!"http://x") = .ok () s ∧ Delivers W s .csv (py!"Title,far\r\n")) ∧
    runCli W { file := py!"http://x" } = { out := [], exit := .code 1 } := by
  refine ⟨⟨after (parseRows noFiles 3 [] [[py!"Title", py!"far"]]) exDoc, ?_, ?_⟩, ?_⟩
  · exact ok_after (m := parseRows noFiles 3 [] [[py!"Title", py!"far"]]) (s := exDoc) (a := ()) (by decide +kernel)
  · show docCsv _ = _
    decide +kernel
  · decide +kernel

/-- `-d` without `-j` or `-y` prints nothing, and says nothing about it. -/
theorem C72_declaration_witness :
    let W : World := { cliWorld (py!"DeclareTerm,Root.Thing\r\n") with
      files := ⟨fun t => if t = py!"/d/m.csv" then some [[py!"DeclareTerm", py!"Root.Thing"]] else none, fun _ n => some n⟩ }
    runCli W { file := py!"/d/m.csv", showDecl := true } = { out := [], exit := .code 0 } ∧
    runCli W { file := py!"/d/m.csv", showDecl := true, outType := .json } = { out := [py!"{}\n"], exit := .code 0 } := by
  decide +kernel

/-- A file that does not exist. -/
example : runCli (cliWorld cliText) { file := py!"/d/x.csv" } = { exit := .code 1 } :=
  C72_missing (cliWorld cliText) { file := py!"/d/x.csv" } rfl (dir := py!"/d/") (base := py!"x") (ext := py!"csv") (by decide +kernel) (by decide +kernel)
    (.inr ⟨py!"/d", rfl⟩) (by decide) (by decide) (.inl rfl) (by decide +kernel)

/-- `-f` with a name that is there and one that is not. -/
example : runCli (cliWorld cliText) { file := py!"/d/m.csv", findFirst := py!"Root.Title" } = { out := [py!"T\n"], exit := .code 0 } := by
  have hl : find cliDoc (py!"Root.Title") = .ok [1] := by decide +kernel
  have hv : (cliDoc.heap 1).value = .str (py!"T") := by decide +kernel
  exact (C72_find (cliWorld cliText) { file := py!"/d/m.csv", findFirst := py!"Root.Title" } rfl rfl (by decide) cli_opens hl).2 1 [] _ rfl hv
example : runCli (cliWorld cliText) { file := py!"/d/m.csv", findFirst := py!"Root.Name" } = { exit := .raised .attributeError } := by
  have hl : find cliDoc (py!"Root.Name") = .ok [] := by decide +kernel
  exact (C72_find (cliWorld cliText) { file := py!"/d/m.csv", findFirst := py!"Root.Name" } rfl rfl (by decide) cli_opens hl).1 rfl

/-- `-C` with an existing file, and with a template that is missing. -/
example : runCli (cliWorld cliText) { file := py!"/d/m.csv", create := some [] } = { exit := .code 0 } ∧
    runCli (cliWorld cliText) { file := py!"/d/n.csv", create := some [] } = { exit := .raised .osError } := by
  decide +kernel

/-! ## C73 -/

open Classical in
/-- **C73.** If some table has the name, `get_table` gives the first such table of the document; the name must agree in letter case, the word
`Table` need not. -/
theorem C73_found {s : St} (hd : s.derived.get? (py!"root.table") = none) (hs : ∀ t ∈ s.terms, SearchableBy s.heap none t) (name : Str) (t : Nat) :
    getTable s name = .found t ↔ ∃ pre post, s.terms = pre ++ t :: post ∧ Meets s.heap (py!"Root", py!"Table") (.str name) none t ∧
      ∀ u ∈ pre, ¬ Meets s.heap (py!"Root", py!"Table") (.str name) none u := by
  have hA : PlainPart (py!"Root") := ⟨by decide, by decide, by decide⟩
  have hB : PlainPart (py!"Table") := ⟨by decide, by decide, by decide⟩
  have hf := fun v => find_by (s := s) (q := (py!"Root", py!"Table")) hA hB hd (l := s.terms) rfl hs v
  have hff : findFirst s (py!"Root.Table") (.str name) = .ok (s.terms.filter fun t => Meets s.heap (py!"Root", py!"Table") (.str name) none t).head? := by
    unfold findFirst
    rw [show find s (py!"Root.Table") (.str name) none = _ from hf (.str name)]
    rfl
  have hfr : ∃ l, find s (py!"Root.Table") = .ok l := ⟨_, hf .fls⟩
  unfold getTable
  rw [hff]
  rw [List.head?_filter]
  cases hh : s.terms.find? fun t => decide (Meets s.heap (py!"Root", py!"Table") (.str name) none t) with
  | some u =>
    simp only [TableRes.found.injEq]
    obtain ⟨h1, pre, post, h2, h3⟩ := List.find?_eq_some_iff_append.1 hh
    have h1 : Meets s.heap (py!"Root", py!"Table") (.str name) none u := by simpa using h1
    have h3 : ∀ x ∈ pre, ¬ Meets s.heap (py!"Root", py!"Table") (.str name) none x := fun x hx => by simpa using h3 x hx
    constructor
    · rintro rfl
      exact ⟨pre, post, h2, h1, h3⟩
    · rintro ⟨pre', post', g1, g2, g3⟩
      have : s.terms.find? (fun t => decide (Meets s.heap (py!"Root", py!"Table") (.str name) none t)) = some t :=
        List.find?_eq_some_iff_append.2 ⟨by simpa using g2, pre', post', g1, fun x hx => by simpa using g3 x hx⟩
      rw [hh] at this
      exact Option.some.inj this
  | none =>
    constructor
    · intro h
      exfalso
      simp only at h
      obtain ⟨l, hl⟩ := hfr
      rw [hl] at h
      simp only at h
      split at h <;> cases h
    · rintro ⟨pre, post, g1, g2, -⟩
      have := List.find?_eq_none.1 hh t (by rw [g1]; simp)
      exact absurd (by simpa using g2) this

theorem quotedNames_ok {s : St} : ∀ {ts : List Nat} {names : List Str}, ts.map (fun t => (s.heap t).value) = names.map .str →
    quotedNames s ts = .ok (names.map fun n => py!"'" ++ n ++ py!"'")
  | [], [], _ => rfl
  | [], _ :: _, h => by simp at h
  | _ :: _, [], h => by simp at h
  | t :: ts, n :: names, h => by
    simp only [List.map_cons, List.cons.injEq] at h
    unfold quotedNames
    rw [h.1]
    simp only
    rw [quotedNames_ok h.2]
    rfl

theorem quotedNames_err {s : St} : ∀ {ts : List Nat}, (∃ t ∈ ts, ∀ n, (s.heap t).value ≠ .str n) → quotedNames s ts = .error .typeError
  | [], h => by obtain ⟨_, h, -⟩ := h; cases h
  | t :: ts, h => by
    unfold quotedNames
    split
    · next v hv =>
      rw [quotedNames_err (ts := ts)]
      · rfl
      · obtain ⟨u, h1, h2⟩ := h
        rcases List.mem_cons.1 h1 with rfl | h1
        · exact absurd hv (h2 v)
        · exact ⟨u, h1, h2⟩
    · rfl

open Classical in
/-- **C73.** If no table has the name, the program ends with a message that lists the names of all tables, in document order, or says that
there are none.

Missing for the full claim: tables without a name, for which the message cannot be made and `TypeError` is raised instead. -/
theorem C73_missing_partial {s : St} (hd : s.derived.get? (py!"root.table") = none) (hs : ∀ t ∈ s.terms, SearchableBy s.heap none t) (name : Str)
    (hn : ∀ t ∈ s.terms, ¬ Meets s.heap (py!"Root", py!"Table") (.str name) none t) :
    (∀ names : List Str, (s.terms.filter fun t => Meets s.heap (py!"Root", py!"Table") .fls none t).map (fun t => (s.heap t).value) = names.map .str →
      getTable s name = .missing (if names = [] then [py!"<No Tables>"] else names.map fun n => py!"'" ++ n ++ py!"'")) ∧
    ((∃ t ∈ s.terms, Meets s.heap (py!"Root", py!"Table") .fls none t ∧ ∀ n, (s.heap t).value ≠ .str n) → getTable s name = .raised .typeError) := by
  have hA : PlainPart (py!"Root") := ⟨by decide, by decide, by decide⟩
  have hB : PlainPart (py!"Table") := ⟨by decide, by decide, by decide⟩
  have hf := fun v => find_by (s := s) (q := (py!"Root", py!"Table")) hA hB hd (l := s.terms) rfl hs v
  have hff : findFirst s (py!"Root.Table") (.str name) = .ok none := by
    unfold findFirst
    rw [show find s (py!"Root.Table") (.str name) none = _ from hf (.str name)]
    have : (s.terms.filter fun t => decide (Meets s.heap (py!"Root", py!"Table") (.str name) none t)) = [] :=
      List.filter_eq_nil_iff.2 fun t ht => by simpa using hn t ht
    rw [this]
    rfl
  have hg : find s (py!"Root.Table") = _ := hf .fls
  constructor
  · intro names hm
    unfold getTable
    rw [hff]
    simp only
    rw [hg]
    simp only
    rw [quotedNames_ok hm]
    cases names with
    | nil => rfl
    | cons n ns => rfl
  · rintro ⟨t, h1, h2, h3⟩
    unfold getTable
    rw [hff]
    simp only
    rw [hg]
    simp only
    rw [quotedNames_err ⟨t, List.mem_filter.2 ⟨h1, by simpa using h2⟩, h3⟩]

/-- Found, missing, no tables, and the table without a name that spoils the message. -/
theorem C73_unnamed_witness : getTable (exParse [[py!"Table", py!"a"], [py!"Table", py!"b"]]) (py!"b") = .found 2 ∧
    getTable (exParse [[py!"Table", py!"a"], [py!"Table", py!"b"]]) (py!"c") = .missing [py!"'a'", py!"'b'"] ∧
    getTable (exParse [[py!"Title", py!"a"]]) (py!"c") = .missing [py!"<No Tables>"] ∧
    getTable (exParse [[py!"Table", py!"a"], [py!"Table"]]) (py!"c") = .raised .typeError := by
  decide +kernel

/-- **C73** for orderly documents, without further hypotheses. -/
theorem C73_orderly {s : St} (h : OrderlyHistory s) (name : Str) (t : Nat) :
    getTable s name = .found t ↔ ∃ pre post, s.terms = pre ++ t :: post ∧ Meets s.heap (py!"Root", py!"Table") (.str name) none t ∧
      ∀ u ∈ pre, ¬ Meets s.heap (py!"Root", py!"Table") (.str name) none u := by
  obtain ⟨h1, h2⟩ := orderly_searchable h
  exact C73_found (by rw [h1]; rfl) (fun u hu => (h2 u hu).by_ none) name t

end Metatab
