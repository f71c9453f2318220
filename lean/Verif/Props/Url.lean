import Verif.Model.Url
import Verif.Lemmas.Str
/-! # C58: Metatab URLs -/
namespace Metatab
open Py

variable {fileExt : Str → Str}

/-- The formats a metatab URL may have. -/
def knownFormats : List Str := [py!"zip", py!"xlsx", py!"csv", py!"txt", py!"ipynb"]

theorem basename_append {a b : Str} (h : '/' ∉ b) : basename (a ++ '/' :: b) = b := by
  unfold basename
  rw [List.reverse_append, List.reverse_cons, List.append_assoc, List.takeWhile_append_of_pos (by
    intro c hc; simp at hc; simp; rintro rfl; exact h hc)]
  simp

theorem basename_pathJoin (p : Str) : basename (pathJoin p DEFAULT_FILE) = DEFAULT_FILE := by
  unfold pathJoin
  rw [if_neg (by decide)]
  split
  · rename_i h
    rcases h with rfl | h
    · decide
    · obtain ⟨q, rfl⟩ : ∃ q, p = q ++ ['/'] := by
        rcases List.eq_nil_or_concat p with rfl | ⟨q, c, rfl⟩
        · simp at h
        · simp at h; exact ⟨q, by simp [h]⟩
      rw [List.append_assoc]
      exact basename_append (by decide)
  · exact basename_append (by decide)

theorem basename_urlPath (p : Str) : (fileExt (basename p) ∈ knownFormats ∧ urlPath fileExt p = p) ∨
    (fileExt (basename p) ∉ knownFormats ∧ basename (urlPath fileExt p) = DEFAULT_FILE ∧ urlPath fileExt p = pathJoin p DEFAULT_FILE) := by
  unfold urlPath
  have e : [py!"zip", py!"xlsx"] ++ simpleFormats = knownFormats := rfl
  rw [e]
  by_cases h : fileExt (basename p) ∈ knownFormats
  · rw [if_neg (by simpa using h)]
    exact .inl ⟨h, rfl⟩
  · rw [if_pos h]
    exact .inr ⟨h, basename_pathJoin p, rfl⟩

/-- **C58** (known format). The constructed URL always has a known resource format; `csv` when the path named no known file. -/
theorem C58_known (hx : fileExt (py!"metadata.csv") = py!"csv") (p : Str) :
    ∃ f ∈ knownFormats, resourceFormat fileExt (urlPath fileExt p) = .ok f ∧
      (f = fileExt (basename p) ∨ (fileExt (basename p) ∉ knownFormats ∧ f = py!"csv")) := by
  have hne : ∀ f ∈ knownFormats, f ≠ [] := by decide
  rcases basename_urlPath (fileExt := fileExt) p with ⟨h, e⟩ | ⟨h, e, _⟩
  · refine ⟨_, h, ?_, .inl rfl⟩
    rw [e]; unfold resourceFormat; rw [if_neg (hne _ h)]
  · refine ⟨py!"csv", by decide, ?_, .inr ⟨h, rfl⟩⟩
    unfold resourceFormat
    rw [e, show fileExt DEFAULT_FILE = py!"csv" from hx]
    rfl

/-- **C58** (directories). A path that names no known file gets `metadata.csv` appended as its last component; others are kept. -/
theorem C58_path (p : Str) :
    (fileExt (basename p) ∈ knownFormats → urlPath fileExt p = p) ∧
    (fileExt (basename p) ∉ knownFormats →
      basename (urlPath fileExt p) = py!"metadata.csv" ∧ p <+: urlPath fileExt p) := by
  rcases basename_urlPath (fileExt := fileExt) p with ⟨h, e⟩ | ⟨h, e, e'⟩
  · exact ⟨fun _ => e, fun h' => absurd h h'⟩
  · refine ⟨fun h' => absurd h' h, fun _ => ⟨e, ?_⟩⟩
    rw [e']
    unfold pathJoin
    rw [if_neg (by decide)]
    split
    · exact ⟨_, rfl⟩
    · exact ⟨_, rfl⟩

/-- **C58** (fragment). Construction never fails for want of a branch, and the fragment follows the resource format: the archive
member for `zip`, the sheet for `xlsx`, nothing otherwise. -/
theorem C58_fragment (hx : fileExt (py!"metadata.csv") = py!"csv") (p : Str) :
    ∃ f, resourceFormat fileExt (urlPath fileExt p) = .ok f ∧
      metatabUrl fileExt p = .ok (urlPath fileExt p,
        if f = py!"zip" then py!"metadata.csv" else if f = py!"xlsx" then py!"meta" else []) := by
  obtain ⟨f, hf, hr, _⟩ := C58_known hx p
  refine ⟨f, hr, ?_⟩
  unfold metatabUrl urlFragment
  by_cases hb : basename (urlPath fileExt p) = DEFAULT_FILE
  · have : f = py!"csv" := by
      unfold resourceFormat at hr
      rw [hb, show fileExt DEFAULT_FILE = py!"csv" from hx] at hr
      cases hr; rfl
    subst this
    simp only [hb, if_true]
    rfl
  · simp only [hb, if_false, hr, bind, Except.bind]
    simp only [knownFormats, List.mem_cons, List.not_mem_nil, or_false] at hf
    rcases hf with rfl | rfl | rfl | rfl | rfl <;> rfl

/-- **C58** (re-wrapping). Constructing a metatab URL from one changes nothing (`get_resource`, `get_target`). -/
theorem C58_idempotent (hx : fileExt (py!"metadata.csv") = py!"csv") (p : Str) :
    urlPath fileExt (urlPath fileExt p) = urlPath fileExt p := by
  rcases basename_urlPath (fileExt := fileExt) p with ⟨h, e⟩ | ⟨h, e, _⟩
  · rw [e, e]
  · have : fileExt (basename (urlPath fileExt p)) ∈ knownFormats := by
      rw [e, show fileExt DEFAULT_FILE = py!"csv" from hx]; decide
    exact (C58_path _).1 this

/-- **C58** (target). Target file and format follow the resource format: inside an archive or workbook the metadata part, otherwise
the named file itself, provided a path that ends in `metadata.csv` does so as a whole component. -/
theorem C58_target_partial (hx : fileExt (py!"metadata.csv") = py!"csv") (p : Str)
    (hs : py!"metadata.csv" <:+ urlPath fileExt p → basename (urlPath fileExt p) = py!"metadata.csv") :
    ∃ f, resourceFormat fileExt (urlPath fileExt p) = .ok f ∧
      targetFormat fileExt (urlPath fileExt p) = .ok (if f = py!"zip" then py!"csv" else f) ∧
      targetFile fileExt (urlPath fileExt p) =
        .ok (if f = py!"zip" then py!"metadata.csv" else if f = py!"xlsx" then py!"meta" else basename (urlPath fileExt p)) := by
  obtain ⟨f, hf, hr, _⟩ := C58_known hx p
  refine ⟨f, hr, ?_, ?_⟩
  · simp only [targetFormat, hr, bind, Except.bind]
    simp only [knownFormats, List.mem_cons, List.not_mem_nil, or_false] at hf
    rcases hf with rfl | rfl | rfl | rfl | rfl <;> rfl
  · unfold targetFile
    by_cases hb : DEFAULT_FILE.isSuffixOf (urlPath fileExt p) = true
    · have hb' := hs (List.isSuffixOf_iff_suffix.1 hb)
      have : f = py!"csv" := by
        unfold resourceFormat at hr
        rw [hb', hx] at hr
        cases hr; rfl
      subst this
      rw [if_pos hb, hb']
      rfl
    · rw [if_neg hb]
      simp only [hr, bind, Except.bind]
      simp only [knownFormats, List.mem_cons, List.not_mem_nil, or_false] at hf
      rcases hf with rfl | rfl | rfl | rfl | rfl <;> rfl

/-- **C58** is false without that proviso: a file called `mymetadata.csv` is reported as `metadata.csv`. -/
theorem C58_target_witness : urlPath splitExt (py!"/d/mymetadata.csv") = py!"/d/mymetadata.csv" ∧
    targetFile splitExt (py!"/d/mymetadata.csv") = .ok (py!"metadata.csv") := by decide

/-- C58. The extension of `os.path.splitext` is what follows the last dot, if something other than dots comes before that dot. -/
theorem C58_extension (a e : Str) (he : '.' ∉ e) : splitExt (a ++ '.' :: e) = if a.any (· ≠ '.') then e else [] := by
  have h1 : ((a ++ '.' :: e).reverse.takeWhile (· ≠ '.')).reverse = e := by
    rw [List.reverse_append, List.reverse_cons, List.append_assoc, List.takeWhile_append_of_pos (by
      intro c hc; simp at hc; simp; rintro rfl; exact he hc)]
    simp
  have h2 : (a ++ '.' :: e).take ((a ++ '.' :: e).length - e.length) = a ++ ['.'] := by
    have : (a ++ '.' :: e).length - e.length = (a ++ ['.']).length := by simp; omega
    rw [this, show a ++ '.' :: e = (a ++ ['.']) ++ e by simp, List.take_left']
    rfl
  unfold splitExt
  simp only [h1, h2]
  simp

/-- C58. A name without a dot has no extension. -/
theorem C58_no_extension {v : Str} (h : '.' ∉ v) : splitExt v = [] := by
  unfold splitExt
  simp [h]

/-- A hidden directory is not taken for a file of that format. -/
example : metatabUrl splitExt (py!"/a/.csv") = .ok (py!"/a/.csv/metadata.csv", []) ∧
    metatabUrl splitExt (py!"/a/..x.csv") = .ok (py!"/a/..x.csv", []) := by decide

/-- The hypothesis on `file_ext` holds for `os.path.splitext`, and the cases occur. -/
example : splitExt (py!"metadata.csv") = py!"csv" ∧ metatabUrl splitExt (py!"/a/b.zip") = .ok (py!"/a/b.zip", py!"metadata.csv") ∧
    metatabUrl splitExt (py!"/a/dir") = .ok (py!"/a/dir/metadata.csv", []) := by decide

end Metatab
