import Verif.Model.Parser
import Verif.Lemmas.Str
import Verif.Lemmas.Examples
import Verif.Props.Lines
import Verif.Spec.Rows
/-! # Comment and blank rows (C06) -/
namespace Metatab
open Py Spec

theorem dropWhile_nil {α : Type} {p : α → Bool} {l : List α} : l.dropWhile p = [] ↔ ∀ a ∈ l, p a = true := by
  induction l with
  | nil => simp
  | cons b l ih =>
    rw [List.dropWhile_cons]
    split
    · next h => rw [ih]; simp [h]
    · next h => simp [h]

theorem strip_eq_nil (c : Str) : strip c = [] ↔ ∀ a ∈ c, isSpace a = true := by
  constructor
  · intro h a ha
    by_contra hs
    have h1 : lstrip c ≠ [] := by
      unfold lstrip
      intro e
      exact hs (dropWhile_nil.1 e a ha)
    have h2 : ∃ x, (lstrip c).head? = some x ∧ isSpace x = false := by
      cases hl : lstrip c with
      | nil => exact absurd hl h1
      | cons x r =>
        exact ⟨x, rfl, (dropWhile_eq_self _).1 (lstrip_idem c) x (by rw [hl]; rfl)⟩
    obtain ⟨x, hx, hxs⟩ := h2
    have hx' : x ∈ (lstrip c).reverse := List.mem_reverse.2 (List.mem_of_head? hx)
    unfold strip rstrip at h
    rw [List.reverse_eq_nil_iff, dropWhile_nil] at h
    rw [h x hx'] at hxs; cases hxs
  · intro h
    have : lstrip c = [] := by
      unfold lstrip; exact dropWhile_nil.2 h
    unfold strip; rw [this]; rfl

theorem strip_hash (c : Str) : startsWith (py!"#") (strip c) = true ↔ CommentLine c := by
  rw [commentLine_iff]
  have h1 : startsWith (py!"#") (strip c) = true ↔ (strip c).head? = some '#' := by
    unfold startsWith
    cases strip c with
    | nil => simp
    | cons a r =>
      rw [List.isPrefixOf_iff_prefix, List.cons_prefix_cons]
      simp [eq_comm]
  rw [h1]
  cases hl : lstrip c with
  | nil => unfold strip; rw [hl]; simp [rstrip]
  | cons a r =>
    have ha : isSpace a = false := (dropWhile_eq_self _).1 (lstrip_idem c) a (by rw [hl]; rfl)
    have : (rstrip (a :: r)).head? = some a := by
      have hp : rstrip (a :: r) <+: a :: r := by
        have := List.dropWhile_suffix (l := (a :: r).reverse) (isSpace ·)
        have := List.reverse_prefix.2 this
        simpa [rstrip] using this
      cases hr : rstrip (a :: r) with
      | nil =>
        have := (strip_eq_nil c).1 (by unfold strip; rw [hl, hr]) a (mem_lstrip (by rw [hl]; exact List.mem_cons_self))
        rw [ha] at this; cases this
      | cons b q =>
        rw [hr] at hp
        rw [(List.cons_prefix_cons.1 hp).1]; rfl
    unfold strip; rw [hl, this]; simp

theorem skipRow_iff (row : List Str) : skipRow row = true ↔ NoiseRow row := by
  cases row with
  | nil => simp [skipRow, NoiseRow]
  | cons c r =>
    simp only [skipRow, Bool.or_eq_true, decide_eq_true_eq, strip_eq_nil, strip_hash, NoiseRow, reduceCtorEq, false_or]
    constructor
    · intro h; exact ⟨c, r, rfl, h⟩
    · rintro ⟨_, _, e, h⟩; cases e; exact h

theorem genRows_same {f g : Files} (hd : f.decl = g.decl) {sub : Str → Bool → M Unit} {load isDecl : Bool} {dir ref : Str}
    {a b : List (List Str)} (h : SameRows a b) :
    ∀ ls, genRows f sub load isDecl dir ref ls a = genRows g sub load isDecl dir ref ls b := by
  have hr : resolveTarget f = resolveTarget g := by unfold resolveTarget; rw [hd]
  induction h with
  | nil => intro ls; rfl
  | both row h ih =>
    intro ls
    unfold genRows
    simp only [ih, hr]
  | left hn h ih => intro ls; rw [← ih]; conv_lhs => unfold genRows; rw [if_pos ((skipRow_iff _).2 hn)]
  | right hn h ih => intro ls; rw [ih]; conv_rhs => unfold genRows; rw [if_pos ((skipRow_iff _).2 hn)]

theorem gen_same {f g : Files} (h : SameFiles f g) {load : Bool} : ∀ (fuel : Nat) {isDecl : Bool} {dir ref : Str} {a b : List (List Str)},
    SameRows a b → gen f load fuel isDecl dir ref a = gen g load fuel isDecl dir ref b
  | 0, _, _, _, _, _, _ => rfl
  | fuel + 1, isDecl, dir, ref, a, b, hab => by
    unfold gen
    refine congrArg (M.get >>= ·) (funext fun s => ?_)
    refine congrArg (· >>= fun _ => pure ()) ?_
    rw [genRows_same h.1 hab]
    congr 1
    funext target d
    rcases h.2 target with ⟨e1, e2⟩ | ⟨a, b, e1, e2, hab⟩
    · simp only [e1, e2]
    · simp only [e1, e2]; exact gen_same h fuel hab

/-- **C06.** Rows that are empty, or start with a blank or comment cell, make no difference wherever they stand, in the document itself
and in every included or declaration file: the same state is reached with the same outcome. -/
theorem C06_noise {f g : Files} (hf : SameFiles f g) {a b : List (List Str)} (h : SameRows a b) (fuel : Nat) (path : Str) :
    parseRows f fuel path a = parseRows g fuel path b := by
  unfold parseRows
  rw [gen_same hf fuel h]

/-- **C06**, for declarations loaded by name. -/
theorem C06_declarations {f g : Files} (hf : SameFiles f g) (fuel : Nat) (decls : List Str) :
    loadDeclarations f fuel decls = loadDeclarations g fuel decls := by
  have refl : ∀ a : List (List Str), SameRows a a := fun a => by
    induction a with
    | nil => exact .nil
    | cons r a ih => exact .both r ih
  unfold loadDeclarations
  simp only [gen_same hf fuel (refl _)]

/-- Three noise rows around a term row, and a file with one. -/
example : SameRows [[], [py!"Title", py!"x"], [py!"  ", py!"y"], [py!" # note", py!"z"]] [[py!"Title", py!"x"]] :=
  .left (.inl rfl) (.both _ (.left (.inr ⟨_, _, rfl, .inl (by decide)⟩)
    (.left (.inr ⟨_, _, rfl, .inr ⟨py!" ", py!" note", by decide, rfl⟩⟩) .nil)))
/-- A row whose second cell is a comment is not noise. -/
example : ¬ NoiseRow [py!"Title", py!"# x"] := by
  rw [← skipRow_iff]; decide

end Metatab
