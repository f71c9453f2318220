import Verif.Model.Parser
import Verif.Lemmas.Monad
/-! Rows are read one after the other. -/
namespace Metatab
open Py

instance : LawfulMonad M := LawfulMonad.mk'
  (id_map := fun x => by
    funext s
    show (match x s with | .ok a s' => Res.ok a s' | .err e s' => .err e s') = x s
    cases x s <;> rfl)
  (pure_bind := fun _ _ => rfl)
  (bind_assoc := fun x f g => by
    funext s
    simp only [bind_run]
    cases x s <;> rfl)

/-- Reading an included file. -/
def included (files : Files) (load : Bool) (f : Nat) (target : Str) (d : Bool) : M Unit :=
  match files.rows target with
  | none => M.raise .includeError
  | some rows' => gen files load f d [] target rows'

theorem gen_succ (files : Files) (load : Bool) (f : Nat) (isDecl : Bool) (dir ref : Str) (rows : List (List Str)) (s : St) :
    gen files load (f + 1) isDecl dir ref rows s =
      (genRows files (included files load f) load isDecl dir ref s.root rows >>= fun _ => pure ()) s := rfl

theorem genRows_cons (files : Files) (sub : Str → Bool → M Unit) (load isDecl : Bool) (dir ref : Str) (ls : Nat) (row : List Str)
    (rows : List (List Str)) : genRows files sub load isDecl dir ref ls (row :: rows) =
    (if skipRow row then genRows files sub load isDecl dir ref ls rows
    else do
      let t ← rowTerm isDecl row
      let o ← obj t
      if o.joinLc = py!"root.include" ∨ o.joinLc = py!"root.declare" then do
        let target ← M.lift fun _ => resolveTarget files dir o
        if target = ref then M.raise .includeError
        else do
          consume load t
          let o ← obj t
          sub target (lower o.rt = py!"declare")
          consume load ls
          genRows files sub load isDecl dir ref ls rows
      else if o.joinLc = py!"root.section" then do
        let x ← M.lift fun s => resolveSection s t
        yieldWithArgs load isDecl x
        genRows files sub load isDecl dir ref x rows
      else do
        yieldWithArgs load isDecl t
        genRows files sub load isDecl dir ref ls rows) := rfl

theorem genRows_append (files : Files) (sub : Str → Bool → M Unit) (load isDecl : Bool) (dir ref : Str) (b : List (List Str)) :
    ∀ (a : List (List Str)) (ls : Nat), genRows files sub load isDecl dir ref ls (a ++ b) =
      genRows files sub load isDecl dir ref ls a >>= fun x => genRows files sub load isDecl dir ref x b
  | [], ls => rfl
  | row :: a, ls => by
    have ih := genRows_append files sub load isDecl dir ref b a
    rw [List.cons_append, genRows_cons, genRows_cons]
    simp only [ih]
    split
    · rfl
    · simp only [bind_assoc]
      congr 1; funext t; congr 1; funext o
      split
      · simp only [bind_assoc]
        congr 1; funext target
        split
        · rfl
        · simp only [bind_assoc]
      · split
        · simp only [bind_assoc]
        · simp only [bind_assoc]

end Metatab
