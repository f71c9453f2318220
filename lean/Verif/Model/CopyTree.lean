import Verif.Model.Dirs
/-! # `copytree` (metatab/util.py:166-173)

`shutil.copytree` and `shutil.copy2` belong to the standard library and are described by what they leave behind. File times and modes are
not modelled, and there are no symbolic links. -/
namespace Metatab
open Py

/-- The names that `ignore` leaves out: it is asked for a directory and a name in it. -/
abbrev Ignore := FPath → Str → Bool

/-- The path `rel` below `src` is not left out, and neither is a directory on the way to it. -/
def kept (ig : Ignore) (src : FPath) : FPath → Bool
  | [] => true
  | n :: rel => kept ig src rel && !ig (rel ++ src) n

/-- The names of `p` below `src`, `none` if `p` is not properly below it. -/
def relTo (src p : FPath) : Option FPath := if src <:+ p ∧ p ≠ src then some (p.take (p.length - src.length)) else none

/-- `shutil.copytree(src, dst, symlinks, ignore)`: the target must not exist, the directories above it are made. For targets that are not
below the source. -/
def shutilCopytree (ig : Ignore) (t : FTree) (src dst : FPath) : Except Err FTree :=
  if t.has dst then .error .osError
  else match makedirs t dst with
    | .error e => .error e
    | .ok t' => .ok (t' ++ t.filterMap fun e => match relTo src e.1 with
      | some rel => if kept ig src rel then some (rel ++ dst, e.2) else none
      | none => none)

/-- Writing a file: the directory must be there. -/
def writeBytes (t : FTree) (b : Bytes) : FPath → Except Err FTree
  | [] => .error .osError
  | n :: q =>
    if t.isDir q && !t.isDir (n :: q) then .ok ((t.filter fun e => e.1 ≠ n :: q) ++ [(n :: q, .file b)])
    else .error .osError

/-- `shutil.copy2(src, dst)`: into a directory under the same name; a file is not copied over itself. -/
def copy2 (t : FTree) (src dst : FPath) : Except Err FTree :=
  match t.look src with
  | some (.file b) =>
    let d := if t.isDir dst then src.take 1 ++ dst else dst
    if d = src then .error .osError else writeBytes t b d
  | _ => .error .osError

/-- The loop of `copytree`, metatab/util.py:167-173; an exception ends it and leaves what has been copied. -/
def copyItems (ig : Ignore) (src dst : FPath) : List Str → FTree → Except Err Unit × FTree
  | [], t => (.ok (), t)
  | n :: ns, t =>
    match if t.isDir (n :: src) then shutilCopytree ig t (n :: src) (n :: dst) else copy2 t (n :: src) (n :: dst) with
    | .error e => (.error e, t)
    | .ok t => copyItems ig src dst ns t

/-- `copytree(src, dst, symlinks, ignore)`, metatab/util.py:166-173. -/
def copytree (ig : Ignore) (t : FTree) (src dst : FPath) : Except Err Unit × FTree :=
  match t.listdir src with
  | .error e => (.error e, t)
  | .ok names => copyItems ig src dst names t

end Metatab
