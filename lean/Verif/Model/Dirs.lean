import Verif.Model.Err
import Verif.Py.Str
/-! # Directory helpers (metatab/util.py:84-99, 126-163, 229-242)

Paths are those that the operating system has resolved: absolute, without symbolic links, `.` and `..`. Nothing is forbidden by permissions. -/
namespace Metatab
open Py

/-- A resolved path: the names in it, the last one first. The root directory is `[]`. -/
abbrev FPath := List Str

/-- The bytes of a file. -/
abbrev Bytes := List UInt8

/-- What a path leads to. -/
inductive Node
  | dir
  | file (content : Bytes)
deriving DecidableEq, Repr

/-- A file system: its entries in the order in which they are listed. -/
abbrev FTree := List (FPath × Node)

/-- What a path leads to, `none` if nothing. -/
def FTree.look (t : FTree) : FPath → Option Node
  | [] => some .dir
  | p => (t.find? fun e => e.1 = p).map (·.2)

/-- `os.path.exists`. -/
def FTree.has (t : FTree) (p : FPath) : Bool := (t.look p).isSome

/-- `os.path.isdir`. -/
def FTree.isDir (t : FTree) (p : FPath) : Bool := decide (t.look p = some .dir)

/-- `os.listdir`. -/
def FTree.listdir (t : FTree) (p : FPath) : Except Err (List Str) :=
  if t.isDir p then
    .ok (t.filterMap fun e => match e.1 with
      | n :: q => if q = p then some n else none
      | [] => none)
  else .error .osError

/-- `os.mkdir`. -/
def mkdir (t : FTree) : FPath → Except Err FTree
  | [] => .error .osError
  | n :: p => if t.has (n :: p) then .error .osError else if t.isDir p then .ok (t ++ [(n :: p, .dir)]) else .error .osError

/-- `os.makedirs` of the standard library: the missing directories above are made first. `FileExistsError` there is ignored. -/
def makedirs (t : FTree) : FPath → Except Err FTree
  | [] => .error .osError
  | n :: p =>
    if t.has p then mkdir t (n :: p)
    else match makedirs t p with
      | .error e => .error e
      | .ok t => mkdir t (n :: p)

/-- `maybe_makedir` inside `make_dir_structure`, metatab/util.py:87-95, for the joined path. -/
def maybeMakedir (t : FTree) (p : FPath) : Except Err FTree :=
  if t.has p && !t.isDir p then .error .osError
  else if !t.has p then makedirs t p
  else .ok t

/-- `DOWNLOAD_DIR`, `PACKAGE_DIR`, `OLD_DIR`, metatab/util.py:78-81. -/
def buildDirs : List FPath := [[py!"download", py!"_metapack"], [py!"package", py!"_metapack"], [py!"old", py!"_metapack"]]

/-- One call of `maybe_makedir` after the other; an exception ends the function and leaves what has been made. -/
def makeAll (t : FTree) : List FPath → Except Err Unit × FTree
  | [] => (.ok (), t)
  | p :: ps =>
    match maybeMakedir t p with
    | .error e => (.error e, t)
    | .ok t => makeAll t ps

/-- `make_dir_structure`, metatab/util.py:84-99. -/
def makeDirStructure (t : FTree) (base : FPath) : Except Err Unit × FTree := makeAll t (buildDirs.map (· ++ base))

/-- `ensure_dir`, metatab/util.py:161-163; `none` is the empty path. -/
def ensureDir (t : FTree) : Option FPath → Except Err FTree
  | none => .ok t
  | some p => if !t.has p then makedirs t p else .ok t

/-- What `walk_up` yields: the directory, the names of the directories in it, the other names. -/
abbrev WalkItem := FPath × List Str × List Str

/-- The listing of one directory in `walk_up`, metatab/util.py:136-149. -/
def walkItem (t : FTree) (p : FPath) : Except Err WalkItem := do
  let names ← t.listdir p
  return (p, names.filter fun n => t.isDir (n :: p), names.filter fun n => !t.isDir (n :: p))

/-- `walk_up`, metatab/util.py:126-158: what is yielded, and the exception at the end if there is one. The directory above the root is the
root itself, which ends the walk. -/
def walkUp (t : FTree) : FPath → List WalkItem × Option Err
  | [] =>
    match walkItem t [] with
    | .error e => ([], some e)
    | .ok i => ([i], none)
  | n :: q =>
    match walkItem t (n :: q) with
    | .error e => ([], some e)
    | .ok i => (i :: (walkUp t q).1, (walkUp t q).2)

/-- A hash function as `hashlib` offers it. -/
structure Hasher (δ : Type) where
  state : Type
  start : state
  update : state → Bytes → state
  digest : state → δ

/-- The loop of `md5_file`, metatab/util.py:235-239: `fh.read(n)` until nothing comes. -/
def hashLoop {δ : Type} (H : Hasher δ) (n : Nat) : Nat → H.state → Bytes → H.state
  | 0, m, _ => m
  | fuel + 1, m, rest => if rest.take n = [] then m else hashLoop H n fuel (H.update m (rest.take n)) (rest.drop n)

/-- `open(path, 'rb')`: whether a file is opened; a path below a file gives `NotADirectoryError`, a path that leads nowhere
`FileNotFoundError`, a directory `IsADirectoryError`. -/
inductive OpenedFile
  | bytes (b : Bytes)
  | notFound
  | isDir
  | notDir

/-- Some directory of the path is a file. -/
def FTree.throughFile (t : FTree) : FPath → Bool
  | [] => false
  | _ :: p => (match t.look p with | some (.file _) => true | _ => false) || t.throughFile p

def FTree.openFile (t : FTree) (p : FPath) : OpenedFile :=
  match t.look p with
  | some (.file b) => .bytes b
  | some .dir => .isDir
  | none => if t.throughFile p then .notDir else .notFound

/-- `md5_file`, metatab/util.py:229-242. The loop runs at most once more than there are bytes, since each round takes some. -/
def md5File {δ : Type} (H : Hasher δ) (t : FTree) (p : FPath) : Except Err (Option δ) :=
  match t.openFile p with
  | .bytes b => .ok (some (H.digest (hashLoop H 8192 (b.length + 1) H.start b)))
  | .notFound => .ok none
  | .isDir => .ok none
  | .notDir => .error .osError

end Metatab
