import Verif.Py.Str
import Verif.Model.Err
/-! # `MetatabUrl` (metatab/appurl.py)

Only the handling of the path is modelled. `file_ext` belongs to the `rowgenerators` package and is a parameter. Parsing and printing
of URLs (also `rowgenerators`) is not modelled; it is assumed to keep the path. -/
namespace Metatab
open Py

/-- `DEFAULT_METATAB_FILE`, metatab/__init__.py. -/
def DEFAULT_FILE : Str := py!"metadata.csv"

/-- `simple_file_formats`, metatab/appurl.py:18. -/
def simpleFormats : List Str := [py!"csv", py!"txt", py!"ipynb"]

/-- `os.path.basename`: what follows the last slash. -/
def basename (p : Str) : Str := (p.reverse.takeWhile (· ≠ '/')).reverse

/-- `os.path.join(a, b)` (POSIX). -/
def pathJoin (a b : Str) : Str :=
  if b.head? = some '/' then b
  else if a = [] ∨ a.getLast? = some '/' then a ++ b
  else a ++ '/' :: b

/-- `splitext(v)[1][1:]`: the text after the last dot, when something other than dots precedes it. One possible `file_ext`. -/
def splitExt (v : Str) : Str :=
  let e := (v.reverse.takeWhile (· ≠ '.')).reverse
  let stem := v.take (v.length - e.length)
  if '.' ∈ v ∧ stem.any (· ≠ '.') then e else []

section
variable (fileExt : Str → Str)

/-- The path chosen by the constructor, metatab/appurl.py:29-30. -/
def urlPath (p : Str) : Str :=
  if fileExt (basename p) ∉ [py!"zip", py!"xlsx"] ++ simpleFormats then pathJoin p DEFAULT_FILE else p

/-- `resource_format`, metatab/appurl.py:51-58 (`assert` on an empty extension). -/
def resourceFormat (path : Str) : Except Err Str :=
  if fileExt (basename path) = [] then .error .assertionError else .ok (fileExt (basename path))

/-- The fragment set by the constructor, metatab/appurl.py:36-45. No branch taken leaves `frag` unbound. -/
def urlFragment (path : Str) : Except Err Str :=
  if basename path = DEFAULT_FILE then .ok []
  else do
    let f ← resourceFormat fileExt path
    if f ∈ simpleFormats then return []
    else if f = py!"xlsx" then return py!"meta"
    else if f = py!"zip" then return DEFAULT_FILE
    else .error .unboundLocal

/-- `MetatabUrl(url)`: the path and the fragment of the new URL, metatab/appurl.py:20-45. -/
def metatabUrl (p : Str) : Except Err (Str × Str) := do
  let path := urlPath fileExt p
  let frag ← urlFragment fileExt path
  return (path, frag)

/-- `target_file`, metatab/appurl.py:67-78; `resource_file` is the last path component. -/
def targetFile (path : Str) : Except Err Str :=
  if DEFAULT_FILE.isSuffixOf path then .ok DEFAULT_FILE
  else do
    let f ← resourceFormat fileExt path
    if f ∈ simpleFormats then return basename path
    else if f = py!"xlsx" then return py!"meta"
    else if f = py!"zip" then return py!"metadata.csv"
    else return basename path

/-- `target_format`, metatab/appurl.py:80-89. -/
def targetFormat (path : Str) : Except Err Str := do
  let f ← resourceFormat fileExt path
  if f ∈ simpleFormats then return f
  else if f = py!"xlsx" then return py!"xlsx"
  else if f = py!"zip" then return py!"csv"
  else return py!"csv"
end

end Metatab
