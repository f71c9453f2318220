import Verif.Model.Parser
/-! # Finding declaration files (metatab/parser.py:235-280, metatab/util.py:20-36, metatab/resolver.py:16-19) -/
namespace Metatab
open Py

/-- What the search sees of the file system. -/
structure Shelf where
  /-- `os.path.exists` -/
  has : Str → Bool
  /-- `dirname(metatabdecl.__file__)`, the directory of the package of declarations -/
  pkg : Str

/-- `declaration_path`, metatab/util.py:20-36; `none` is `IncludeError`. -/
def declarationPath (k : Shelf) (name : Str) : Option Str :=
  let path := pathJoin k.pkg name
  let path := if !k.has path then pathJoin k.pkg (name ++ py!".csv") else path
  if !k.has path then none else some path

/-- `find_declare_doc`, metatab/parser.py:235-280, up to the final `parse_app_url`. The last test of `exists(name)` (line 269) is never
true, since the first one was not. `WebResolver.find_decl_doc` always raises `IncludeError` (metatab/resolver.py:16-19). -/
def findDeclareDoc (k : Shelf) (d name : Str) : Except Err Str :=
  if k.has name then .ok name
  else match declarationPath k name with
    | some path => .ok path
    | none =>
      if k.has (pathJoin d name) then .ok (pathJoin d name)
      else if k.has (pathJoin d (name ++ py!".csv")) then .ok (pathJoin d (name ++ py!".csv"))
      else if startsWith (py!"http") name then .ok (stripChar '/' name)
      else if k.has name then .ok name
      else .error .includeError

end Metatab
