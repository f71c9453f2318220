import Verif.Model.Parser
/-! # The constructor of a document with declarations (metatab/doc.py:34-90) -/
namespace Metatab
open Py

/-- `MetatabDoc(ref, decl=decls)`, metatab/doc.py:34-90. The declarations are loaded first, then the rows of the source, if there is one:
`path` is its path, `[]` for row sources without one. Not modelled: the cache, the modification time, and `SourceError`, which the package
rowgenerators raises and which is turned into `MetatabError`. -/
def openWith (files : Files) (fuel : Nat) (env : Env) (classes : Dict Cls) (decls : List Str) (src : Option (Str × List (List Str))) : Res Unit :=
  match loadDeclarations files fuel decls (newDoc env classes) with
  | .err e s => .err e s
  | .ok _ s =>
    match src with
    | none => .ok () s
    | some (path, rows) => parseRows files fuel path rows s

end Metatab
