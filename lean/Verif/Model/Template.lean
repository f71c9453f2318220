import Verif.Py.Str
/-! # The template for new files (metatab/templates/metatab.csv) -/
namespace Metatab
open Py

/-- The text of metatab/templates/metatab.csv:1-22, the template that `new_metatab_file` uses unless another is named
(metatab/cli.py:211). -/
def templateCsv : Str :=
  py!"Declare,metatab-latest,,,\n" ++ py!"Title,,,,\n" ++ py!"Description,,,,\n" ++ py!"Identifier,,,,\n" ++ py!"Name,,,,\n" ++
  py!"Dataset,,,,\n" ++ py!"Origin,,,,\n" ++ py!"Space,,,,\n" ++ py!"Time,,,,\n" ++ py!"Grain,,,,\n" ++ py!"Variant,,,,\n" ++
  py!"Version,1,,,\n" ++ py!",,,,\n" ++ py!"Section,References,Name,Description,\n" ++ py!",,,,\n" ++
  py!"Section,Resources,Name,Description,\n" ++ py!",,,,\n" ++ py!"Section ,Documentation,Title,Description,\n" ++ py!",,,,\n" ++
  py!"Section,Contacts,Email,Organization,Url\n" ++ py!",,,,\n" ++ py!"Section,Schema,DataType,AltName,Description\n"

end Metatab
