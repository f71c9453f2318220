import Verif.Py.Str
/-! # The Lines format reader: `TextRowGenerator.__iter__` (metatab/rowgen.py:183-204)

The text itself comes from a path, file handle, URL or string (see Model/TextSource). -/
namespace Metatab
open Py

/-- `re.split(r'(?<!\\)\|', s)`, metatab/rowgen.py:202: split at pipes not preceded by a backslash. The flag tells whether the
previous character is a backslash. -/
def splitPipes : Bool → Str → List Str
  | _, [] => [[]]
  | prev, c :: cs =>
    if c = '|' ∧ prev = false then [] :: splitPipes false cs
    else match splitPipes (c = '\\') cs with
      | [] => [[c]]
      | h :: t => (c :: h) :: t

/-- `e.replace('\|','|')`, metatab/rowgen.py:202. -/
def unescapePipe (s : Str) : Str := replace ['\\', '|'] ['|'] s

/-- One line of the Lines format, metatab/rowgen.py:186-204; `none` when the line is skipped. -/
def textRow (line : Str) : Option (List Str) :=
  if (lstrip line).head? = some '#' then none
  else
    let line := if startsWith (py!"====") line then py!"Section:" ++ line.dropWhile (· == '=') else line
    match split1 ':' line with
    | (a, none) => some [strip a]
    | (a, some b) => some (strip a :: (splitPipes false (strip b)).map unescapePipe)

/-- `TextRowGenerator(text)`, metatab/rowgen.py:170, 183-204. -/
def textRows (text : Str) : List (List Str) := (splitlines text).filterMap textRow

end Metatab
