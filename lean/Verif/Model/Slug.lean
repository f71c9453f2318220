import Verif.Py.Str
/-! # `slugify` (metatab/util.py:40-51) -/
namespace Metatab
open Py

/-- ASCII character (`encode('ascii', 'ignore')` keeps exactly these, metatab/util.py:48). -/
def isAscii (c : Char) : Bool := c.toNat < 128

/-- Characters the first substitution keeps: `[\w\s\-\.]`, on ASCII text (metatab/util.py:49). -/
def slugKeep (c : Char) : Bool :=
  isUpper c || isLower c || isDigit c || c == '_' || isSpace c || c == '-' || c == '.'

/-- `re.sub(r'[-\s]+', '-', value)` (metatab/util.py:50); the flag tells whether the previous character belongs to the run. -/
def collapse : Bool → Str → Str
  | _, [] => []
  | inRun, c :: cs =>
    if c = '-' ∨ isSpace c = true then (if inRun then collapse true cs else '-' :: collapse true cs)
    else c :: collapse false cs

/-- `slugify`, metatab/util.py:40-51. `nfkd` is `unicodedata.normalize('NFKD', ·)`, a parameter of the model. -/
def slugify (nfkd : Str → Str) (s : Str) : Str :=
  let v := lower (strip ((nfkd s).filter isAscii))
  collapse false (v.filter slugKeep)

end Metatab
