/-!
# Python `str` as `List Char`

The operations of Python's `str` that `/repo/metatab` uses. These are the built-ins the code relies on, not code of the
repository: they are part of the trusted base (see DESIGN.md). Case mapping is exact on ASCII and the identity elsewhere.
-/

/-- `py!"abc"` is the list of characters `['a','b','c']`, spelled out by the macro so that it reduces. -/
macro "py!" s:str : term => do
  let cs := (s.getString.toList.map fun c => Lean.Syntax.mkCharLit c).toArray
  `(([$cs,*] : List Char))

namespace Py

/-- A Python `str`. -/
abbrev Str := List Char

/-- `str.isspace` for one character: the full set of Python white space. -/
def isSpace (c : Char) : Bool :=
  let n := c.toNat
  (9 ≤ n && n ≤ 13) || (28 ≤ n && n ≤ 32) || n == 0x85 || n == 0xA0 || n == 0x1680 ||
  (0x2000 ≤ n && n ≤ 0x200A) || n == 0x2028 || n == 0x2029 || n == 0x202F || n == 0x205F || n == 0x3000

/-- ASCII upper-case letter. -/
def isUpper (c : Char) : Bool := 65 ≤ c.toNat && c.toNat ≤ 90
/-- ASCII lower-case letter. -/
def isLower (c : Char) : Bool := 97 ≤ c.toNat && c.toNat ≤ 122
/-- ASCII decimal digit. -/
def isDigit (c : Char) : Bool := 48 ≤ c.toNat && c.toNat ≤ 57

/-- Lower-case one character (ASCII; identity elsewhere: simplification). -/
def lowerC (c : Char) : Char := if isUpper c then Char.ofNat (c.toNat + 32) else c
/-- Upper-case one character (ASCII; identity elsewhere: simplification). -/
def upperC (c : Char) : Char := if isLower c then Char.ofNat (c.toNat - 32) else c

/-- `str.lower()`. -/
def lower (s : Str) : Str := s.map lowerC

/-- `str.lstrip()`. -/
def lstrip (s : Str) : Str := s.dropWhile isSpace
/-- `str.rstrip()`. -/
def rstrip (s : Str) : Str := (s.reverse.dropWhile isSpace).reverse
/-- `str.strip()`. -/
def strip (s : Str) : Str := rstrip (lstrip s)

/-- `str.strip(chars)` for one character. -/
def stripChar (c : Char) (s : Str) : Str :=
  ((s.dropWhile (· == c)).reverse.dropWhile (· == c)).reverse

/-- `str.split(sep)` for a one-character separator: never empty, keeps empty pieces. -/
def splitOn (sep : Char) : Str → List Str
  | [] => [[]]
  | c :: cs =>
    if c = sep then [] :: splitOn sep cs
    else match splitOn sep cs with
      | [] => [[c]]
      | h :: t => (c :: h) :: t

/-- `sep.join(parts)`. -/
def join (sep : Str) : List Str → Str
  | [] => []
  | [a] => a
  | a :: b :: rest => a ++ sep ++ join sep (b :: rest)

/-- `str.split(sep, 1)` for a one-character separator: the part before the first separator and the rest, if any. -/
def split1 (sep : Char) : Str → Str × Option Str
  | [] => ([], none)
  | c :: cs => if c = sep then ([], some cs) else
      let r := split1 sep cs
      (c :: r.1, r.2)

/-- Worker of `replace`; the first argument counts characters still to be skipped after a match. -/
def replaceGo (pat rep : Str) : Nat → Str → Str
  | _, [] => []
  | k + 1, _ :: cs => replaceGo pat rep k cs
  | 0, c :: cs =>
    if pat.isPrefixOf (c :: cs) then rep ++ replaceGo pat rep (pat.length - 1) cs
    else c :: replaceGo pat rep 0 cs

/-- `str.replace(pat, rep)` for a non-empty `pat`: left to right, not overlapping. -/
def replace (pat rep : Str) (s : Str) : Str := replaceGo pat rep 0 s

/-- Worker of `title`: the flag tells whether the previous character is cased. -/
def titleGo : Bool → Str → Str
  | _, [] => []
  | prev, c :: cs =>
    (if prev then lowerC c else upperC c) :: titleGo (isUpper c || isLower c) cs

/-- `str.title()`. -/
def title (s : Str) : Str := titleGo false s

/-- `str.startswith(pre)`. -/
def startsWith (pre s : Str) : Bool := pre.isPrefixOf s

/-- The characters at which `str.splitlines` breaks. -/
def isLineBreak (c : Char) : Bool :=
  let n := c.toNat
  (10 ≤ n && n ≤ 13) || (28 ≤ n && n ≤ 30) || n == 0x85 || n == 0x2028 || n == 0x2029

/-- Worker of `splitlines`: whether the line just ended with `\r`, and the current line (reversed). -/
def splitlinesGo : Bool → Str → Str → List Str
  | _, acc, [] => if acc = [] then [] else [acc.reverse]
  | afterCR, acc, c :: cs =>
    if afterCR && c = '\n' then splitlinesGo false acc cs
    else if isLineBreak c then acc.reverse :: splitlinesGo (c = '\r') [] cs
    else splitlinesGo false (c :: acc) cs

/-- `str.splitlines()`: no final empty line. -/
def splitlines (s : Str) : List Str := splitlinesGo false [] s

/-- The digit `0 ≤ d < 10`. -/
def digitC (d : Nat) : Char := Char.ofNat (48 + d)

/-- Worker of `natStr`. -/
def natStrGo : Nat → Nat → Str
  | 0, n => [digitC (n % 10)]
  | f + 1, n => if n < 10 then [digitC n] else natStrGo f (n / 10) ++ [digitC (n % 10)]

/-- `str(n)` for a natural number. -/
def natStr (n : Nat) : Str := natStrGo n n

/-- `str(i)` for an integer. -/
def intStr : Int → Str
  | .ofNat n => natStr n
  | .negSucc n => '-' :: natStr (n + 1)

/-- Digits, with single underscores allowed between digits; the flag tells whether the previous character was a digit. -/
def digitsVal : Bool → Nat → Str → Option Nat
  | prev, acc, [] => if prev then some acc else none
  | prev, acc, c :: cs =>
    if isDigit c then digitsVal true (acc * 10 + (c.toNat - 48)) cs
    else if c = '_' && prev then
      match cs with
      | [] => none
      | _ => digitsVal false acc cs
    else none

/-- `int(s)` for a string: outer white space, an optional sign, ASCII digits; `none` is `ValueError`. -/
def pyInt (s : Str) : Option Int :=
  match strip s with
  | '-' :: cs => (digitsVal false 0 cs).map fun n => - (n : Int)
  | '+' :: cs => (digitsVal false 0 cs).map fun n => (n : Int)
  | cs => (digitsVal false 0 cs).map fun n => (n : Int)

/-! ## Python `dict` with string keys, insertion ordered -/

/-- A `dict` with string keys. -/
abbrev Dict (α : Type) := List (Str × α)

namespace Dict
variable {α : Type}

/-- `d.get(k)`. -/
def get? : Dict α → Str → Option α
  | [], _ => none
  | (k, v) :: rest, x => if k = x then some v else get? rest x

/-- `d[k] = v`: replaces in place or appends. -/
def set : Dict α → Str → α → Dict α
  | [], x, v => [(x, v)]
  | (k, w) :: rest, x, v => if k = x then (k, v) :: rest else (k, w) :: set rest x v

/-- `del d[k]` when present. -/
def del : Dict α → Str → Dict α
  | [], _ => []
  | (k, w) :: rest, x => if k = x then rest else (k, w) :: del rest x

/-- `k in d`. -/
def has (d : Dict α) (x : Str) : Bool := (get? d x).isSome

/-- `d.keys()`. -/
def keys (d : Dict α) : List Str := d.map (·.1)

/-- `d.update(e)`. -/
def update (d e : Dict α) : Dict α := e.foldl (fun acc kv => set acc kv.1 kv.2) d

end Dict

end Py
