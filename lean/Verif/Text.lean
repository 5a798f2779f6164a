/-
Python text helpers shared by the text formats.  A text is a list of code points.
-/
namespace Verif

/-- `str.isspace` on one character: what `str.strip()` and `str.split()` remove. -/
def pyIsSpace (c : Nat) : Bool :=
  (9 ≤ c && c ≤ 13) || (28 ≤ c && c ≤ 32) || c == 0x85 || c == 0xa0 || c == 0x1680 || (0x2000 ≤ c && c ≤ 0x200a) ||
    c == 0x2028 || c == 0x2029 || c == 0x202f || c == 0x205f || c == 0x3000

/-- `str.rstrip()`. -/
def pyRstrip (s : List Nat) : List Nat := (s.reverse.dropWhile pyIsSpace).reverse

/-- `str.strip()`. -/
def pyStrip (s : List Nat) : List Nat := pyRstrip (s.dropWhile pyIsSpace)

/-- `str.split("\n")`: the pieces between line feeds, always at least one. -/
def splitNl : List Nat → List (List Nat)
  | [] => [[]]
  | c :: cs =>
    if c = 10 then [] :: splitNl cs
    else match splitNl cs with
      | [] => [[c]]
      | l :: ls => (c :: l) :: ls

/-- Remove one trailing carriage return: the effect of the `\r?` in `re.split("\r?\n", s)` on a piece that a line feed ends. -/
def dropCr (s : List Nat) : List Nat := if s.getLast? = some 13 then s.dropLast else s

/-- `p8_split_lines` (pico_cart.py 342-346): `re.split("\r?\n", s)` without a final empty piece.  All pieces but the last
are ended by a line feed. -/
def p8SplitLines (s : List Nat) : List (List Nat) :=
  let pieces := splitNl s
  let split := pieces.dropLast.map dropCr ++ pieces.drop (pieces.length - 1)
  if split.getLast? = some [] then split.dropLast else split

/-- `"\n".join(lines)`. -/
def joinNl : List (List Nat) → List Nat
  | [] => []
  | [l] => l
  | l :: l' :: ls => l ++ 10 :: joinNl (l' :: ls)

/-- The value of a hexadecimal digit in ASCII. -/
def hexVal (c : Nat) : Option Nat :=
  if 48 ≤ c ∧ c ≤ 57 then some (c - 48)
  else if 97 ≤ c ∧ c ≤ 102 then some (c - 87)
  else if 65 ≤ c ∧ c ≤ 70 then some (c - 55)
  else none

/-- A lower case hexadecimal digit (`'%x' % n` for `n < 16`). -/
def hexDigit (n : Nat) : Nat := if n < 10 then 48 + n else 87 + n

/-- Decimal digits of `n`, most significant first (`str(n)`). -/
def natDigits (n : Nat) : List Nat :=
  if h : n < 10 then [48 + n] else natDigits (n / 10) ++ [48 + n % 10]
termination_by n

/-- `int(s)` restricted to a non-empty run of ASCII digits (Python also accepts a sign, spaces, underscores and other
scripts' digits; those are `none` here). -/
def parseNat (s : List Nat) : Option Nat :=
  if s = [] then none
  else s.foldl (fun acc c => acc.bind fun a => if 48 ≤ c ∧ c ≤ 57 then some (a * 10 + (c - 48)) else none) (some 0)

end Verif
