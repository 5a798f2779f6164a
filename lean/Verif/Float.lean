import Verif.Num
/-
Model of floating point literals of Picotron: the floating point parts of `parse_luanum` (pico_tokenize.py 789-822) and `format_luanum`
(pico_output.py 97-104, 152-207).

A floating point number that is not negative is the 64 bits that represent it.  What Python does with such numbers is modelled as IEEE 754 says:
`float`, `float.fromhex`, `math.ldexp` and conversions round to the nearest number, ties to even, and `%` prints the exact value rounded to the
nearest decimal.
-/
namespace Verif

/-- The bits of infinity: 2047 in the exponent. -/
def infBits : Nat := 2047 * 2 ^ 52

/-- The exponent of a number, above that of the smallest ones. -/
def dblExp (n : Nat) : Nat := n / 2 ^ 52 - 1

/-- The bits of the value itself, with the leading one. -/
def dblMan (n : Nat) : Nat := n - dblExp n * 2 ^ 52

/-- The value of a finite number in units of 2^-1074: all of them are multiples of it. -/
def dbl (n : Nat) : Nat := dblMan n * 2 ^ dblExp n

/-- The number nearest to `a / b` of these units, ties to even; infinity if it is too large. -/
def nearest (a b : Nat) : Nat :=
  let e := (a / b).log2 - 52
  min infBits (e * 2 ^ 52 + roundHalfEven a (b * 2 ^ e))

/-- The number nearest to `a / b`. -/
def toDbl (a b : Nat) : Nat := nearest (a * 2 ^ 1074) b

/-! ### Reading -/

/-- Digits, with an optional sign. -/
def readSigned (s : List Nat) : Option Int :=
  let digits := fun r : List Nat => if r ≠ [] ∧ r.all (isBaseDigit 10) then some (digitsVal 10 r) else none
  match s with
  | 45 :: r => (digits r).map fun v => -(v : Int)
  | 43 :: r => (digits r).map fun v => (v : Int)
  | r => (digits r).map fun v => (v : Int)

/-- Digits with an optional point, in the given base, then optionally `mark` and an exponent of `rad`, which is a decimal.  (Python's `float` and
`float.fromhex` also take names such as `nan`, underscores, and spaces around the number, which numeric tokens do not have or which Lua refuses.) -/
def readFloat (base mark rad : Nat) (s : List Nat) : Option Nat :=
  let m := s.takeWhile (· != mark)
  let ip := m.takeWhile (isBaseDigit base)
  let fp := match m.dropWhile (isBaseDigit base) with
    | [] => some []
    | c :: r => if c = 46 ∧ r.all (isBaseDigit base) then some r else none
  let e := match s.dropWhile (· != mark) with
    | [] => some 0
    | _ :: r => readSigned r
  match fp, e with
  | some fp, some e =>
    if ip ++ fp = [] then none
    else some (toDbl (digitsVal base (ip ++ fp) * rad ^ e.toNat) (base ^ fp.length * rad ^ (-e).toNat))
  | _, _ => none

/-- `float(str)` on decimals. -/
def readDec (s : List Nat) : Option Nat := readFloat 10 101 10 s

/-- pico_tokenize.py 801-813 after `0b`, with a point: the point is taken out, the digits are converted (too many of them overflow), and the result
is divided. -/
def readBin (s : List Nat) : Option Nat :=
  let ip := s.takeWhile (· != 46)
  let fp := (s.dropWhile (· != 46)).drop 1
  if ip ++ fp ≠ [] ∧ (ip ++ fp).all (isBaseDigit 2) then
    let r := toDbl (digitsVal 2 (ip ++ fp)) 1
    some (if r = infBits then infBits else toDbl (dbl r) (2 ^ 1074 * 2 ^ fp.length))
  else none

/-- `parse_luanum` (pico_tokenize.py 779-826) on lower case text without sign that gives no integer (see `parseLuaAbs`); `none` for errors.  Decimals
without point and exponent that are too large even for a float are errors here (`float(value)` raises an `OverflowError`). -/
def parseFloatAbs (s : List Nat) : Option Nat :=
  if s.take 2 = [48, 120] then readFloat 16 112 2 (s.drop 2)
  else if s.take 2 = [48, 98] then readBin (s.drop 2)
  else if 46 ∈ s ∨ 101 ∈ s then readDec s
  else if s ≠ [] ∧ s.all (isBaseDigit 10) then
    if toDbl (digitsVal 10 s) 1 = infBits then none else some (toDbl (digitsVal 10 s) 1)
  else none

/-! ### Writing -/

/-- `str(k)` of an integer. -/
def intText (k : Int) : List Nat := if k < 0 then 45 :: natDigits k.natAbs else natDigits k.natAbs

/-- `"%.24f" % value`. -/
def dec24 (n : Nat) : List Nat :=
  let d := roundHalfEven (dbl n * 10 ^ 24) (2 ^ 1074)
  natDigits (d / 10 ^ 24) ++ 46 :: padDigits 10 24 (d % 10 ^ 24)

/-- The exponent of the first digit of a number that is not zero: `10 ^ k ≤ value < 10 ^ (k + 1)`. -/
def decExp (n : Nat) : Int := ((natDigits (dbl n * 10 ^ 400 / 2 ^ 1074)).length : Int) - 401

/-- The twenty digits of `"%.19e" % value`, as a number. -/
def dec20 (n : Nat) : Nat := roundHalfEven (dbl n * 10 ^ (19 - decExp n).toNat) (2 ^ 1074 * 10 ^ (decExp n - 19).toNat)

/-- `manstr` and `int(expstr)` (pico_output.py 185-186): `"%.19e" % value`. -/
def decSci (n : Nat) : List Nat × Int :=
  if n = 0 then (48 :: 46 :: List.replicate 19 48, 0)
  else if dec20 n = 10 ^ 20 then (49 :: 46 :: List.replicate 19 48, decExp n + 1)
  else (natDigits (dec20 n / 10 ^ 19) ++ 46 :: padDigits 10 19 (dec20 n % 10 ^ 19), decExp n)

/-- `s.rstrip('.')`. -/
def rstripDot (s : List Nat) : List Nat := (s.reverse.dropWhile (· == 46)).reverse

/-- `float_hex` (pico_output.py 97-104) given `int(abs(value) * (1 << (hexdigits * 4)))`; `hexval[:-hexdigits]` is empty if there are only that many
digits. -/
def floatHex (x k : Nat) (keep : Bool) : List Nat :=
  let hexval := (if x < 16 ^ k then [] else natHex (x / 16 ^ k)) ++ 46 :: padDigits 16 k (x % 16 ^ k)
  let r := rstrip0 ([48, 120] ++ hexval)
  let r := if keep then r else rstripDot r
  if r = [48, 120] ∨ r = [48, 120, 46] then [48, 120, 48] else r

/-- `hexvalue` (pico_output.py 168-179): `frexp` gives the bits between 1 and 2, or 0, with exponent -1 after pico_output.py 170. -/
def floatHexValue (n : Nat) : List Nat :=
  let m := dblMan n
  let expvalue := floatHex (m * 2 ^ (224 - m.log2)) 56 false ++ 112 :: intText (if n = 0 then -1 else (dblExp n : Int) + m.log2 - 1074)
  if n = 0 ∨ toDbl 1 (10 ^ 4) ≤ n ∧ n ≤ toDbl (10 ^ 24) 1 then
    let hexvalue := floatHex (dbl n * 2 ^ 352 / 2 ^ 1074) 88 true
    if expvalue.length < hexvalue.length then expvalue else hexvalue
  else expvalue

/-- `decvalue` (pico_output.py 184-194). -/
def floatDecValue (n : Nat) : Option (List Nat) :=
  let expstr := 101 :: intText (decSci n).2
  (floatStrMinify (fun v => readDec (v ++ expstr)) (some n) false (decSci n).1).bind fun m =>
    let expvalue := m ++ expstr
    if n = 0 ∨ toDbl 1 (10 ^ 3) ≤ n ∧ n ≤ toDbl (10 ^ 21) 1 then
      (floatStrMinify readDec (some n) true (dec24 n)).map fun d => if expvalue.length < d.length then expvalue else d
    else some expvalue

/-- `format_luanum` (pico_output.py 152-207) for a floating point number that is not negative, in any base, where a sign may be left out.  `none` is
the error of `check` in `float_str_minify`. -/
def formatFloat (n : Nat) : Option (List Nat) :=
  if n = infBits then some [49, 101, 51, 51, 51]
  else (floatDecValue n).map fun d => if (floatHexValue n).length < d.length then floatHexValue n else d

end Verif
