import Verif.Text
/-
Model of numeric literals: `parse_fixnum`, `parse_luanum` (pico_tokenize.py 731-826) and `float_str_minify`, `format_fixnum`,
`format_luanum` (pico_output.py 7-92, 106-150), with the conversions of pico_defs.py 258-310.
-/
namespace Verif

/-- `str.lower` on ASCII. -/
def lowerChar (c : Nat) : Nat := if 65 ≤ c ∧ c ≤ 90 then c + 32 else c

/-- The digit value of `c` in the given base, if `c in digits` (lower case). -/
def isBaseDigit (base c : Nat) : Bool := match hexVal c with
  | some d => d < base
  | none => false

/-- `value = value * base + digits.index(...)` over the digits. -/
def digitsVal (base : Nat) (s : List Nat) : Nat := s.foldl (fun a c => a * base + (hexVal c).getD 0) 0

/-- `parse_fixnum` (pico_tokenize.py 743-772) after the sign, on lower case text.  The source adds `dotvalue / base**dotdigits` as a
double and truncates `value * 65536`; here the arithmetic is exact (`fix_float_exact` in `Verif/Props/Num.lean` shows that this
makes no difference for the literals the tool writes).  `none` is the error for trailing characters. -/
def parseFixAbs (s : List Nat) : Option Nat :=
  let (base, s) :=
    if s.take 2 = [48, 120] then (16, s.drop 2) else if s.take 2 = [48, 98] then (2, s.drop 2) else (10, s)
  let ip := s.takeWhile (isBaseDigit base)
  match s.dropWhile (isBaseDigit base) with
  | [] => some (digitsVal base ip * 65536 % 2 ^ 32)
  | c :: r =>
    let fp := r.takeWhile (isBaseDigit base)
    if c = 46 ∧ r.dropWhile (isBaseDigit base) = [] then
      some ((digitsVal base ip * base ^ fp.length + digitsVal base fp) * 65536 / base ^ fp.length % 2 ^ 32)
    else none

/-- `parse_fixnum` (pico_tokenize.py 731-777). -/
def parseFixnum (s : List Nat) : Option Nat :=
  match s.map lowerChar with
  | 45 :: r => (parseFixAbs r).map fun f => (2 ^ 32 - f) % 2 ^ 32
  | 126 :: r => (parseFixAbs r).map fun f => 2 ^ 32 - 1 - f
  | r => parseFixAbs r

/-! ### Shortening decimals -/

/-- `float_str_add_1` (pico_output.py 7-15), on the reversed text. -/
def add1R : List Nat → List Nat
  | [] => [49]
  | c :: r => if c = 46 then 46 :: add1R r else if c = 57 then 48 :: add1R r else (c + 1) :: r

/-- The loop of `float_str_minify` (pico_output.py 20-40), on the reversed text; `none` is the error of `check`.  `fuel` bounds the
number of rounds (each one drops a character after the point). -/
def minifyLoop {α : Type} [DecidableEq α] (parse : List Nat → α) (target : α) (keep : Bool) : Nat → Bool → List Nat → Option (List Nat)
  | 0, _, _ => none
  | fuel + 1, ok, rs =>
    if 46 ∈ rs then
      match rs with
      | [] => none
      | c :: r =>
        if c = 46 then some (if keep then c :: r else r)
        else if c = 48 ∧ ok = true then minifyLoop parse target keep fuel ok r
        else if parse r.reverse = target then minifyLoop parse target keep fuel true r
        else if parse (add1R r).reverse = target then minifyLoop parse target keep fuel true (add1R r)
        else if ok then some (c :: r) else none
    else some rs

/-- Last step of `float_str_minify` (pico_output.py 42-43). -/
def stripZero (s : List Nat) : List Nat := if s.take 2 = [48, 46] ∧ s ≠ [48, 46] then s.drop 1 else s

/-- `float_str_minify` (pico_output.py 17-44). -/
def floatStrMinify {α : Type} [DecidableEq α] (parse : List Nat → α) (target : α) (keep : Bool) (s : List Nat) : Option (List Nat) :=
  (minifyLoop parse target keep (s.length + 1) (decide (parse s = target)) s.reverse).map fun rs => stripZero rs.reverse

/-! ### Formatting fixed point numbers -/

/-- `"%x" % n`. -/
def natHex (n : Nat) : List Nat :=
  if _h : n < 16 then [hexDigit n] else natHex (n / 16) ++ [hexDigit (n % 16)]
termination_by n

/-- `"%0kd"`-like: the last `k` digits of `n` in the given base. -/
def padDigits (base : Nat) : Nat → Nat → List Nat
  | 0, _ => []
  | k + 1, n => padDigits base k (n / base) ++ [hexDigit (n % base)]

/-- `s.rstrip('0')`. -/
def rstrip0 (s : List Nat) : List Nat := (s.reverse.dropWhile (· == 48)).reverse

/-- `hexvalue` (pico_output.py 60-63). -/
def fixHex (v : Nat) : List Nat :=
  let ip := v / 65536
  let fp := v % 65536
  if fp ≠ 0 then [48, 120] ++ (if ip = 0 then [] else natHex ip) ++ 46 :: rstrip0 (padDigits 16 4 fp)
  else [48, 120] ++ natHex ip

/-- Rounding of `a / b` to the nearest integer, ties to even, as `"%.6f"` does. -/
def roundHalfEven (a b : Nat) : Nat :=
  let q := a / b
  let r := a % b
  if 2 * r < b then q else if b < 2 * r then q + 1 else if q % 2 = 0 then q else q + 1

/-- `"%.6f" % (v / 65536)`; the quotient is exact in a double for `v < 2^32`. -/
def dec6 (v : Nat) : List Nat :=
  let d := roundHalfEven (v * 10 ^ 6) 65536
  natDigits (d / 10 ^ 6) ++ 46 :: padDigits 10 6 (d % 10 ^ 6)

/-- `decvalue` (pico_output.py 69-70). -/
def fixDec (v : Nat) : Option (List Nat) := floatStrMinify parseFixnum (some v) false (dec6 v)

/-- `minvalue` without sign (pico_output.py 59-76); `none` base means either. -/
def fixBody (base : Option Nat) (v : Nat) : Option (List Nat) :=
  match base with
  | none => (fixDec v).map fun d => if (fixHex v).length < d.length then fixHex v else d
  | some b => if b = 16 then some (fixHex v) else if b = 10 then fixDec v else none

/-- The `sign` argument: `None`, `''`, `'-'` or `'~'`. -/
inductive SignOpt where
  | auto | plain | neg | bnot
deriving DecidableEq

/-- `format_fixnum` with a given sign (pico_output.py 50-55, 78-79). -/
def fixSigned (base : Option Nat) (v : Nat) (sign : SignOpt) : Option (List Nat) :=
  match sign with
  | .neg => (fixBody base ((2 ^ 32 - v) % 2 ^ 32)).map (45 :: ·)
  | .bnot => (fixBody base (2 ^ 32 - 1 - v)).map (126 :: ·)
  | _ => fixBody base v

/-- `format_fixnum` (pico_output.py 48-92). -/
def formatFixnum (base : Option Nat) (v : Nat) (sign : SignOpt) : Option (List Nat) :=
  match sign with
  | .auto =>
    match fixBody base v with
    | none => none
    | some m =>
      if v ≥ 2 ^ 31 ∧ v ≠ 2 ^ 31 then
        match fixSigned base v .neg, fixSigned base v .bnot with
        | some n, some b =>
          let m := if n.length < m.length then n else m
          some (if b.length < m.length then b else m)
        | _, _ => none
      else some m
  | s => fixSigned base v s

/-! ### Lua integers -/

/-- `num_to_luaint` (pico_defs.py 299-303). -/
def toLuaInt (v : Int) : Int := let m := v % 2 ^ 64; if m ≥ 2 ^ 63 then m - 2 ^ 64 else m

/-- What `parse_luanum` (pico_tokenize.py 779-826) gives for an unsigned literal: an integer, something else (a float, left opaque),
or an error.  Only plain digits are accepted by `int(...)` here (no underscores). -/
inductive LuaLit where
  | int (v : Int)
  | float
  | bad
deriving DecidableEq

/-- `parse_luanum` without sign, on lower case text. -/
def parseLuaAbs (s : List Nat) : LuaLit :=
  if s.take 2 = [48, 120] then
    if 46 ∈ s ∨ 112 ∈ s then .float
    else if s.drop 2 ≠ [] ∧ (s.drop 2).all (isBaseDigit 16) then .int (toLuaInt (digitsVal 16 (s.drop 2)))
    else .bad
  else if s.take 2 = [48, 98] then
    if 46 ∈ s then .float
    else if s.drop 2 ≠ [] ∧ (s.drop 2).all (isBaseDigit 2) then .int (toLuaInt (digitsVal 2 (s.drop 2)))
    else .bad
  else if 46 ∈ s ∨ 101 ∈ s then .float
  else if s ≠ [] ∧ s.all (isBaseDigit 10) then
    if digitsVal 10 s < 2 ^ 63 then .int (toLuaInt (digitsVal 10 s)) else .float
  else .bad

/-- The integer denoted by a literal with an optional unary operator in front: the operator is a token of its own
(pico_minify.py 491-495) and works on 64 bits. -/
def luaDenotes (s : List Nat) : LuaLit :=
  match s with
  | 45 :: r => match parseLuaAbs r with
    | .int v => .int (toLuaInt (-v))
    | x => x
  | 126 :: r => match parseLuaAbs r with
    | .int v => .int (toLuaInt (-v - 1))
    | x => x
  | r => parseLuaAbs r

/-- `minvalue` of `format_luanum` for an integer (pico_output.py 119-135), `v` already reduced to 64 bits. -/
def luaBody (base : Option Nat) (v : Nat) : Option (List Nat) :=
  let hex := [48, 120] ++ natHex v
  let dec := natDigits v
  match base with
  | none => some (if v ≥ 2 ^ 63 then hex else if hex.length < dec.length then hex else dec)
  | some b => if b = 16 then some hex else if b = 10 then some dec else none

/-- `format_luanum` for an integer with a given sign. -/
def luaSigned (base : Option Nat) (v : Int) (sign : SignOpt) : Option (List Nat) :=
  match sign with
  | .neg => (luaBody base ((-v) % 2 ^ 64).toNat).map (45 :: ·)
  | .bnot => (luaBody base ((-v - 1) % 2 ^ 64).toNat).map (126 :: ·)
  | _ => luaBody base (v % 2 ^ 64).toNat

/-- `format_luanum` for an integer (pico_output.py 106-150). -/
def formatLuaInt (base : Option Nat) (allowNot : Bool) (v : Int) (sign : SignOpt) : Option (List Nat) :=
  match sign with
  | .auto =>
    let m := (v % 2 ^ 64).toNat
    match luaBody base m with
    | none => none
    | some t =>
      if m ≥ 2 ^ 63 ∧ m ≠ 2 ^ 63 then
        match luaSigned base v .neg, luaSigned base v .bnot with
        | some n, some b =>
          let t := if n.length < t.length then n else t
          some (if allowNot ∧ b.length < t.length then b else t)
        | _, _ => none
      else some t
  | s => luaSigned base v s

end Verif
