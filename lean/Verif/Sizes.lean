import Verif.Text
/-!
Reporting sizes with `--count` (pico_compress.py 4-19, pico_process.py 296-297, pico_cart.py 547-548, picotron_cart.py 163-164).
Text is a list of Unicode code points.
-/
namespace Verif.Sizes

/-- The nearest integer to `a / b`, the even one of two: rounding of Python's `%` formatting.  Python divides in doubles first
(pico_compress.py 8); here the quotient is exact.  A quotient that
is no tie is at least `1 / (2 * limit)` away from one, further than the error of the doubles for the limits of the tool, and for the
limits 8192 and 15616 ties are exact in doubles, so these round alike; for 2040 a tie (like 51 of 2040) could be rounded the other way. -/
def nearest (a b : Nat) : Nat :=
  if 2 * (a % b) < b then a / b
  else if b < 2 * (a % b) then a / b + 1
  else a / b + a / b % 2

/-- `"%.2f%%" % percent` (pico_compress.py 9, 13), for the percentage `100 * size / limit`. -/
def fmt2 (size limit : Nat) : List Nat :=
  let h := nearest (10000 * size) limit
  natDigits (h / 100) ++ [46, 48 + h % 100 / 10, 48 + h % 10, 37]

/-- `"%.0f%%" % percent` (pico_compress.py 9, 13). -/
def fmt0 (size limit : Nat) : List Nat := natDigits (nearest (100 * size) limit) ++ [37]

/-- `fmt % percent` (pico_compress.py 8-9, 13). -/
def percent (size limit : Nat) : List Nat :=
  if 95 * limit ≤ 100 * size then fmt2 size limit else fmt0 size limit

/-- `print_size` (pico_compress.py 4-13) without a handler of the caller: the line that is printed.  An absent or empty prefix is
`[]`. -/
def printSize (name : List Nat) (size limit : Nat) (pre : List Nat) : List Nat :=
  (if pre = [] then name else pre ++ 32 :: name) ++ [58, 32] ++ natDigits size ++ [32] ++ percent size limit ++ [10]

/-- `print_token_count` (pico_process.py 296-297). -/
def printTokens (n : Nat) (pre : List Nat) : List Nat := printSize [116, 111, 107, 101, 110, 115] n 8192 pre

/-- `print_code_size` (pico_compress.py 15-16). -/
def printChars (n : Nat) (pre : List Nat) : List Nat := printSize [99, 104, 97, 114, 115] n 0xffff pre

/-- `print_compressed_size` (pico_compress.py 18-19); `k_code_size` is `0x8000 - 0x4300` (pico_defs.py 116-118). -/
def printCompressed (n : Nat) (pre : List Nat) : List Nat :=
  printSize [99, 111, 109, 112, 114, 101, 115, 115, 101, 100] n (0x8000 - 0x4300) pre

/-- `print_url_size` (pico_cart.py 547-548); `k_url_size` and `k_url_prefix_size` are 2040 and 4 (pico_defs.py 120-121).  Every URL is longer than the prefix. -/
def printUrl (n : Nat) (pre : List Nat) : List Nat := printSize [117, 114, 108] (n - 4) 2040 pre

/-- `print_rom_compressed_size` (picotron_cart.py 163-164), with `k_cart64_size` (picotron_cart.py 159). -/
def printTron (n : Nat) (pre : List Nat) : List Nat :=
  printSize [99, 111, 109, 112, 114, 101, 115, 115, 101, 100] n 0x40000 pre

end Verif.Sizes
