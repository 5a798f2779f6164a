import Verif.Text
import Verif.Charset
/-!
Model of the address of a cart of the BBS (`--bbs`): `get_bbs_cart_url` (pico_cart.py 737-751).  Text is a list of Unicode code points.
-/
namespace Verif.Bbs

/-- `Language.pico8` and `Language.picotron`, the languages that have carts on the BBS. -/
inductive Lang
  | pico8 | picotron
deriving DecidableEq

/-- A character in UTF-8 as `str.encode` does it, without error handler: `none` is the `UnicodeEncodeError` of a surrogate. -/
def utf8Strict (c : Nat) : Option (List Nat) := if 0xd800 ≤ c ∧ c < 0xe000 then none else utf8SurrogateEscape c

/-- The characters that `urllib.parse.quote` always keeps: ASCII letters, digits and `_.-~`. -/
def safe (b : Nat) : Bool :=
  (decide (48 ≤ b) && decide (b ≤ 57)) || (decide (65 ≤ b) && decide (b ≤ 90)) || (decide (97 ≤ b) && decide (b ≤ 122)) ||
    b == 95 || b == 46 || b == 45 || b == 126

/-- A digit of `"%{:02X}"`. -/
def upperHex (n : Nat) : Nat := if n < 10 then 48 + n else 55 + n

/-- One byte in `urllib.parse.quote_plus`. -/
def quoteByte (b : Nat) : List Nat :=
  if b = 32 then [43] else if safe b then [b] else [37, upperHex (b / 16), upperHex (b % 16)]

/-- `urllib.parse.quote_plus(text)`, which `urlencode` calls for names and values. -/
def quotePlus (t : List Nat) : Option (List Nat) := (t.mapM utf8Strict).map fun bs => bs.flatten.flatMap quoteByte

/-- `"https://www.lexaloffle.com/bbs/get_cart.php?"` (pico_cart.py 751). -/
def address : List Nat := "https://www.lexaloffle.com/bbs/get_cart.php?".toList.map Char.toNat

/-- `category` (pico_cart.py 741-746) as text. -/
def category : Lang → List Nat
  | .pico8 => [55]
  | .picotron => [56]

/-- `get_bbs_cart_url` (pico_cart.py 737-751): `urlencode` of the two parameters joins `name=value` by `&`.  `none` is an error. -/
def cartUrl (id : List Nat) (lang : Lang) : Option (List Nat) :=
  match id with
  | 35 :: name => (quotePlus name).map fun q => address ++ ([108, 105, 100, 61] ++ q ++ [38, 99, 97, 116, 61] ++ category lang)
  | _ => none

end Verif.Bbs
