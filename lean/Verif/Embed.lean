import Verif.StrLit
import Verif.Lex
/-!
Model of how scripts put binary data into the code (README.md, "Custom Scripts"): `bytes_to_string_contents` (pico_utils.py 354-359) and `str.replace`.
-/
namespace Verif.Embed

/-- `bytes_to_string_contents` (pico_utils.py 354-359).  Bytes and characters are the same numbers here (`decode_p8str`, pico_defs.py 226-228).  The defaults
`use_ctrl_chars=True, use_complex_long=True` are those of `format_string_literal` (pico_output.py 220). -/
def contents (isDig : Nat → Bool) (data : List Nat) : List Nat := ((formatLiteral isDig true true (some false) (some 34) data).drop 1).dropLast

/-- Python's `str.replace` for a marker that is not empty: the occurrences from the left.  `fuel` bounds their number. -/
def replaceFuel (marker new : List Nat) : Nat → List Nat → List Nat
  | 0, s => s
  | fuel + 1, s => match splitAt marker s with
    | none => s
    | some (a, b) => a ++ new ++ replaceFuel marker new fuel b

/-- `code.replace(marker, new)`. -/
def replace (marker new code : List Nat) : List Nat := replaceFuel marker new code.length code

end Verif.Embed
