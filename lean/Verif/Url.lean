import Verif.Rom
import Verif.Text
/-
Model of the cart URL and the clipboard text (pico_cart.py 532-657).
-/
namespace Verif

/-- `k_base64_chars` (537): the character for a 6-bit value. -/
def b64Char (n : Nat) : Nat := if n < 26 then 65 + n else if n < 52 then 71 + n else if n < 62 then n - 4 else if n = 62 then 95 else 45

/-- `k_base64_char_map` (539); `none` is `KeyError`. -/
def b64Val (c : Nat) : Option Nat :=
  if 65 ≤ c ∧ c ≤ 90 then some (c - 65)
  else if 97 ≤ c ∧ c ≤ 122 then some (c - 71)
  else if 48 ≤ c ∧ c ≤ 57 then some (c + 4)
  else if c = 95 then some 62
  else if c = 45 then some 63
  else none

/-- `pico_base64_encode` (541-542): `base64.b64encode` with the two alternative characters. -/
def b64Encode : List Nat → List Nat
  | a :: b :: c :: r =>
    b64Char (a / 4) :: b64Char (a % 4 * 16 + b / 16) :: b64Char (b % 16 * 4 + c / 64) :: b64Char (c % 64) :: b64Encode r
  | [a, b] => [b64Char (a / 4), b64Char (a % 4 * 16 + b / 16), b64Char (b % 16 * 4), 61]
  | [a] => [b64Char (a / 4), b64Char (a % 4 * 16), 61, 61]
  | [] => []

/-- `pico_base64_decode` (544-545) with `validate=True`: `none` is an exception.  Simplified: `+` and `/`, which the decoder also accepts,
are rejected here. -/
def b64Decode : List Nat → Option (List Nat)
  | [] => some []
  | a :: b :: c :: d :: r =>
    if d = 61 then
      if r ≠ [] then none
      else if c = 61 then
        match b64Val a, b64Val b with
        | some x, some y => some [x * 4 + y / 16]
        | _, _ => none
      else
        match b64Val a, b64Val b, b64Val c with
        | some x, some y, some z => some [x * 4 + y / 16, y % 16 * 16 + z / 4]
        | _, _, _ => none
    else
      match b64Val a, b64Val b, b64Val c, b64Val d, b64Decode r with
      | some x, some y, some z, some w, some t => some ((x * 4 + y / 16) :: (y % 16 * 16 + z / 4) :: (z % 4 * 64 + w) :: t)
      | _, _, _, _, _ => none
  | _ => none

/-- The pixel number `k` in the order of `iter_rect(128, 128)` (532-535). -/
def pixelAddr (k : Nat) : Nat × Bool := memSpriteAddr (k % 128) (k / 128)

/-- One run of pixels as characters (622-631). -/
def emitRun (color total : Nat) : List Nat :=
  if h : total = 0 then []
  else
    let count := min total 67
    b64Char (min (count - 1) 3 * 16 + color) :: ((if count ≥ 4 then [b64Char (count - 4)] else []) ++ emitRun color (total - count))
termination_by total
decreasing_by omega

/-- The graphics loop (604-631) on the list of pixels: runs of equal colours, a final run of black being left out. -/
def urlGfx : List Nat → List Nat
  | [] => []
  | c :: cs =>
    let n := (cs.takeWhile (· == c)).length
    if n = cs.length then (if c = 0 then [] else emitRun c (n + 1))
    else emitRun c (n + 1) ++ urlGfx (cs.drop n)
termination_by l => l.length
decreasing_by simp; omega

/-- All the pixels of a cart. -/
def pixels (rom : List Nat) : Option (List Nat) := (List.range 16384).mapM fun k => get4 rom (pixelAddr k)

/-- Writing one run (592-594): `none` if there is no next pixel. -/
def putRun (color : Nat) : Nat → Nat → List Nat → Option (List Nat)
  | 0, _, rom => some rom
  | n + 1, k, rom => if k < 16384 then (set4 rom (pixelAddr k) color).bind (putRun color n (k + 1)) else none

/-- Reading the graphics (579-594). -/
def readGfx : List Nat → Nat → List Nat → Option (List Nat)
  | [], _, rom => some rom
  | ch :: cs, k, rom =>
    match b64Val ch with
    | none => none
    | some val =>
      let color := val % 16
      let count := val / 16 + 1
      if count = 4 then
        match cs with
        | [] => none
        | e :: cs =>
          match b64Val e with
          | none => none
          | some x => (putRun color (count + x) k rom).bind (readGfx cs (k + (count + x)))
      else (putRun color count k rom).bind (readGfx cs (k + count))

/-- `str.split(sep)` for one character. -/
def splitChar (sep : Nat) : List Nat → List (List Nat)
  | [] => [[]]
  | c :: cs => if c = sep then [] :: splitChar sep cs else
    match splitChar sep cs with
    | [] => [[c]]
    | l :: ls => (c :: l) :: ls

/-- `str.split(sep, 1)` when `sep` occurs. -/
def splitOnce (sep : Nat) : List Nat → Option (List Nat × List Nat)
  | [] => none
  | c :: cs => if c = sep then some ([], cs) else (splitOnce sep cs).map fun p => (c :: p.1, p.2)

/-- The loop over the parameters (558-569). -/
def urlParams : List (List Nat) → Option (List Nat) → Option (List Nat) → Option (Option (List Nat) × Option (List Nat))
  | [], code, gfx => some (code, gfx)
  | p :: ps, code, gfx =>
    match splitOnce 61 p with
    | none => none
    | some (key, value) =>
      if key = [99] then urlParams ps (some value) gfx
      else if key = [103] then urlParams ps code (some value)
      else none

/-- The code of a URL (573-576); without one the code is empty. -/
def urlCode (dec : List Nat → Option (List Nat)) : Option (List Nat) → Option (List Nat)
  | none => some []
  | some text => if text = [] then some [] else
    (b64Decode text).bind fun raw => dec (raw ++ List.replicate (0x3d00 - raw.length) 0)

/-- `read_cart_from_url` (550-596): the code, the kept code area and the ROM.  `dec` reads the code from the padded area
(`read_code_from_rom`), `fresh` is the ROM of a new cart. -/
def readUrl (dec : List Nat → Option (List Nat)) (fresh : List Nat) (url : List Nat) : Option (List Nat × List Nat) :=
  match splitOnce 63 url with
  | none => none
  | some (_, params) =>
    match urlParams (splitChar 38 params) none none with
    | none => none
    | some (code, gfx) =>
      let romRes := match gfx with
        | some g => readGfx g 0 fresh
        | none => some fresh
      match urlCode dec code, romRes with
      | some c, some r => some (c, r)
      | _, _ => none

/-- The text of a URL (633-636). -/
def urlText (pre raw gfx : List Nat) : List Nat :=
  pre ++ [47, 63, 99, 61] ++ b64Encode raw ++ (if gfx = [] then [] else [38, 103, 61] ++ gfx)

/-- `write_cart_to_url` (600-641) from the tiny ROM `raw`; `maxLen` is the longest URL allowed (640). -/
def writeUrl (pre raw rom : List Nat) (maxLen : Nat) : Option (List Nat) :=
  match pixels rom with
  | none => none
  | some px => if (urlText pre raw (urlGfx px)).length ≤ maxLen then some (urlText pre raw (urlGfx px)) else none

/-- `k_clip_prefix`, `k_clip_suffix` (643-644): `[cart]` and `[/cart]`. -/
def clipPrefix : List Nat := [91, 99, 97, 114, 116, 93]
def clipSuffix : List Nat := [91, 47, 99, 97, 114, 116, 93]

/-- `bytes.hex()`. -/
def hexText (data : List Nat) : List Nat := data.flatMap fun b => [hexDigit (b / 16), hexDigit (b % 16)]

/-- The ASCII whitespace that `bytes.fromhex` skips. -/
def isAsciiSpace (c : Nat) : Bool := c == 32 || (9 ≤ c && c ≤ 13)

/-- `bytes.fromhex`: pairs of digits, with whitespace between pairs. -/
def fromHex : List Nat → Option (List Nat)
  | [] => some []
  | c :: cs =>
    if isAsciiSpace c then fromHex cs
    else match cs with
      | [] => none
      | d :: ds => match hexVal c, hexVal d, fromHex ds with
        | some x, some y, some t => some ((x * 16 + y) :: t)
        | _, _, _ => none

/-- `read_raw_from_clip` (646-650). -/
def readClip (clip : List Nat) : Option (List Nat) :=
  if clipPrefix.isPrefixOf clip && clipSuffix.isSuffixOf clip then fromHex ((clip.take (clip.length - 7)).drop 6) else none

/-- `write_raw_to_clip` (656-657). -/
def writeClip (data : List Nat) : List Nat := clipPrefix ++ hexText data ++ clipSuffix

end Verif
