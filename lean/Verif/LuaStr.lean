import Verif.Charset
/-
Model of the strings of Picotron code (pico_defs.py 233-239): Python's UTF-8 codec with the `surrogateescape` error handler.
-/
namespace Verif.LuaStr

/-- `encode_luastr` (pico_defs.py 235-236); `none` is the `UnicodeEncodeError`. -/
def encode (t : List Nat) : Option (List Nat) := (t.mapM utf8SurrogateEscape).map List.flatten

/-- `0x80 <= b <= 0xbf`. -/
def isCont (b : Nat) : Bool := 0x80 ≤ b && b ≤ 0xbf

/-- The well-formed sequence at the start of the bytes, if any, as read by Python's UTF-8 decoder (Unicode Standard, table 3-7): the
character and the rest. -/
def utf8Head : List Nat → Option (Nat × List Nat)
  | b0 :: rest =>
    if b0 < 0x80 then some (b0, rest)
    else if b0 < 0xc2 then none
    else if b0 < 0xe0 then
      match rest with
      | b1 :: r => if isCont b1 then some ((b0 - 0xc0) * 64 + (b1 - 0x80), r) else none
      | _ => none
    else if b0 < 0xf0 then
      match rest with
      | b1 :: b2 :: r =>
        if isCont b1 && isCont b2 && (b0 != 0xe0 || 0xa0 ≤ b1) && (b0 != 0xed || b1 < 0xa0) then
          some ((b0 - 0xe0) * 4096 + (b1 - 0x80) * 64 + (b2 - 0x80), r)
        else none
      | _ => none
    else if b0 < 0xf5 then
      match rest with
      | b1 :: b2 :: b3 :: r =>
        if isCont b1 && isCont b2 && isCont b3 && (b0 != 0xf0 || 0x90 ≤ b1) && (b0 != 0xf4 || b1 < 0x90) then
          some ((b0 - 0xf0) * 262144 + (b1 - 0x80) * 4096 + (b2 - 0x80) * 64 + (b3 - 0x80), r)
        else none
      | _ => none
    else none
  | [] => none

/-- One character of the decoded text.  The error handler gets the maximal start of a sequence and escapes each of its bytes; since
those after the first are continuation bytes, which start no sequence, escaping one byte at a time gives the same. -/
def step : List Nat → Option (Nat × List Nat)
  | [] => none
  | b :: rest => match utf8Head (b :: rest) with
    | some p => some p
    | none => some (0xdc00 + b, rest)

/-- The decoder, with a bound on the number of characters. -/
def decodeLoop : Nat → List Nat → List Nat
  | 0, _ => []
  | fuel + 1, bs => match step bs with
    | none => []
    | some (c, rest) => c :: decodeLoop fuel rest

/-- `decode_luastr` (pico_defs.py 238-239). -/
def decode (bs : List Nat) : List Nat := decodeLoop bs.length bs

end Verif.LuaStr
