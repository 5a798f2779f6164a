import Verif.Pxa
/-
Model of the legacy code compression, the raw layout, and the dispatching functions of pico_compress.py.
-/
namespace Verif

/-- `k_old_code_table` (pico_compress.py 28-34) as character codes; index 0 is `None`. -/
def oldTable : List (Option Nat) :=
  none :: (("\n 0123456789abcdefghijklmnopqrstuvwxyz!#%(){}[]<>+=/*:;.,~_".toList.map Char.toNat).map some)

/-- `k_old_inv_code_table.get(ch, 0)` (pico_compress.py 36, 587). -/
def oldInv (ch : Nat) : Nat := (oldTable.idxOf? (some ch)).getD 0

/-- A byte written with `w.u8`; `none` is the `struct.error` for values outside 0..255. -/
def u8 (n : Nat) : Option (List Nat) := if n < 256 then some [n] else none

/-- Old `write_match` (pico_compress.py 580-584).  A count below 2 would make `count_val` negative:
`(offset_val & 0xf) + (count_val << 4)` is then negative and `u8` raises. -/
def oldWriteMatch (offset count : Nat) : Option (List Nat) :=
  if count < 2 then none else
  match u8 (0x3c + (offset >>> 4)), u8 ((offset &&& 0xf) + ((count - 2) <<< 4)) with
  | some a, some b => some (a ++ b)
  | _, _ => none

/-- Old `write_literal` (pico_compress.py 586-594); the argument is a one-character string. -/
def oldWriteLiteral (ch : Nat) : Option (List Nat) :=
  let chI := oldInv ch
  if chI > 0 then u8 chI else (u8 ch).map (0 :: ·)

/-- One iteration of the old item loop (pico_compress.py 596-601).  `get_lz77` is called without `litblock_idxs` here so
strings always have one character; another length would raise (`ord` of a longer string). -/
def oldWriteItem : Item → Option (List Nat)
  | .mat o c => oldWriteMatch o c
  | .str [c] => oldWriteLiteral c
  | .str _ => none

/-- The old item loop (pico_compress.py 596-601). -/
def oldWriteItems : List Item → Option (List Nat)
  | [] => some []
  | it :: its =>
    match oldWriteItem it with
    | none => none
    | some a => (oldWriteItems its).map (a ++ ·)

/-- The old branch of `compress_code` (pico_compress.py 418-423, 568-616) given the items.  The second
u16 stays 0; no terminator is written. -/
def compressOld (codeLen : Nat) (items : List Item) (failOnError : Bool) : Option (List Nat) :=
  match oldWriteItems items with
  | none => none
  | some body =>
    let size := 8 + body.length
    if failOnError && (decide (codeLen ≥ 0x10000) || decide (size > 0x3d00)) then none
    else some (oldHeader ++ be16 (codeLen % 0x10000) ++ be16 0 ++ body)

/-- `encode_p8str` (pico_defs.py 220-222): `bytes(...)` raises for characters above 0xff. -/
def encodeP8 (code : List Nat) : Option (List Nat) := if code.all (· < 256) then some code else none

/-! ### Reader -/

/-- The old decoder loop (pico_compress.py 112-132); returns code and unread bytes; `none` = end of file, failed
assert, or `IndexError`. -/
def oldReadLoop : List Nat → List Nat → Option (List Nat × List Nat)
  | [], _ => none
  | 0 :: rest, code =>
    match rest with
    | [] => none
    | 0 :: rest' => some (code, rest')
    | ch2 :: rest' => oldReadLoop rest' (code ++ [ch2])
  | ch :: rest, code =>
    if ch ≤ 0x3b then
      match oldTable[ch]? with
      | some (some c) => oldReadLoop rest (code ++ [c])
      | _ => none
    else
      match rest with
      | [] => none
      | ch2 :: rest' =>
        let count := (ch2 >>> 4) + 2
        let offset := ((ch - 0x3c) <<< 4) + (ch2 &&& 0xf)
        if count ≤ offset then
          match copyLoop code offset count with
          | none => none
          | some code' => oldReadLoop rest' code'
        else none

/-- The old branch of `uncompress_code` after the header (pico_compress.py 105-138). -/
def uncompressOld (src : List Nat) : Option (List Nat × List Nat) :=
  match readBe16 src with
  | none => none
  | some (uncSize, src1) =>
    match readBe16 src1 with
    | some (0, src2) =>
      match oldReadLoop src2 [] with
      | none => none
      | some (code, rest) =>
        if code.length = uncSize ∨ code.length + 1 = uncSize then some (code, rest) else none
    | _ => none

/-- `zbytes(size, allow_eof=True)` (utils.py 903-932, fixed size, count = 1): at most `size` bytes, cut at the first
NUL. -/
def zbytesEof (size : Nat) (src : List Nat) : List Nat := (src.take size).takeWhile (· != 0)

/-- `uncompress_code` (pico_compress.py 46-144), reading from the given bytes to the end of the stream. -/
def uncompressCode (src : List Nat) (maxCodeSize : Nat := 0x3d00) : Option (List Nat) :=
  let header := src.take 4
  if header = newHeader then (uncompressNew (src.drop 4)).map (·.1)
  else if header = oldHeader then (uncompressOld (src.drop 4)).map (·.1)
  else some (zbytesEof maxCodeSize src)

/-- The size loop for the old layout (pico_compress.py 158-164): number of bytes read. -/
def oldSizeLoop : List Nat → Option Nat
  | [] => none
  | 0 :: rest =>
    match rest with
    | [] => none
    | 0 :: _ => some 2
    | _ :: rest' => (oldSizeLoop rest').map (· + 2)
  | ch :: rest =>
    if ch > 0x3b then
      match rest with
      | [] => none
      | _ :: rest' => (oldSizeLoop rest').map (· + 2)
    else (oldSizeLoop rest).map (· + 1)

/-- `get_compressed_size` (pico_compress.py 146-170). -/
def getCompressedSize (src : List Nat) (maxCodeSize : Nat := 0x3d00) : Option Nat :=
  let header := src.take 4
  if header = newHeader then
    match readBe16 (src.drop 4) with
    | none => none
    | some (_, s1) => (readBe16 s1).map (·.1)
  else if header = oldHeader then
    match readBe16 (src.drop 4) with
    | none => none
    | some (_, s1) =>
      match readBe16 s1 with
      | none => none
      | some (_, s2) => (oldSizeLoop s2).map (· + 8)
  else some (zbytesEof maxCodeSize src).length

end Verif
