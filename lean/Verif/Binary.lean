import Verif.Find
/-
Model of the binary reader and writer primitives (utils.py 903-1281).  A stream is the list of the bytes that remain; `none` is an exception.
Floats and the encodings of text are not modelled.
-/
namespace Verif

/-- Little-endian bytes. -/
def leBytes : Nat → Nat → List Nat
  | 0, _ => []
  | n + 1, v => v % 256 :: leBytes n (v / 256)

/-- The value of little-endian bytes. -/
def leValue : List Nat → Nat
  | [] => 0
  | b :: bs => b + 256 * leValue bs

/-- `BinaryWriter.u8/u16/u32/u64` (utils.py 1178-1194): `struct.pack` of `n` bytes, which rejects values out of range. -/
def packU (big : Bool) (n : Nat) (v : Int) : Option (List Nat) :=
  if 0 ≤ v ∧ v < (256 ^ n : Nat) then some (if big then (leBytes n v.toNat).reverse else leBytes n v.toNat) else none

/-- `BinaryWriter.s8/s16/s32/s64` (utils.py 1196-1212). -/
def packS (big : Bool) (n : Nat) (v : Int) : Option (List Nat) :=
  if -((256 ^ n / 2 : Nat) : Int) ≤ v ∧ v < (256 ^ n / 2 : Nat) then packU big n (v % (256 ^ n : Nat)) else none

/-- `BinaryReader.u8/u16/u32/u64` (utils.py 958-977): `struct.unpack` fails if there are too few bytes. -/
def unpackU (big : Bool) (n : Nat) (s : List Nat) : Option (Int × List Nat) :=
  if s.length < n then none
  else some ((leValue (if big then (s.take n).reverse else s.take n) : Nat), s.drop n)

/-- `BinaryReader.s8/s16/s32/s64` (utils.py 979-998). -/
def unpackS (big : Bool) (n : Nat) (s : List Nat) : Option (Int × List Nat) :=
  (unpackU big n s).map fun p => (if p.1 < ((256 ^ n / 2 : Nat) : Int) then p.1 else p.1 - ((256 ^ n : Nat) : Int), p.2)

/-- `BinaryReader.bytes` (utils.py 1000-1004). -/
def readBytes (n : Nat) (allowEof : Bool) (s : List Nat) : Option (List Nat × List Nat) :=
  if (s.take n).length ≠ n ∧ allowEof = false then none else some (s.take n, s.drop n)

/-- `BinaryWriter.nat` (utils.py 1252-1259). -/
def writeNat (v : Nat) : List Nat :=
  if v / 128 = 0 then [v % 128] else (v % 128 + 128) :: writeNat (v / 128)
termination_by v
decreasing_by omega

/-- `BinaryReader.nat` (utils.py 1046-1055); `acc` and `shift` are the loop's variables. -/
def readNatLoop : Nat → Nat → List Nat → Option (Nat × List Nat)
  | _, _, [] => none
  | acc, shift, b :: s =>
    let acc := acc ||| ((b &&& 0x7f) <<< shift)
    if b >>> 7 = 0 then some (acc, s) else readNatLoop acc (shift + 7) s

def readNat (s : List Nat) : Option (Nat × List Nat) := readNatLoop 0 0 s

/-- `BinaryWriter.int` (utils.py 1264-1268). -/
def writeInt (v : Int) : List Nat := if 0 ≤ v then writeNat (v * 2).toNat else writeNat (-v * 2 + 1).toNat

/-- `BinaryReader.int` (utils.py 1057-1062). -/
def readInt (s : List Nat) : Option (Int × List Nat) :=
  (readNat s).map fun p => (if p.1 &&& 1 = 1 then (-((p.1 : Int) - 1)) / 2 else (p.1 : Int) / 2, p.2)

/-- `BinaryWriter.bool` / `BinaryReader.bool` (utils.py 1261-1262, 1043-1044). -/
def writeBool (v : Bool) : List Nat := [if v then 1 else 0]
def readBool : List Nat → Option (Bool × List Nat)
  | [] => none
  | b :: s => some (b != 0, s)

/-- `BinaryWriter.nbytes` / `BinaryReader.nbytes` (utils.py 1273-1275, 1067-1068). -/
def writeNBytes (v : List Nat) : List Nat := writeNat v.length ++ v
def readNBytes (s : List Nat) : Option (List Nat × List Nat) :=
  (readNat s).bind fun p => readBytes p.1 false p.2

/-- `_write_zbytes` (utils.py 934-945); the assertion is an exception too. -/
def writeZ (v : List Nat) (size : Option Nat) (count : Nat) : Option (List Nat) :=
  if count > 1 ∧ v.length % count ≠ 0 then none
  else match size with
    | none => some (v ++ List.replicate count 0)
    | some size =>
      if v.length > size * count then none
      else some (v ++ List.replicate ((size - v.length / count) * count) 0)

/-- The loop of `_read_zbytes` without a size (utils.py 905-917).  With `allowEof` the data may end where a unit would start.  The fuel
is one more than the number of bytes; a read of `count ≥ 1` bytes always uses some up. -/
def readZLoop (count : Nat) (allowEof : Bool) : Nat → List Nat → Option (List Nat × List Nat)
  | 0, _ => none
  | fuel + 1, s =>
    match readBytes count allowEof s with
    | none => none
    | some (ch, rest) =>
      if ch.length < count then (if ch ≠ [] then none else some ([], rest))
      else if ch = List.replicate count 0 then some ([], rest)
      else (readZLoop count allowEof fuel rest).map fun p => (ch ++ p.1, p.2)

/-- The search of `_read_zbytes` for the end of the text in a fixed-size field (utils.py 922-931). -/
def zCut (count : Nat) (result : List Nat) : Nat → Nat → List Nat
  | 0, _ => result
  | fuel + 1, offset =>
    match findFrom (List.replicate count 0) result offset with
    | none => result
    | some i => if i % count = 0 then result.take i else zCut count result fuel (i + 1)

/-- `_read_zbytes` (utils.py 903-932). -/
def readZ (size : Option Nat) (count : Nat) (allowEof : Bool) (s : List Nat) : Option (List Nat × List Nat) :=
  match size with
  | none => readZLoop count allowEof (s.length + 1) s
  | some size =>
    match readBytes (size * count) allowEof s with
    | none => none
    | some (result, rest) =>
      if count > 1 ∧ result.length % count ≠ 0 then none
      else some (zCut count result (result.length + 1) 0, rest)

/-- `BinaryWriter.align` (utils.py 1277-1281): the padding written at position `pos`. -/
def alignPad (pos size start value : Nat) : List Nat :=
  let misalign := ((pos : Int) - start) % size
  if misalign ≠ 0 then List.replicate ((size : Int) - misalign).toNat value else []

/-- `BinaryReader.align` (utils.py 1070-1073): the new position. -/
def alignPos (pos size start : Nat) : Nat :=
  let misalign := ((pos : Int) - start) % size
  if misalign ≠ 0 then pos + ((size : Int) - misalign).toNat else pos

end Verif
