/-
Model of `Memory` (pico_defs.py 10-75): a byte array with 4/8/16/32-bit accessors.

A memory is a `List Nat` (each element below 256, see `IsMem`).  `none` stands for Python's `IndexError` (address out of
range) or `ValueError` (a byte outside 0..255).  Addresses are natural numbers: the negative indexes Python would accept
are not modelled (no caller uses them).  Written values are integers, as in Python they may be negative or too wide.
-/
namespace Verif

/-- The contents of a `bytearray`. -/
def IsMem (m : List Nat) : Prop := ∀ b ∈ m, b < 256

/-- `get8` (pico_defs.py 25-26). -/
def get8 (m : List Nat) (i : Nat) : Option Nat := m[i]?

/-- `set8` (pico_defs.py 28-29). -/
def set8 (m : List Nat) (i : Nat) (v : Nat) : Option (List Nat) :=
  if i < m.length ∧ v < 256 then some (m.set i v) else none

/-- `get_block` (pico_defs.py 31-32): a slice, which never fails. -/
def getBlock (m : List Nat) (start size : Nat) : List Nat := (m.drop start).take size

/-- `set_block` (pico_defs.py 34-35): slice assignment; past the end it extends the array. -/
def setBlock (m : List Nat) (start : Nat) (src : List Nat) : List Nat :=
  m.take start ++ src ++ m.drop (start + src.length)

/-- `copy8` (pico_defs.py 37-38).  `src_memory or m`: an empty source memory is falsy, so it means `m` itself. -/
def copy8 (m : List Nat) (dest src size : Nat) (srcMem : List Nat) : List Nat :=
  setBlock m dest (getBlock (if srcMem.isEmpty then m else srcMem) src size)

/-- `copyfrom8` (pico_defs.py 40-41). -/
def copyfrom8 (m : List Nat) (addr size : Nat) (srcMem : List Nat) : List Nat := copy8 m addr addr size srcMem

/-- `fill8` (pico_defs.py 43-44). -/
def fill8 (m : List Nat) (dest value size : Nat) : Option (List Nat) :=
  if value < 256 then some (setBlock m dest (List.replicate size value)) else none

/-- `clear` (pico_defs.py 19-20). -/
def memClear (m : List Nat) : Option (List Nat) := fill8 m 0 0 m.length

/-- `cmpeq8` (pico_defs.py 46-47). -/
def cmpeq8 (m : List Nat) (src1 src2 size : Nat) (other : List Nat) : Bool :=
  getBlock m src1 size == getBlock (if other.isEmpty then m else other) src2 size

/-- `get16` (pico_defs.py 52-53). -/
def get16 (m : List Nat) (i : Nat) : Option Nat :=
  match get8 m i, get8 m (i + 1) with
  | some a, some b => some (a ||| (b <<< 8))
  | _, _ => none

/-- `v & (2^n - 1)` for a Python integer. -/
def lowBits (n : Nat) (v : Int) : Nat := (v % (2 ^ n : Int)).toNat

/-- `set16` (pico_defs.py 55-57). -/
def set16 (m : List Nat) (i : Nat) (v : Int) : Option (List Nat) :=
  match set8 m i (lowBits 8 v) with
  | none => none
  | some m => set8 m (i + 1) (lowBits 8 (v / 256))

/-- `get32` (pico_defs.py 59-60). -/
def get32 (m : List Nat) (i : Nat) : Option Nat :=
  match get16 m i, get16 m (i + 2) with
  | some a, some b => some (a ||| (b <<< 16))
  | _, _ => none

/-- `set32` (pico_defs.py 62-64). -/
def set32 (m : List Nat) (i : Nat) (v : Int) : Option (List Nat) :=
  match set16 m i (lowBits 16 v) with
  | none => none
  | some m => set16 m (i + 2) (lowBits 16 (v / 65536))

/-- `get8_bits` (pico_defs.py 66-67). -/
def get8Bits (m : List Nat) (i shift mask : Nat) : Option Nat := (get8 m i).map fun b => (b >>> shift) &&& mask

/-- `set8_bits` (pico_defs.py 69-70).  `b & ~x` is written `b ^^^ (b &&& x)`. -/
def set8Bits (m : List Nat) (i shift mask v : Nat) : Option (List Nat) :=
  match get8 m i with
  | none => none
  | some b => set8 m i ((b ^^^ (b &&& (mask <<< shift))) ||| ((v &&& mask) <<< shift))

/-- `get4` (pico_defs.py 72-74). -/
def get4 (m : List Nat) (ix : Nat × Bool) : Option Nat := get8Bits m ix.1 (if ix.2 then 4 else 0) 0xf

/-- `set4` (pico_defs.py 76-78 of the class). -/
def set4 (m : List Nat) (ix : Nat × Bool) (v : Nat) : Option (List Nat) := set8Bits m ix.1 (if ix.2 then 4 else 0) 0xf v

/-- `mem_sprite_addr` (pico_defs.py 83-85). -/
def memSpriteAddr (x y : Nat) : Nat × Bool := (y * 0x40 + (x >>> 1), x &&& 1 != 0)

/-- `mem_map_addr` (pico_defs.py 87-90): the lower half of the map lies before the map section (`y -= 0x40`). -/
def memMapAddr (x y : Nat) : Nat := if y ≥ 0x20 then 0x2000 + y * 0x80 + x - 0x40 * 0x80 else 0x2000 + y * 0x80 + x

/-- `mem_flag_addr` (pico_defs.py 92-94). -/
def memFlagAddr (tile y : Nat) : Nat := 0x3000 + y * 0x80 + tile

/-- `mem_music_addr` (pico_defs.py 96-98). -/
def memMusicAddr (music ch : Nat) : Nat := 0x3100 + music * 4 + ch

/-- `mem_sfx_addr` (pico_defs.py 100-102). -/
def memSfxAddr (sound note : Nat) : Nat := 0x3200 + sound * 0x44 + note * 2

/-- `mem_sfx_info_addr` (pico_defs.py 104-106). -/
def memSfxInfoAddr (sound i : Nat) : Nat := memSfxAddr sound 0x20 + i

/-- One round of the loop of `mem_create_rom` (pico_defs.py 110-113). -/
def createRomStep (rom : List Nat) (i : Nat) : List Nat :=
  let rom := rom.set (memSfxInfoAddr i 1) (if i = 0 then 1 else 0x10)
  (List.range 4).foldl (fun rom ch => rom.set (memMusicAddr i ch) (0x41 + ch)) rom

/-- `mem_create_rom` (pico_defs.py 108-114). -/
def createRom : List Nat := (List.range 0x40).foldl createRomStep (List.replicate 0x4300 0)

end Verif
