import Verif.Spec.P8scii
import Verif.Spec.StrLit
/-! The `.p8` text format as documented (PICO-8 wiki, "P8FileFormat"; PICO-8 manual, "Memory layout"), independent of the writer:
what the lines of each section are, given the cart's memory `m` (a byte for each address). -/
namespace Verif.P8Format

def chars (s : String) : List Nat := s.toList.map Char.toNat

/-- Digits up to base 32. -/
def digit (n : Nat) : Nat := (("0123456789abcdefghijklmnopqrstuv".toList).getD n '?').toNat

/-- A byte as two hexadecimal digits. -/
def byte (b : Nat) : List Nat := [digit (b / 16), digit (b % 16)]

/-- 128 pixels, a digit each; two pixels to a byte, the left one in the low half. -/
def gfxRow (m : Nat → Nat) (y : Nat) : List Nat :=
  (List.range 128).map fun x => digit (if x % 2 = 0 then m (64 * y + x / 2) % 16 else m (64 * y + x / 2) / 16)

/-- 128 tiles. -/
def mapRow (m : Nat → Nat) (y : Nat) : List Nat := (List.range 128).flatMap fun x => byte (m (0x2000 + 128 * y + x))

/-- The flags of 128 sprites. -/
def gffRow (m : Nat → Nat) (y : Nat) : List Nat := (List.range 128).flatMap fun x => byte (m (0x3000 + 128 * y + x))

/-- A note (little endian): 6 bits pitch, 3 bits waveform, 3 bits volume, 3 bits effect, 1 bit for custom waveforms; written as two
digits of pitch, one of waveform (8 more for custom ones), one of volume and one of effect. -/
def note (lo hi : Nat) : List Nat :=
  byte (lo % 64) ++ [digit ((lo + 256 * hi) / 64 % 8 + 8 * (hi / 128)), digit (hi / 2 % 8), digit (hi / 16 % 8)]

/-- A sound: editor mode, speed, loop start and end, then 32 notes; in memory the notes come first. -/
def sfxRow (m : Nat → Nat) (y : Nat) : List Nat :=
  (List.range 4).flatMap (fun i => byte (m (0x3200 + 68 * y + 64 + i))) ++
    (List.range 32).flatMap fun i => note (m (0x3200 + 68 * y + 2 * i)) (m (0x3200 + 68 * y + 2 * i + 1))

/-- A music pattern: the flags (the high bits of the four channels), and the four channels. -/
def musicRow (m : Nat → Nat) (y : Nat) : List Nat :=
  let a := 0x3100 + 4 * y
  byte (m a / 128 + 2 * (m (a + 1) / 128) + 4 * (m (a + 2) / 128) + 8 * (m (a + 3) / 128)) ++ [32] ++
    byte (m a % 128) ++ byte (m (a + 1) % 128) ++ byte (m (a + 2) % 128) ++ byte (m (a + 3) % 128)

/-- 128 pixels of the label, column by column in `l`. -/
def labelRow (l : Nat → Nat) (y : Nat) : List Nat := (List.range 128).map fun x => digit (l (128 * x + y))

/-- The contents of an empty cartridge. -/
def empty (a : Nat) : Nat :=
  if 0x3100 ≤ a ∧ a < 0x3200 then 0x41 + a % 4
  else if 0x3200 ≤ a ∧ (a - 0x3200) % 68 = 65 then if a = 0x3241 then 1 else 16
  else 0

/-- The first `n` rows of `size` bytes from `base` are needed: all others (up to `max`) are as in an empty cartridge, and the last
needed one is not. -/
structure Needed (m : Nat → Nat) (base size max n : Nat) : Prop where
  le : n ≤ max
  rest : ∀ a, base + size * n ≤ a → a < base + size * max → m a = empty a
  last : 0 < n → ∃ a, base + size * (n - 1) ≤ a ∧ a < base + size * n ∧ m a ≠ empty a

/-- The lines of a section; no section if there are no rows. -/
def part (name : String) (n : Nat) (row : Nat → List Nat) : List (List Nat) :=
  if n = 0 then [] else chars ("__" ++ name ++ "__") :: (List.range n).map row

/-- Lines, each ended by a line feed. -/
def file (lines : List (List Nat)) : List Nat := lines.flatMap fun l => l ++ [10]

end Verif.P8Format
