import Verif.Stego
/-!
What it means for a pixel to hide data and for a picture to look the same, in plain arithmetic.
-/
namespace Verif.StegoSpec
open Verif.Stego

/-- The byte hidden in a PICO-8 pixel: two bits of each of blue, green, red and alpha, lowest first. -/
def byteIn (p : Px) : Nat := p.b % 4 + 4 * (p.g % 4) + 16 * (p.r % 4) + 64 * (p.a % 4)

/-- The eleven bits hidden in a Picotron pixel: three of red, green and blue, two of alpha, lowest first. -/
def wordIn (p : Px) : Nat := p.r % 8 + 8 * (p.g % 8) + 64 * (p.b % 8) + 512 * (p.a % 4)

/-- The bits of a number, lowest first. -/
def lowest (n v : Nat) : List Bool := (List.range n).map v.testBit

/-- Two pixels that differ at most in the low two bits of each channel. -/
def Same2 (p q : Px) : Prop := p.r / 4 = q.r / 4 ∧ p.g / 4 = q.g / 4 ∧ p.b / 4 = q.b / 4 ∧ p.a / 4 = q.a / 4

/-- Two pixels that differ at most in the low three bits of each colour and the low two bits of alpha. -/
def Same3 (p q : Px) : Prop := p.r / 8 = q.r / 8 ∧ p.g / 8 = q.g / 8 ∧ p.b / 8 = q.b / 8 ∧ p.a / 4 = q.a / 4

/-- Two images of the same size whose pixels are related one by one. -/
def Look (R : Px → Px → Prop) (a b : List Px) : Prop :=
  a.length = b.length ∧ ∀ (i : Nat) p q, a[i]? = some p → b[i]? = some q → R p q

/-- The colours of PICO-8, the sixteen of the usual palette and the sixteen hidden ones (PICO-8 wiki, "Palette"), as red, green, blue. -/
def colours : List (Nat × Nat × Nat) := [
  (0, 0, 0), (29, 43, 83), (126, 37, 83), (0, 135, 81), (171, 82, 54), (95, 87, 79), (194, 195, 199), (255, 241, 232),
  (255, 0, 77), (255, 163, 0), (255, 236, 39), (0, 228, 54), (41, 173, 255), (131, 118, 156), (255, 119, 168), (255, 204, 170),
  (41, 24, 20), (17, 29, 53), (66, 33, 54), (18, 83, 89), (116, 47, 41), (73, 51, 59), (162, 136, 121), (243, 239, 125),
  (190, 18, 80), (255, 108, 36), (168, 231, 46), (0, 181, 67), (6, 90, 181), (117, 70, 101), (255, 110, 89), (255, 157, 129)]

end Verif.StegoSpec
