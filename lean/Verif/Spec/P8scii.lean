/-! The PICO-8 character set (P8SCII) as the PICO-8 manual shows it, written as text. -/
namespace Verif.P8scii

/-- Characters 1..8 and 11, 12, 14, 15, in this order. -/
def superscripts : String := "¹²³⁴⁵⁶⁷⁸ᵇᶜᵉᶠ"

/-- Characters 16..31. -/
def symbols : String := "▮■□⁙⁘‖◀▶「」¥•、。゛゜"

/-- Characters 127..255. -/
def upper : String := "○█▒🐱⬇░✽●♥☉웃⌂⬅😐♪🅾◆…➡★⧗⬆ˇ∧❎▤▥あいうえおかきくけこさしすせそたちつてとなにぬねのはひふへほまみむめもやゆよらりるれろわをんっゃゅょアイウエオカキクケコサシスセソタチツテトナニヌネノハヒフヘホマミムメモヤユヨラリルレロワヲンッャュョ◜◝"

/-- The characters that are written with a variation selector (U+FE0F): the arrows and the O button. -/
def emoji : List Nat := [131, 139, 142, 145, 148]

def charAt (s : String) (i : Nat) : List Nat := [(s.toList.getD i 'x').toNat]

/-- The Unicode text of a P8SCII character. -/
def text (c : Nat) : List Nat :=
  if c = 0 ∨ c = 9 ∨ c = 10 ∨ c = 13 then [c]
  else if c < 9 then charAt superscripts (c - 1)
  else if c < 13 then charAt superscripts (c - 3)
  else if c < 16 then charAt superscripts (c - 4)
  else if c < 32 then charAt symbols (c - 16)
  else if c < 127 then [c]
  else charAt upper (c - 127) ++ (if c ∈ emoji then [0xfe0f] else [])

/-- With the capital letters shown as the small letters they are typed with, in italics. -/
def caps (c : Nat) : List Nat := if 65 ≤ c ∧ c ≤ 90 then [('𝘢').toNat + (c - 65)] else text c

end Verif.P8scii
