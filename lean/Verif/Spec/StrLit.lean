/-! What the text between the quotes of a Lua string literal denotes (Lua 5.3 reference manual §3.1, with the PICO-8 control
escapes of the PICO-8 manual, "P8SCII Control Codes"); independent of the parser. -/
namespace Verif.StrSpec

/-- The characters after a backslash that stand for one character. -/
def table : List (Char × Nat) :=
  [('a', 7), ('b', 8), ('t', 9), ('n', 10), ('v', 11), ('f', 12), ('r', 13), ('\\', 92), ('"', 34), ('\'', 39), ('\n', 10),
    ('*', 1), ('#', 2), ('-', 3), ('|', 4), ('+', 5), ('^', 6)]

def IsDec (c : Nat) : Prop := 48 ≤ c ∧ c ≤ 57

/-- `c` is the hexadecimal digit of value `d`. -/
def IsHex (c d : Nat) : Prop := (48 ≤ c ∧ c ≤ 57 ∧ c = 48 + d) ∨ (97 ≤ c ∧ c ≤ 102 ∧ c = 87 + d) ∨ (65 ≤ c ∧ c ≤ 70 ∧ c = 55 + d)

/-- Decimal digits and their value. -/
inductive Dec : List Nat → Nat → Prop
  | nil : Dec [] 0
  | snoc {s : List Nat} {n d : Nat} : Dec s n → d < 10 → Dec (s ++ [48 + d]) (10 * n + d)

/-- Hexadecimal digits and their value. -/
inductive Hex : List Nat → Nat → Prop
  | nil : Hex [] 0
  | snoc {s : List Nat} {n c d : Nat} : Hex s n → IsHex c d → Hex (s ++ [c]) (16 * n + d)

/-- A byte as a character: PICO-8 has 8-bit characters, Picotron's are kept apart from text (Python's surrogateescape). -/
def byte (pico8 : Bool) (v : Nat) : Nat := if pico8 = true ∨ v < 128 then v else 0xdc00 + v

/-- White space. -/
def IsSpace (c : Nat) : Prop := c = 9 ∨ c = 10 ∨ c = 13 ∨ c = 32

/-- `text` (between quotes) denotes `value`; `uni` gives the bytes of a `\u{...}` escape (C53). -/
inductive Denotes (pico8 : Bool) (uni : Nat → List Nat) : List Nat → List Nat → Prop
  | nil : Denotes pico8 uni [] []
  | char {c : Nat} {s v : List Nat} : c ≠ 92 → Denotes pico8 uni s v → Denotes pico8 uni (c :: s) (c :: v)
  | escape {e : Char} {c : Nat} {s v : List Nat} : (e, c) ∈ table → Denotes pico8 uni s v →
      Denotes pico8 uni (92 :: e.toNat :: s) (c :: v)
  /-- Up to three decimal digits, as many as there are. -/
  | decimal {ds s v : List Nat} {n : Nat} : ds ≠ [] → Dec ds n → n < 256 → ds.length ≤ 3 →
      (ds.length = 3 ∨ ∀ c, s.head? = some c → ¬ IsDec c) → Denotes pico8 uni s v →
      Denotes pico8 uni (92 :: (ds ++ s)) (byte pico8 n :: v)
  /-- Exactly two hexadecimal digits. -/
  | hex {a b n : Nat} {s v : List Nat} : Hex [a, b] n → Denotes pico8 uni s v →
      Denotes pico8 uni (92 :: 120 :: a :: b :: s) (byte pico8 n :: v)
  /-- `\z` skips white space. -/
  | skip {w s v : List Nat} : (∀ c ∈ w, IsSpace c) → (∀ c, s.head? = some c → ¬ IsSpace c) → Denotes pico8 uni s v →
      Denotes pico8 uni (92 :: 122 :: (w ++ s)) v
  /-- `\u{...}` (not in PICO-8). -/
  | unicode {ds s v : List Nat} {n : Nat} : pico8 = false → ds ≠ [] → Hex ds n → n < 2 ^ 31 → Denotes pico8 uni s v →
      Denotes pico8 uni (92 :: 117 :: 123 :: (ds ++ 125 :: s)) ((uni n).map (byte pico8) ++ v)

/-- What a long literal denotes: the text between the brackets, less a first newline; carriage returns are left open. -/
def LongDenotes (text value : List Nat) : Prop :=
  ∃ n body, text = 91 :: (List.replicate n 61 ++ 91 :: (body ++ 93 :: (List.replicate n 61 ++ [93]))) ∧ 13 ∉ body ∧
    ¬ (93 :: (List.replicate n 61 ++ [93])) <:+: body ∧
    (body = 10 :: value ∨ body.head? ≠ some 10 ∧ body = value)

end Verif.StrSpec
