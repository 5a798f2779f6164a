/-! What number literals denote (PICO-8 manual, "Numbers"; Lua 5.4 reference manual, section 3.1), independent of the parser. -/
namespace Verif.NumSpec

/-- `c` is the digit `d` of the base; letters in either case. -/
def IsDigit (base c d : Nat) : Prop := d < base ∧ (d < 10 ∧ c = 48 + d ∨ 10 ≤ d ∧ d < 16 ∧ (c + 10 = 97 + d ∨ c + 10 = 65 + d))

/-- A row of digits and its value. -/
inductive Digits (base : Nat) : List Nat → Nat → Prop
  | nil : Digits base [] 0
  | snoc {t : List Nat} {n c d : Nat} (h : Digits base t n) (hd : IsDigit base c d) : Digits base (t ++ [c]) (base * n + d)

/-- The prefixes of the bases. -/
inductive Prefix : List Nat → Nat → Prop
  | dec : Prefix [] 10
  | hex {x : Nat} (h : x = 120 ∨ x = 88) : Prefix [48, x] 16
  | bin {x : Nat} (h : x = 98 ∨ x = 66) : Prefix [48, x] 2

/-- An unsigned literal of PICO-8 denotes a 16.16 fixed point number: the real number is rounded down to a multiple of 1/65536, and
its integer part wraps around. -/
inductive FixAbs : List Nat → Nat → Prop
  | int {p t : List Nat} {base n v : Nat} (hp : Prefix p base) (h : Digits base t n) (hv : v = 65536 * n % 2 ^ 32) : FixAbs (p ++ t) v
  | frac {p t u : List Nat} {base n m w v : Nat} (hp : Prefix p base) (h1 : Digits base t n) (h2 : Digits base u m)
      (hw : w * base ^ u.length ≤ 65536 * (n * base ^ u.length + m)) (hw' : 65536 * (n * base ^ u.length + m) < (w + 1) * base ^ u.length)
      (hv : v = w % 2 ^ 32) : FixAbs (p ++ t ++ [46] ++ u) v

/-- With an operator in front: negation and complement of 32 bits. -/
inductive Fix : List Nat → Nat → Prop
  | pos {t : List Nat} {v : Nat} (h : FixAbs t v) : Fix t v
  | neg {t : List Nat} {v w : Nat} (h : FixAbs t v) (hw : w < 2 ^ 32) (e : (v + w) % 2 ^ 32 = 0) : Fix (45 :: t) w
  | bnot {t : List Nat} {v w : Nat} (h : FixAbs t v) (e : v + w = 2 ^ 32 - 1) : Fix (126 :: t) w

/-- `v` is the 64-bit integer congruent to `n`. -/
def Wraps (n : Int) (v : Int) : Prop := -2 ^ 63 ≤ v ∧ v < 2 ^ 63 ∧ ∃ k : Int, n = v + k * 2 ^ 64

/-- An unsigned integer literal of Lua: decimal ones must fit, others wrap around. -/
inductive IntAbs : List Nat → Int → Prop
  | dec {t : List Nat} {n : Nat} (hne : t ≠ []) (h : Digits 10 t n) (hn : n < 2 ^ 63) : IntAbs t n
  | other {p t : List Nat} {base n : Nat} {v : Int} (hp : Prefix p base) (hb : base ≠ 10) (hne : t ≠ []) (h : Digits base t n)
      (hv : Wraps n v) : IntAbs (p ++ t) v

/-- With an operator in front. -/
inductive LuaInt : List Nat → Int → Prop
  | pos {t : List Nat} {v : Int} (h : IntAbs t v) : LuaInt t v
  | neg {t : List Nat} {v w : Int} (h : IntAbs t v) (hw : Wraps (-v) w) : LuaInt (45 :: t) w
  | bnot {t : List Nat} {v : Int} (h : IntAbs t v) : LuaInt (126 :: t) (-v - 1)

end Verif.NumSpec
