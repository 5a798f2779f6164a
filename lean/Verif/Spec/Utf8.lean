/-! UTF-8 (RFC 3629, section 3), independent of the codec: which bytes stand for a character. -/
namespace Verif.Utf8Spec

/-- A character that text can contain: surrogates are none. -/
def Scalar (c : Nat) : Prop := c < 0x110000 ∧ ¬ (0xd800 ≤ c ∧ c < 0xe000)

/-- The bytes `110xxxxx 10xxxxxx` and so on, with as few bytes as possible; `x y z w` are groups of six bits. -/
inductive Char : Nat → List Nat → Prop
  | one {c : Nat} (h : c < 0x80) : Char c [c]
  | two {x y : Nat} (hy : y < 64) (h : 0x80 ≤ 64 * x + y) (h' : 64 * x + y < 0x800) : Char (64 * x + y) [0xc0 + x, 0x80 + y]
  | three {x y z : Nat} (hy : y < 64) (hz : z < 64) (h : 0x800 ≤ 64 * (64 * x + y) + z) (h' : 64 * (64 * x + y) + z < 0x10000)
      (hs : Scalar (64 * (64 * x + y) + z)) : Char (64 * (64 * x + y) + z) [0xe0 + x, 0x80 + y, 0x80 + z]
  | four {x y z w : Nat} (hy : y < 64) (hz : z < 64) (hw : w < 64) (h : 0x10000 ≤ 64 * (64 * (64 * x + y) + z) + w)
      (h' : 64 * (64 * (64 * x + y) + z) + w < 0x110000) :
      Char (64 * (64 * (64 * x + y) + z) + w) [0xf0 + x, 0x80 + y, 0x80 + z, 0x80 + w]

/-- A text and its bytes. -/
inductive Text : List Nat → List Nat → Prop
  | nil : Text [] []
  | cons {c : Nat} {bs t r : List Nat} (h : Char c bs) (ht : Text t r) : Text (c :: t) (bs ++ r)

end Verif.Utf8Spec
