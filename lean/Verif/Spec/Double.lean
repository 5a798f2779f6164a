/-
What the 64 bits of a floating point number mean (IEEE 754), for numbers without sign, and which number is nearest to a fraction.
-/
namespace Verif.Double

/-- All finite numbers are multiples of 2^-1074: how often it goes into the number with these bits.  The upper bits are the exponent and the lower 52 the
fraction; numbers other than the smallest ones have a leading one. -/
def units (n : Nat) : Nat :=
  let ex := n / 2 ^ 52
  let fr := n % 2 ^ 52
  if ex = 0 then fr else (2 ^ 52 + fr) * 2 ^ (ex - 1)

/-- The bits of infinity, above those of all finite numbers. -/
def inf : Nat := 0x7ff0000000000000

/-- How far apart two naturals are. -/
def dist (a b : Nat) : Nat := (a - b) + (b - a)

/-- No finite number is nearer to `a / b` than `n` is, and `n` is even if another one is as near. -/
def Nearest (a b n : Nat) : Prop :=
  ∀ m, m < inf → m ≠ n → dist (a * 2 ^ 1074) (units n * b) < dist (a * 2 ^ 1074) (units m * b) ∨
    dist (a * 2 ^ 1074) (units n * b) = dist (a * 2 ^ 1074) (units m * b) ∧ n % 2 = 0

end Verif.Double
