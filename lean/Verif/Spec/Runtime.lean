import Verif.ConstFold
/-
What the two runtimes compute, written independently of the folding code: PICO-8 numbers are 32-bit two's complement patterns counting
1/65536ths, Picotron integers are 64-bit two's complement, strings are byte sequences.  `none` means the runtime raises an error or
that the result is left unspecified (division by zero, overflow in `*` and `/`, `%` by a negative number, shifts by a fraction), so a
folder meeting this specification may not fold there.

Two points on which runtimes differ are left open by a parameter `arith` over which the theorems quantify: whether PICO-8's `<<` by a
negative count shifts in copies of the sign, and whether Picotron's `>>` does.
-/
namespace Verif.Spec

inductive Val where
  | nil
  | bool (b : Bool)
  | num (x : BitVec 32)
  | int (x : BitVec 64)
  | str (s : List Nat)
deriving DecidableEq

def Val.truthy : Val → Bool
  | .nil => false
  | .bool false => false
  | _ => true

/-- A 32-bit pattern for an exact result, if it fits. -/
def fit32 (i : Int) : Option Val := if -2 ^ 31 ≤ i ∧ i < 2 ^ 31 then some (.num (BitVec.ofInt 32 i)) else none

/-- The decimal text of an integer. -/
def decText (i : Int) : List Nat := (toString i).toList.map Char.toNat

/-- Text of a value in a concatenation: strings and whole numbers. -/
def tostr : Val → Option (List Nat)
  | .str s => some s
  | .num x => if x.toInt % 65536 = 0 then some (decText (x.toInt / 65536)) else none
  | .int x => some (decText x.toInt)
  | _ => none

/-- Shift counts must be whole. -/
def count (y : BitVec 32) : Option Int := if y.toInt % 65536 = 0 then some (y.toInt / 65536) else none

def shl32 (arith : Bool) (x : BitVec 32) (n : Int) : BitVec 32 :=
  if 0 ≤ n then x <<< n.toNat else if arith then x.sshiftRight (-n).toNat else x >>> (-n).toNat

def shr32 (x : BitVec 32) (n : Int) : BitVec 32 := if 0 ≤ n then x.sshiftRight n.toNat else x <<< (-n).toNat

def lshr32 (x : BitVec 32) (n : Int) : BitVec 32 := if 0 ≤ n then x >>> n.toNat else x <<< (-n).toNat

def rotl32 (x : BitVec 32) (n : Int) : BitVec 32 := x.rotateLeft (n % 32).toNat

def rotr32 (x : BitVec 32) (n : Int) : BitVec 32 := x.rotateRight (n % 32).toNat

def shl64 (x : BitVec 64) (n : Int) : BitVec 64 := if 0 ≤ n then x <<< n.toNat else x >>> (-n).toNat

def shr64 (arith : Bool) (x : BitVec 64) (n : Int) : BitVec 64 :=
  if 0 ≤ n then (if arith then x.sshiftRight n.toNat else x >>> n.toNat) else x <<< (-n).toNat

/-- Order of numbers and of byte strings. -/
def less : Val → Val → Option Bool
  | .num x, .num y => some (x.toInt < y.toInt)
  | .int x, .int y => some (x.toInt < y.toInt)
  | .str s, .str t => some (s < t)
  | _, _ => none

/-- Unary operators.  `#s` is a fixed point number in PICO-8 (unspecified from 32768 on), an integer in Picotron. -/
def rtUn (lang : Lang) : UnOp → Val → Option Val
  | .neg, .num x => some (.num (-x))
  | .neg, .int x => some (.int (-x))
  | .bnot, .num x => some (.num (~~~x))
  | .bnot, .int x => some (.int (~~~x))
  | .not, x => some (.bool (!x.truthy))
  | .len, .str s => match lang with
    | .pico8 => fit32 (s.length * 65536)
    | .picotron => some (.int (BitVec.ofNat 64 s.length))
  | _, _ => none

def rtShift (arith : Bool) (f : ShiftFn) : Val → Val → Option Val
  | .num x, .num y => (count y).map fun n => .num (match f with
    | .shl => shl32 arith x n
    | .shr => shr32 x n
    | .lshr => lshr32 x n
    | .rotl => rotl32 x n
    | .rotr => rotr32 x n)
  | .int x, .int y => match f with
    | .shl => some (.int (shl64 x y.toInt))
    | .shr => some (.int (shr64 arith x y.toInt))
    | _ => none
  | _, _ => none

/-- Binary operators.  PICO-8's `\` is defined by its manual as `flr(x / y)`, where `/` has already lost what is below 1/65536. -/
def rtBin (arith : Bool) : BinOp → Val → Val → Option Val
  | .or, x, y => some (if x.truthy then x else y)
  | .and, x, y => some (if x.truthy then y else x)
  | .eq, x, y => some (.bool (x = y))
  | .ne, x, y => some (.bool (x ≠ y))
  | .lt, x, y => (less x y).map .bool
  | .gt, x, y => (less y x).map .bool
  | .le, x, y => (less y x).map fun b => .bool (!b)
  | .ge, x, y => (less x y).map fun b => .bool (!b)
  | .bor, .num x, .num y => some (.num (x ||| y))
  | .bor, .int x, .int y => some (.int (x ||| y))
  | .band, .num x, .num y => some (.num (x &&& y))
  | .band, .int x, .int y => some (.int (x &&& y))
  | .bxor, .num x, .num y => some (.num (x ^^^ y))
  | .bxor, .int x, .int y => some (.int (x ^^^ y))
  | .shl, x, y => rtShift arith .shl x y
  | .shr, x, y => rtShift arith .shr x y
  | .lshr, x, y => rtShift arith .lshr x y
  | .rotl, x, y => rtShift arith .rotl x y
  | .rotr, x, y => rtShift arith .rotr x y
  | .cat, x, y => match tostr x, tostr y with
    | some s, some t => some (.str (s ++ t))
    | _, _ => none
  | .add, .num x, .num y => some (.num (x + y))
  | .add, .int x, .int y => some (.int (x + y))
  | .sub, .num x, .num y => some (.num (x - y))
  | .sub, .int x, .int y => some (.int (x - y))
  | .mul, .num x, .num y => fit32 (x.toInt * y.toInt / 65536)
  | .mul, .int x, .int y => some (.int (x * y))
  | .div, .num x, .num y => if y = 0 then none else fit32 ((x.toInt * 65536).tdiv y.toInt)
  | .idiv, .num x, .num y =>
    if y = 0 then none
    else if -2 ^ 31 ≤ (x.toInt * 65536).tdiv y.toInt ∧ (x.toInt * 65536).tdiv y.toInt < 2 ^ 31 then
      some (.num (BitVec.ofInt 32 ((x.toInt * 65536).tdiv y.toInt / 65536 * 65536)))
    else none
  | .idiv, .int x, .int y => if y = 0 then none else some (.int (BitVec.ofInt 64 (x.toInt.fdiv y.toInt)))
  | .mod, .num x, .num y => if y.toInt ≤ 0 then none else some (.num (BitVec.ofInt 32 (x.toInt % y.toInt)))
  | .mod, .int x, .int y => if y = 0 then none else some (.int (BitVec.ofInt 64 (x.toInt.fmod y.toInt)))
  | _, _, _ => none

/-- The median of three. -/
def median (a b c : Int) : Int := max (min a b) (min (max a b) c)

/-- Builtins of one argument. -/
def rtCall1 : Builtin → Val → Option Val
  | .abs, .num x => fit32 x.toInt.natAbs
  | .abs, .int x => if (x.toInt.natAbs : Int) < 2 ^ 63 then some (.int (BitVec.ofInt 64 x.toInt.natAbs)) else none
  | .flr, .num x => fit32 (x.toInt / 65536 * 65536)
  | .flr, .int x => some (.int x)
  | .ceil, .num x => fit32 (-(-x.toInt / 65536) * 65536)
  | .ceil, .int x => some (.int x)
  | .bnot, .num x => some (.num (~~~x))
  | _, _ => none

/-- Builtins of two arguments. -/
def rtCall2 (arith : Bool) : Builtin → Val → Val → Option Val
  | .max, .num x, .num y => some (.num (BitVec.ofInt 32 (max x.toInt y.toInt)))
  | .max, .int x, .int y => some (.int (BitVec.ofInt 64 (max x.toInt y.toInt)))
  | .min, .num x, .num y => some (.num (BitVec.ofInt 32 (min x.toInt y.toInt)))
  | .min, .int x, .int y => some (.int (BitVec.ofInt 64 (min x.toInt y.toInt)))
  | .band, .num x, .num y => some (.num (x &&& y))
  | .bor, .num x, .num y => some (.num (x ||| y))
  | .bxor, .num x, .num y => some (.num (x ^^^ y))
  | .shl, .num x, .num y => rtShift arith .shl (.num x) (.num y)
  | .shr, .num x, .num y => rtShift arith .shr (.num x) (.num y)
  | .lshr, .num x, .num y => rtShift arith .lshr (.num x) (.num y)
  | .rotl, .num x, .num y => rtShift arith .rotl (.num x) (.num y)
  | .rotr, .num x, .num y => rtShift arith .rotr (.num x) (.num y)
  | _, _, _ => none

/-- Builtins of three arguments. -/
def rtCall3 : Builtin → Val → Val → Val → Option Val
  | .mid, .num x, .num y, .num z => some (.num (BitVec.ofInt 32 (median x.toInt y.toInt z.toInt)))
  | .mid, .int x, .int y, .int z => some (.int (BitVec.ofInt 64 (median x.toInt y.toInt z.toInt)))
  | _, _, _, _ => none

/-- Calls of builtins; the bit operations are functions in PICO-8 only. -/
def rtCall (arith : Bool) (f : Builtin) : List Val → Option Val
  | [x] => rtCall1 f x
  | [x, y] => rtCall2 arith f x y
  | [x, y, z] => rtCall3 f x y z
  | _ => none

end Verif.Spec
