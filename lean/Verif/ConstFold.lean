import Verif.Num
import Verif.StrLit
/-
Model of constant folding of single operations (pico_constfold.py 7-421).

Python floats (`LuaType.float`) are left out: the model has no float value, and `/` of two integers (which yields a float) is not
folded.  Everything else is per operation as in the source.  A result is `none` for an exception (in particular the recursion limit),
`some none` for "unable or unwilling", `some (some v)` for the constant.
-/
namespace Verif

/-- `Language` (pico_defs.py). -/
inductive Lang where
  | pico8 | picotron
deriving DecidableEq, Repr

/-- `LuaValue` (pico_constfold.py 11-82) without floats.  `fix` holds the unsigned 32-bit pattern, `int` the signed value, `str` the
code points of the Python string. -/
inductive LV where
  | nil
  | bool (b : Bool)
  | fix (n : Nat)
  | int (i : Int)
  | str (s : List Nat)
deriving DecidableEq, Repr

namespace LV

/-- `LuaFixnum(value)` (64-67). -/
def mkFix (v : Int) : LV := .fix (v % 2 ^ 32).toNat

/-- `LuaInteger(value)` (69-72). -/
def mkInt (v : Int) : LV := .int (toLuaInt v)

/-- `is_truthy` (40-42). -/
def truthy : LV → Bool
  | .nil => false
  | .bool b => b
  | _ => true

end LV

/-- `fixnum_is_negative` (pico_defs.py 266-268). -/
def fixIsNeg (v : Nat) : Bool := v &&& 0x80000000 != 0

/-- `fixnum_is_whole` (pico_defs.py 280-281). -/
def fixIsWhole (v : Nat) : Bool := v &&& 0xffff == 0

/-- `fixnum_to_whole` (pico_defs.py 283-284). -/
def fixToWhole (v : Nat) : Nat := v >>> 16

/-- `fixnum_to_signed` (pico_defs.py 286-289). -/
def fixToSigned (v : Nat) : Int := if v &&& 0x80000000 ≠ 0 then (v : Int) - 0x100000000 else v

/-- `is_signed_fixnum_in_range` (pico_defs.py 291-292). -/
def fixInRange (v : Int) : Bool := -0x80000000 ≤ v && v < 0x80000000

/-- `uint_value` (pico_constfold.py 46-48). -/
def uintValue (i : Int) : Nat := (i % 2 ^ 64).toNat

open LV

/-- `lua_neg` (92-98). -/
def luaNeg : LV → Option LV
  | .fix a => some (mkFix (-a))
  | .int a => some (mkInt (-a))
  | _ => none

/-- `lua_abs` (100-106). -/
def luaAbs : LV → Option LV
  | .fix a => if a ≠ 0x80000000 then some (mkFix (fixToSigned a).natAbs) else none
  | .int a => if a ≠ -0x8000000000000000 then some (mkInt a.natAbs) else none
  | _ => none

/-- `lua_floor` (108-119). -/
def luaFloor : LV → Option LV
  | .fix a => some (mkFix (a &&& 0xffff0000 : Nat))
  | .int a => some (.int a)
  | _ => none

/-- `lua_ceil` (121-137). -/
def luaCeil : LV → Option LV
  | .fix a =>
    if a &&& 0xffff ≠ 0 then
      let r := (a &&& 0xffff0000) + 0x10000
      if r = 0x80000000 then none else some (mkFix r)
    else some (mkFix a)
  | .int a => some (.int a)
  | _ => none

/-- `lua_add` (139-147). -/
def luaAdd : LV → LV → Option LV
  | .fix a, .fix b => some (mkFix (a + b))
  | .int a, .int b => some (mkInt (a + b))
  | _, _ => none

/-- `lua_sub` (149-157). -/
def luaSub : LV → LV → Option LV
  | .fix a, .fix b => some (mkFix (a - b))
  | .int a, .int b => some (mkInt (a - b))
  | _, _ => none

/-- `lua_mul` (159-170); `>> 16` on a Python int is floor division by 65536. -/
def luaMul : LV → LV → Option LV
  | .fix a, .fix b =>
    let r := (fixToSigned a * fixToSigned b).fdiv 65536
    if fixInRange r then some (mkFix r) else none
  | .int a, .int b => some (mkInt (a * b))
  | _, _ => none

/-- `_div_trunc` (172-176); Python's `//` is `Int.fdiv`. -/
def divTrunc (a b : Int) : Int := if (a < 0) ≠ (b < 0) then -(a.fdiv (-b)) else a.fdiv b

/-- `lua_div` (178-187), fixed point only. -/
def luaDiv : LV → LV → Option LV
  | .fix a, .fix b =>
    if b ≠ 0 then
      let r := divTrunc (fixToSigned a * 65536) (fixToSigned b)
      if fixInRange r then some (mkFix r) else none
    else none
  | _, _ => none

/-- `lua_idiv` (189-200). -/
def luaIdiv : LV → LV → Option LV
  | .fix a, .fix b => match luaDiv (.fix a) (.fix b) with
    | some c => luaFloor c
    | none => none
  | .int a, .int b => if b ≠ 0 then some (mkInt (a.fdiv b)) else none
  | _, _ => none

/-- `lua_mod` (202-213). -/
def luaMod : LV → LV → Option LV
  | .fix a, .fix b =>
    if b ≠ 0 ∧ fixIsNeg b = false then
      let r := (fixToSigned a).fmod (fixToSigned b)
      if fixInRange r then some (mkFix r) else none
    else none
  | .int a, .int b => if b ≠ 0 then some (mkInt (a.fmod b)) else none
  | _, _ => none

/-- `lua_eq` (215-219); a fixnum never meets an integer (one language per program), comparing them by value as the source does. -/
def luaEq : LV → LV → Option LV
  | .fix a, .int b => some (.bool ((a : Int) == b))
  | .int a, .fix b => some (.bool (a == (b : Int)))
  | a, b => some (.bool (a == b))

/-- `lua_not_eq` (221-225). -/
def luaNe : LV → LV → Option LV
  | .fix a, .int b => some (.bool ((a : Int) != b))
  | .int a, .fix b => some (.bool (a != (b : Int)))
  | a, b => some (.bool (a != b))

/-- Python's `<` on strings: by code points, then length. -/
def strLt : List Nat → List Nat → Bool
  | _, [] => false
  | [], _ :: _ => true
  | a :: s, b :: t => if a < b then true else if a = b then strLt s t else false

/-- `signed_value` (49-54) of a number. -/
def signedValue : LV → Option Int
  | .fix a => some (fixToSigned a)
  | .int a => some a
  | _ => none

/-- `lua_less` (227-231). -/
def luaLt (a b : LV) : Option LV :=
  match signedValue a, signedValue b, a, b with
  | some x, some y, _, _ => some (.bool (x < y))
  | _, _, .str s, .str t => some (.bool (strLt s t))
  | _, _, _, _ => none

/-- `lua_less_eq` (233-237); `s <= t` on strings is `not t < s`. -/
def luaLe (a b : LV) : Option LV :=
  match signedValue a, signedValue b, a, b with
  | some x, some y, _, _ => some (.bool (x ≤ y))
  | _, _, .str s, .str t => some (.bool (!strLt t s))
  | _, _, _, _ => none

/-- `lua_greater` (239-243). -/
def luaGt (a b : LV) : Option LV :=
  match signedValue a, signedValue b, a, b with
  | some x, some y, _, _ => some (.bool (x > y))
  | _, _, .str s, .str t => some (.bool (strLt t s))
  | _, _, _, _ => none

/-- `lua_greater_eq` (245-249). -/
def luaGe (a b : LV) : Option LV :=
  match signedValue a, signedValue b, a, b with
  | some x, some y, _, _ => some (.bool (x ≥ y))
  | _, _, .str s, .str t => some (.bool (!strLt s t))
  | _, _, _, _ => none

/-- `lua_max` (251-253). -/
def luaMax (a b : LV) : Option LV :=
  match signedValue a, signedValue b with
  | some x, some y => some (if x > y then a else b)
  | _, _ => none

/-- `lua_min` (255-257). -/
def luaMin (a b : LV) : Option LV :=
  match signedValue a, signedValue b with
  | some x, some y => some (if x < y then a else b)
  | _, _ => none

/-- `lua_mid` (259-263). -/
def luaMid (a b c : LV) : Option LV :=
  match signedValue a, signedValue b, signedValue c with
  | some x, some y, some z =>
    let ab := decide (x < y)
    let bc := decide (y < z)
    let ac := decide (x < z)
    some (if ab = bc then b else if ab ≠ ac then a else c)
  | _, _, _ => none

/-- `lua_bin_not` (265-269). -/
def luaBnot : LV → Option LV
  | .fix a => some (mkFix (-a - 1))
  | .int a => some (mkInt (-(uintValue a) - 1))
  | _ => none

/-- `lua_bin_and` (271-275). -/
def luaBand : LV → LV → Option LV
  | .fix a, .fix b => some (mkFix (a &&& b : Nat))
  | .int a, .int b => some (mkInt (uintValue a &&& uintValue b : Nat))
  | _, _ => none

/-- `lua_bin_or` (277-281). -/
def luaBor : LV → LV → Option LV
  | .fix a, .fix b => some (mkFix (a ||| b : Nat))
  | .int a, .int b => some (mkInt (uintValue a ||| uintValue b : Nat))
  | _, _ => none

/-- `lua_bin_xor` (283-287). -/
def luaBxor : LV → LV → Option LV
  | .fix a, .fix b => some (mkFix (a ^^^ b : Nat))
  | .int a, .int b => some (mkInt (uintValue a ^^^ uintValue b : Nat))
  | _, _ => none

/-- `rotate_left` (utils.py 2631-2635). -/
def rotateLeft (value count bits : Nat) : Nat :=
  let c := count % bits
  (value <<< c ||| value >>> (bits - c)) &&& (2 ^ bits - 1)

/-- `rotate_right` (utils.py 2637-2641). -/
def rotateRight (value count bits : Nat) : Nat :=
  let c := count % bits
  (value >>> c ||| value <<< (bits - c)) &&& (2 ^ bits - 1)

/-- The shift and rotate functions, which call one another. -/
inductive ShiftFn where
  | shl | shr | lshr | rotl | rotr
deriving DecidableEq, Repr

/-- `lua_shl`, `lua_shr`, `lua_lshr`, `lua_rotl`, `lua_rotr` (289-338).  The first argument bounds the depth of the call stack;
`none` is Python's `RecursionError`. -/
def luaShift : Nat → ShiftFn → LV → LV → Option (Option LV)
  | 0, _, _, _ => none
  | d + 1, .shl, .fix a, .fix b =>
    if fixIsNeg b then
      if !fixIsNeg a then luaShift d .lshr (.fix a) (mkFix (-b)) else some none
    else if fixIsWhole b then some (some (mkFix (a <<< min (fixToWhole b) 32 : Nat)))
    else some none
  | d + 1, .shl, .int a, .int b =>
    if b < 0 then luaShift d .shr (.int a) (mkInt (-b))
    else some (some (mkInt (uintValue a <<< min (uintValue b) 64 : Nat)))
  | d + 1, .shr, .fix a, .fix b =>
    if fixIsNeg b then luaShift d .shl (.fix a) (mkFix (-b))
    else if fixIsWhole b then some (some (mkFix ((fixToSigned a).fdiv (2 ^ min (fixToWhole b) 32))))
    else some none
  | d + 1, .shr, .int a, .int b =>
    if b < 0 then luaShift d .shl (.int a) (mkInt (-b))
    else if a ≥ 0 then some (some (mkInt (uintValue a >>> min (uintValue b) 64 : Nat)))
    else some none
  | d + 1, .lshr, .fix a, .fix b =>
    if fixIsNeg b then luaShift d .shl (.fix a) (mkFix (-b))
    else if fixIsWhole b then some (some (mkFix (a >>> min (fixToWhole b) 32 : Nat)))
    else some none
  | d + 1, .rotl, .fix a, .fix b =>
    if fixIsNeg b then luaShift d .rotr (.fix a) (mkFix (-b))
    else if fixIsWhole b then some (some (mkFix (rotateLeft a (fixToWhole b) 32 : Nat)))
    else some none
  | d + 1, .rotr, .fix a, .fix b =>
    if fixIsNeg b then luaShift d .rotl (.fix a) (mkFix (-b))
    else if fixIsWhole b then some (some (mkFix (rotateRight a (fixToWhole b) 32 : Nat)))
    else some none
  | _ + 1, _, _, _ => some none

/-- `lua_not` (340-341). -/
def luaNot (a : LV) : LV := .bool (!a.truthy)

/-- One code point in UTF-8 with `errors="surrogateescape"`; other surrogates raise. -/
def encodeCp (c : Nat) : Option (List Nat) :=
  if c < 0x80 then some [c]
  else if c < 0x800 then some [0xc0 + c / 64, 0x80 + c % 64]
  else if 0xdc80 ≤ c ∧ c ≤ 0xdcff then some [c - 0xdc00]
  else if 0xd800 ≤ c ∧ c ≤ 0xdfff then none
  else if c < 0x10000 then some [0xe0 + c / 4096, 0x80 + c / 64 % 64, 0x80 + c % 64]
  else if c < 0x110000 then some [0xf0 + c / 262144, 0x80 + c / 4096 % 64, 0x80 + c / 64 % 64, 0x80 + c % 64]
  else none

/-- `encode_luastr` (pico_defs.py 235-236). -/
def encodeLuastr (s : List Nat) : Option (List Nat) := (s.mapM encodeCp).map List.flatten

/-- `lua_len` (349-354). -/
def luaLen (lang : Lang) : LV → Option (Option LV)
  | .str s =>
    match lang with
    | .pico8 => if s.length ≤ 0x7fff then some (some (mkFix (s.length <<< 16 : Nat))) else some none
    | .picotron => (encodeLuastr s).map fun e => some (mkInt e.length)
  | _ => some none

/-- `_lua_tostr` (356-362). -/
def luaTostr : LV → Option (Option (List Nat))
  | .str s => some (some s)
  | .fix a =>
    if fixIsWhole a then (formatFixnum (some 10) a (if fixIsNeg a then .neg else .plain)).map some else some none
  | .int a => (formatLuaInt (some 10) false a (if a < 0 then .neg else .plain)).map some
  | _ => some none

/-- `lua_cat` (365-368); both operands are converted before the test. -/
def luaCat (a b : LV) : Option (Option LV) :=
  match luaTostr a, luaTostr b with
  | some (some s), some (some t) => some (some (.str (s ++ t)))
  | some _, some _ => some none
  | _, _ => none

/-- Keys of `k_const_unary_ops` (370-375). -/
inductive UnOp where
  | neg | bnot | not | len
deriving DecidableEq, Repr

/-- Keys of `k_const_binary_ops` (377-403), together with `^`, which is never folded.  `!=` and `~=` are `ne`; `^^` and binary `~` are
`bxor`. -/
inductive BinOp where
  | or | and | ne | eq | lt | le | gt | ge | bor | bxor | band | shl | shr | lshr | rotl | rotr | cat | add | sub | mul | div | idiv
  | mod | pow
deriving DecidableEq, Repr

/-- `k_const_unary_ops`. -/
def foldUn (lang : Lang) (op : UnOp) (a : LV) : Option (Option LV) :=
  match op with
  | .neg => some (luaNeg a)
  | .bnot => some (luaBnot a)
  | .not => some (some (luaNot a))
  | .len => luaLen lang a

/-- `k_const_binary_ops`, with the stack depth left for the call. -/
def foldBin (depth : Nat) (op : BinOp) (a b : LV) : Option (Option LV) :=
  match op with
  | .or => some (some (if a.truthy then a else b))
  | .and => some (some (if a.truthy then b else a))
  | .ne => some (luaNe a b)
  | .eq => some (luaEq a b)
  | .lt => some (luaLt a b)
  | .le => some (luaLe a b)
  | .gt => some (luaGt a b)
  | .ge => some (luaGe a b)
  | .bor => some (luaBor a b)
  | .bxor => some (luaBxor a b)
  | .band => some (luaBand a b)
  | .shl => luaShift depth .shl a b
  | .shr => luaShift depth .shr a b
  | .lshr => luaShift depth .lshr a b
  | .rotl => luaShift depth .rotl a b
  | .rotr => luaShift depth .rotr a b
  | .cat => luaCat a b
  | .add => some (luaAdd a b)
  | .sub => some (luaSub a b)
  | .mul => some (luaMul a b)
  | .div => some (luaDiv a b)
  | .idiv => some (luaIdiv a b)
  | .mod => some (luaMod a b)
  | .pow => some none

/-- Keys of `k_const_globals` (405-421). -/
inductive Builtin where
  | abs | band | bnot | bor | bxor | ceil | flr | lshr | max | mid | min | rotl | rotr | shl | shr
deriving DecidableEq, Repr

/-- `k_const_globals` with the tests on language and number of arguments (632-633). -/
def foldCall (lang : Lang) (depth : Nat) (f : Builtin) (args : List LV) : Option (Option LV) :=
  match f, args, lang with
  | .abs, [a], _ => some (luaAbs a)
  | .band, [a, b], .pico8 => some (luaBand a b)
  | .bnot, [a], .pico8 => some (luaBnot a)
  | .bor, [a, b], .pico8 => some (luaBor a b)
  | .bxor, [a, b], .pico8 => some (luaBxor a b)
  | .ceil, [a], _ => some (luaCeil a)
  | .flr, [a], _ => some (luaFloor a)
  | .lshr, [a, b], .pico8 => luaShift depth .lshr a b
  | .max, [a, b], _ => some (luaMax a b)
  | .mid, [a, b, c], _ => some (luaMid a b c)
  | .min, [a, b], _ => some (luaMin a b)
  | .rotl, [a, b], .pico8 => luaShift depth .rotl a b
  | .rotr, [a, b], .pico8 => luaShift depth .rotr a b
  | .shl, [a, b], .pico8 => luaShift depth .shl a b
  | .shr, [a, b], .pico8 => luaShift depth .shr a b
  | _, _, _ => some none

end Verif
