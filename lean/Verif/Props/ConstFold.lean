import Verif.ConstFoldOps
/-!
C21, C22, C23: folding a single operation.

`LV.repr lang a = some x` says that the constant `a` stands for the runtime value `x`; `Agrees lang v rt` says that the runtime result
`rt` is defined and is what `v` stands for.  The runtime is specified in Spec/Runtime.lean.
-/
namespace Verif
open Spec

/-- PICO-8 unary operators: a folded result is what the machine computes. -/
theorem C21_unary (op : UnOp) {a v : LV} {x : Val} (hx : LV.repr .pico8 a = some x) (h : foldUn .pico8 op a = some (some v)) :
    ∃ w, rtUn .pico8 op x = some w ∧ LV.repr .pico8 v = some w := by
  obtain ⟨w, h1, h2⟩ := un_ok op hx h
  exact ⟨w, h2, h1⟩

/-- PICO-8 binary operators, for every pair of operands, whichever way the machine shifts left by a negative count. -/
theorem C21_binary (arith : Bool) (d : Nat) (op : BinOp) {a b v : LV} {x y : Val} (hx : LV.repr .pico8 a = some x)
    (hy : LV.repr .pico8 b = some y) (h : foldBin d op a b = some (some v)) :
    ∃ w, rtBin arith op x y = some w ∧ LV.repr .pico8 v = some w := by
  obtain ⟨w, h1, h2⟩ := bin_ok (arith := arith) op hx hy (fun _ e => by cases e) h
  exact ⟨w, h2, h1⟩

/-- PICO-8 builtin calls. -/
theorem C21_call (arith : Bool) (d : Nat) (f : Builtin) {args : List LV} {v : LV} {xs : List Val}
    (hx : args.mapM (LV.repr .pico8) = some xs) (h : foldCall .pico8 d f args = some (some v)) :
    ∃ w, rtCall arith f xs = some w ∧ LV.repr .pico8 v = some w := by
  obtain ⟨w, h1, h2⟩ := call_ok (arith := arith) f hx h
  exact ⟨w, h2, h1⟩

/-- Division by zero is left alone. -/
theorem C21_no_zero_division (d : Nat) (a : Nat) : foldBin d .div (.fix a) (.fix 0) = some none ∧
    foldBin d .idiv (.fix a) (.fix 0) = some none ∧ foldBin d .mod (.fix a) (.fix 0) = some none := by
  simp [foldBin, luaDiv, luaIdiv, luaMod]

/-- Overflowing products and quotients are left alone. -/
theorem C21_no_overflow (d : Nat) {a b : Nat} (ha : a < 2 ^ 32) (hb : b < 2 ^ 32) :
    (rtBin false .mul (.num (BitVec.ofNat 32 a)) (.num (BitVec.ofNat 32 b)) = none → foldBin d .mul (.fix a) (.fix b) = some none) ∧
    (rtBin false .div (.num (BitVec.ofNat 32 a)) (.num (BitVec.ofNat 32 b)) = none → foldBin d .div (.fix a) (.fix b) = some none) := by
  have ra : LV.repr .pico8 (.fix a) = some (.num (BitVec.ofNat 32 a)) := by simp only [LV.repr]; rw [if_pos ⟨trivial, ha⟩]
  have rb : LV.repr .pico8 (.fix b) = some (.num (BitVec.ofNat 32 b)) := by simp only [LV.repr]; rw [if_pos ⟨trivial, hb⟩]
  constructor
  · intro h
    cases e : luaMul (.fix a) (.fix b) with
    | none => simp only [foldBin, e]
    | some v =>
      obtain ⟨w, h1, _⟩ := C21_binary false d .mul ra rb (v := v) (by simp only [foldBin, e])
      rw [h] at h1; cases h1
  · intro h
    cases e : luaDiv (.fix a) (.fix b) with
    | none => simp only [foldBin, e]
    | some v =>
      obtain ⟨w, h1, _⟩ := C21_binary false d .div ra rb (v := v) (by simp only [foldBin, e])
      rw [h] at h1; cases h1

/-- `-1.5 * 2.25 = -3.375`, `-7 % 3 = 2`, `-1 >> 3 = -0.125`, `mid(5, -2, 3) = 3`, `"a"..-12`. -/
example : foldBin 9 .mul (.fix 0xfffe8000) (.fix 0x24000) = some (some (.fix 0xfffca000)) := by decide
example : foldBin 9 .mod (.fix 0xfff90000) (.fix 0x30000) = some (some (.fix 0x20000)) := by decide
example : foldBin 9 .shr (.fix 0xffff0000) (.fix 0x30000) = some (some (.fix 0xffffe000)) := by decide
example : foldCall .pico8 9 .mid [.fix 0x50000, .fix 0xfffe0000, .fix 0x30000] = some (some (.fix 0x30000)) := by decide
example : LV.repr .pico8 (.fix 0xfffe8000) = some (.num 0xfffe8000#32) := by decide
example : foldBin 9 .mul (.fix 0x7fff0000) (.fix 0x20000) = some none := by decide

/-- Picotron unary operators. -/
theorem C22_unary (op : UnOp) {a v : LV} {x : Val} (hx : LV.repr .picotron a = some x) (h : foldUn .picotron op a = some (some v)) :
    ∃ w, rtUn .picotron op x = some w ∧ LV.repr .picotron v = some w := by
  obtain ⟨w, h1, h2⟩ := un_ok op hx h
  exact ⟨w, h2, h1⟩

/-- Picotron binary operators.  Strings with bytes that are no text (Python surrogates) are excluded from comparisons. -/
theorem C22_binary (arith : Bool) (d : Nat) (op : BinOp) {a b v : LV} {x y : Val} (hx : LV.repr .picotron a = some x)
    (hy : LV.repr .picotron b = some y)
    (hc : op ∈ [BinOp.eq, .ne, .lt, .le, .gt, .ge] → ∀ s, (a = .str s ∨ b = .str s) → ∀ c ∈ s, ¬ (0xdc80 ≤ c ∧ c ≤ 0xdcff))
    (h : foldBin d op a b = some (some v)) :
    ∃ w, rtBin arith op x y = some w ∧ LV.repr .picotron v = some w := by
  obtain ⟨w, h1, h2⟩ := bin_ok (arith := arith) op hx hy (fun ho _ => hc ho) h
  exact ⟨w, h2, h1⟩

/-- In particular for every two 64-bit integers, whichever way the machine shifts negative numbers right. -/
theorem C22_int (arith : Bool) (d : Nat) (op : BinOp) (x y : BitVec 64) {v : LV}
    (h : foldBin d op (.int x.toInt) (.int y.toInt) = some (some v)) :
    ∃ w, rtBin arith op (.int x) (.int y) = some w ∧ LV.repr .picotron v = some w := by
  have r : ∀ z : BitVec 64, LV.repr .picotron (.int z.toInt) = some (.int z) := by
    intro z
    simp only [LV.repr]
    have h1 := z.toInt_lt
    have h2 := z.le_toInt
    rw [if_pos ⟨trivial, by simpa using h2, by simpa using h1⟩, BitVec.ofInt_toInt]
  refine C22_binary arith d op (r x) (r y) ?_ h
  intro _ s hs
  rcases hs with hs | hs <;> cases hs

/-- Picotron builtin calls. -/
theorem C22_call (arith : Bool) (d : Nat) (f : Builtin) {args : List LV} {v : LV} {xs : List Val}
    (hx : args.mapM (LV.repr .picotron) = some xs) (h : foldCall .picotron d f args = some (some v)) :
    ∃ w, rtCall arith f xs = some w ∧ LV.repr .picotron v = some w := by
  obtain ⟨w, h1, h2⟩ := call_ok (arith := arith) f hx h
  exact ⟨w, h2, h1⟩

example : foldBin 9 .idiv (.int (-7)) (.int 2) = some (some (.int (-4))) := by decide
example : foldBin 9 .add (.int 0x7fffffffffffffff) (.int 1) = some (some (.int (-0x8000000000000000))) := by decide
example : foldBin 9 .shl (.int (-1)) (.int (-60)) = some none := by decide
example : foldBin 9 .shl (.int (-1)) (.int 60) = some (some (.int (-0x1000000000000000))) := by decide
example : foldUn .picotron .len (.str [0x20ac]) = some (some (.int 3)) := by decide

/-- The exclusion is needed: `"€" == "\xe2\x82\xac"` is folded to `false`, but both are the same three bytes; and `"\xff" < "😀"` is
folded to `true`, but the byte 255 is above the bytes of the emoji. -/
theorem C22_string_counterexample :
    (∃ v x, LV.repr .picotron (.str [0x20ac]) = some x ∧ LV.repr .picotron (.str [0xdce2, 0xdc82, 0xdcac]) = some x ∧
      foldBin 9 .eq (.str [0x20ac]) (.str [0xdce2, 0xdc82, 0xdcac]) = some (some v) ∧ v = .bool false ∧
      rtBin true .eq x x = some (.bool true)) ∧
    (∃ v x y, LV.repr .picotron (.str [0xdcff]) = some x ∧ LV.repr .picotron (.str [0x1f600]) = some y ∧
      foldBin 9 .lt (.str [0xdcff]) (.str [0x1f600]) = some (some v) ∧ v = .bool true ∧ rtBin true .lt x y = some (.bool false)) :=
  ⟨⟨.bool false, .str [0xe2, 0x82, 0xac], by decide, by decide, by decide, rfl, by decide⟩,
   ⟨.bool true, .str [255], .str [0xf0, 0x9f, 0x98, 0x80], by decide, by decide, by decide, rfl, by decide⟩⟩

/-! ### Termination -/

/-- The operators that are folded by mutually recursive functions. -/
def isShift (op : BinOp) : Bool := op ∈ [BinOp.shl, .shr, .lshr, .rotl, .rotr]

/-- A shift count that is its own negation. -/
def selfNeg : LV → Bool
  | .fix n => n == 2 ^ 31
  | .int i => i == -2 ^ 63
  | _ => false

theorem shift_total {lang : Lang} {d : Nat} (f : ShiftFn) {a b : LV} {x y : Val} (hx : LV.repr lang a = some x)
    (hy : LV.repr lang b = some y) (hb : selfNeg b = false) : ∃ r, luaShift (d + 2) f a b = some r := by
  cases a with
  | nil => exact ⟨none, by cases f <;> cases b <;> rfl⟩
  | bool => exact ⟨none, by cases f <;> cases b <;> rfl⟩
  | str => exact ⟨none, by cases f <;> cases b <;> rfl⟩
  | fix m =>
    obtain ⟨_, h1, _⟩ := repr_fix_inv hx
    cases b with
    | nil => exact ⟨none, by cases f <;> rfl⟩
    | bool => exact ⟨none, by cases f <;> rfl⟩
    | str => exact ⟨none, by cases f <;> rfl⟩
    | int => exact ⟨none, by cases f <;> rfl⟩
    | fix n =>
      obtain ⟨_, h2, _⟩ := repr_fix_inv hy
      have hn : n ≠ 2 ^ 31 := by simpa [selfNeg] using hb
      rcases Nat.lt_or_ge n (2 ^ 31) with h | h
      · rw [luaShift_pos (d + 1) f h]; exact ⟨_, rfl⟩
      · rw [luaShift_neg (d + 1) f h1 h h2]
        split
        · exact ⟨_, rfl⟩
        · rw [luaShift_pos d _ (by omega)]; exact ⟨_, rfl⟩
  | int m =>
    obtain ⟨_, h1, _⟩ := repr_int_inv hx
    cases b with
    | nil => exact ⟨none, by cases f <;> rfl⟩
    | bool => exact ⟨none, by cases f <;> rfl⟩
    | str => exact ⟨none, by cases f <;> rfl⟩
    | fix => exact ⟨none, by cases f <;> rfl⟩
    | int n =>
      obtain ⟨_, h2, _⟩ := repr_int_inv hy
      have hn : n ≠ -2 ^ 63 := by simpa [selfNeg] using hb
      have hneg : n < 0 → LV.mkInt (-n) = .int (-n) := fun h => mkInt_neg ⟨by omega, h⟩
      cases f with
      | shl =>
        simp only [luaShift]
        split
        · rename_i h; rw [hneg h]; simp only [luaShift]; rw [if_neg (by omega)]; split <;> exact ⟨_, rfl⟩
        · exact ⟨_, rfl⟩
      | shr =>
        simp only [luaShift]
        split
        · rename_i h; rw [hneg h]; simp only [luaShift]; rw [if_neg (by omega)]; exact ⟨_, rfl⟩
        · split <;> exact ⟨_, rfl⟩
      | lshr => exact ⟨none, rfl⟩
      | rotl => exact ⟨none, rfl⟩
      | rotr => exact ⟨none, rfl⟩

theorem tostr_total {lang : Lang} {a : LV} {x : Val} (hx : LV.repr lang a = some x) : ∃ r, luaTostr a = some r := by
  cases a with
  | nil => exact ⟨_, rfl⟩
  | bool => exact ⟨_, rfl⟩
  | str => exact ⟨_, rfl⟩
  | int i => obtain ⟨_, h, _⟩ := repr_int_inv hx; exact ⟨_, luaTostr_int h⟩
  | fix m =>
    obtain ⟨_, h, _⟩ := repr_fix_inv hx
    simp only [luaTostr]
    split
    · obtain ⟨t, ht, _⟩ := C18_roundtrip (base := some 10) (Or.inr (Or.inl rfl)) h (if fixIsNeg m then .neg else .plain)
      rw [ht]; exact ⟨_, rfl⟩
    · exact ⟨_, rfl⟩

/-- Folding a binary operator returns, with room for one nested call, unless it shifts or rotates by the one count that is its own
negation (-32768, and -2^63 in Picotron).  Missing: those counts, where it does not (C23_counterexample). -/
theorem C23_terminates_partial {lang : Lang} {d : Nat} (op : BinOp) {a b : LV} {x y : Val} (hx : LV.repr lang a = some x)
    (hy : LV.repr lang b = some y) (hb : isShift op = true → selfNeg b = false) : ∃ r, foldBin (d + 2) op a b = some r := by
  cases op <;> simp only [foldBin]
  case shl => exact shift_total _ hx hy (hb rfl)
  case shr => exact shift_total _ hx hy (hb rfl)
  case lshr => exact shift_total _ hx hy (hb rfl)
  case rotl => exact shift_total _ hx hy (hb rfl)
  case rotr => exact shift_total _ hx hy (hb rfl)
  case cat =>
    obtain ⟨r, h1⟩ := tostr_total hx
    obtain ⟨t, h2⟩ := tostr_total hy
    unfold luaCat
    rw [h1, h2]
    cases r <;> cases t <;> exact ⟨_, rfl⟩
  all_goals exact ⟨_, rfl⟩

/-- Unary operators always return. -/
theorem C23_unary {lang : Lang} (op : UnOp) {a : LV} {x : Val} (hx : LV.repr lang a = some x) : ∃ r, foldUn lang op a = some r := by
  cases op <;> simp only [foldUn]
  case len =>
    cases a <;> simp only [luaLen] <;> try exact ⟨_, rfl⟩
    rename_i s
    cases lang with
    | pico8 => simp only; split <;> exact ⟨_, rfl⟩
    | picotron =>
      simp only [LV.repr, Option.map_eq_some_iff] at hx
      obtain ⟨e, he, _⟩ := hx
      simp only [he]; exact ⟨_, rfl⟩
  all_goals exact ⟨_, rfl⟩

/-- Builtin calls, under the same proviso on the second argument. -/
theorem C23_call_partial {lang : Lang} {d : Nat} (f : Builtin) {args : List LV} (hx : ∀ a ∈ args, ∃ x, LV.repr lang a = some x)
    (hb : ∀ b, args[1]? = some b → selfNeg b = false) : ∃ r, foldCall lang (d + 2) f args = some r := by
  match args with
  | [] => exact ⟨none, by cases f <;> cases lang <;> rfl⟩
  | [a] => cases f <;> cases lang <;> exact ⟨_, rfl⟩
  | [a, b, c] => cases f <;> cases lang <;> exact ⟨_, rfl⟩
  | _ :: _ :: _ :: _ :: _ => exact ⟨none, by cases f <;> cases lang <;> rfl⟩
  | [a, b] =>
    obtain ⟨x, hx1⟩ := hx a (by simp)
    obtain ⟨y, hy1⟩ := hx b (by simp)
    have hb' := hb b rfl
    have key := fun f => shift_total (d := d) f hx1 hy1 hb'
    cases f <;> cases lang <;> first | exact ⟨_, rfl⟩ | exact key _

theorem loop_fix (d : Nat) : (∀ a, a < 2 ^ 31 → luaShift d .shl (.fix a) (.fix (2 ^ 31)) = none ∧
      luaShift d .lshr (.fix a) (.fix (2 ^ 31)) = none ∧ luaShift d .shr (.fix a) (.fix (2 ^ 31)) = none) ∧
    (∀ a, a < 2 ^ 32 → luaShift d .rotl (.fix a) (.fix (2 ^ 31)) = none ∧ luaShift d .rotr (.fix a) (.fix (2 ^ 31)) = none) := by
  induction d with
  | zero => exact ⟨fun a _ => ⟨rfl, rfl, rfl⟩, fun a _ => ⟨rfl, rfl⟩⟩
  | succ d ih =>
    obtain ⟨ih1, ih2⟩ := ih
    refine ⟨fun a ha => ?_, fun a ha => ?_⟩
    · obtain ⟨h1, h2, h3⟩ := ih1 a ha
      refine ⟨?_, ?_, ?_⟩ <;> rw [luaShift_neg d _ (by omega) (by omega) (by omega)]
      · rw [if_neg (by omega)]; exact h2
      · rw [if_neg (by simp)]; exact h1
      · rw [if_neg (by simp)]; exact h1
    · obtain ⟨h1, h2⟩ := ih2 a ha
      refine ⟨?_, ?_⟩ <;> rw [luaShift_neg d _ (by omega) (by omega) (by omega), if_neg (by simp)]
      · exact h2
      · exact h1

theorem loop_int (d : Nat) (i : Int) : luaShift d .shl (.int i) (.int (-2 ^ 63)) = none ∧ luaShift d .shr (.int i) (.int (-2 ^ 63)) = none := by
  induction d with
  | zero => exact ⟨rfl, rfl⟩
  | succ d ih =>
    constructor
    · simp only [luaShift]; rw [if_pos (by decide), mkInt_min]; exact ih.2
    · simp only [luaShift]; rw [if_pos (by decide), mkInt_min]; exact ih.1

/-- The functions call each other for ever, whatever the size of the stack: PICO-8 `a << -32768` (also written `a << 32768`), `>>`,
`>>>` for every `a ≥ 0`, rotations for every `a`, and Picotron `<<` and `>>` by -2^63 for every integer. -/
theorem C23_counterexample (d : Nat) :
    (∀ a, a < 2 ^ 31 → foldBin d .shl (.fix a) (.fix 0x80000000) = none ∧ foldBin d .shr (.fix a) (.fix 0x80000000) = none ∧
      foldBin d .lshr (.fix a) (.fix 0x80000000) = none) ∧
    (∀ a, a < 2 ^ 32 → foldBin d .rotl (.fix a) (.fix 0x80000000) = none ∧ foldBin d .rotr (.fix a) (.fix 0x80000000) = none) ∧
    (∀ i, foldBin d .shl (.int i) (.int (-0x8000000000000000)) = none ∧ foldBin d .shr (.int i) (.int (-0x8000000000000000)) = none) := by
  refine ⟨fun a ha => ?_, fun a ha => ?_, fun i => ?_⟩
  · obtain ⟨h1, h2, h3⟩ := (loop_fix d).1 a ha; exact ⟨h1, h3, h2⟩
  · exact (loop_fix d).2 a ha
  · exact loop_int d i

/-- `1 << 31.0` and `1 << -3` return. -/
example : isShift .shl = true ∧ selfNeg (.fix 0xfffd0000) = false ∧
    foldBin 2 .shl (.fix 0x10000) (.fix 0xfffd0000) = some (some (.fix 0x2000)) := by decide

end Verif
