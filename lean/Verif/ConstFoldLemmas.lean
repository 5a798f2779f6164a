import Verif.Spec.Runtime
import Verif.Props.Num
/-
Helper lemmas for constant folding: Python integers against bit vectors.
-/
namespace Verif
open Spec

theorem and_high16 {a : Nat} (h : a < 2 ^ 32) : a &&& 0xffff0000 = a / 65536 * 65536 := by
  have e : (0xffff0000 : Nat) = 0xffff <<< 16 := by decide
  have : a &&& (0xffff <<< 16) = ((a >>> 16) &&& 0xffff) <<< 16 := by
    apply Nat.eq_of_testBit_eq
    intro i
    simp only [Nat.testBit_and, Nat.testBit_shiftLeft, Nat.testBit_shiftRight]
    by_cases hi : 16 ≤ i
    · simp [hi]
    · simp [hi]
  rw [e, this, Nat.shiftLeft_eq, Nat.shiftRight_eq_div_pow, show (0xffff : Nat) = 2 ^ 16 - 1 from rfl, Nat.and_two_pow_sub_one_eq_mod]
  omega

theorem and_low16 (a : Nat) : a &&& 0xffff = a % 65536 := Nat.and_two_pow_sub_one_eq_mod a 16

theorem and_bit31 {a : Nat} (h : a < 2 ^ 32) : a &&& 0x80000000 = if 2 ^ 31 ≤ a then 2 ^ 31 else 0 := by
  have e : (0x80000000 : Nat) = 1 <<< 31 := by decide
  have : a &&& (1 <<< 31) = ((a >>> 31) &&& 1) <<< 31 := by
    apply Nat.eq_of_testBit_eq
    intro i
    simp only [Nat.testBit_and, Nat.testBit_shiftLeft, Nat.testBit_shiftRight]
    by_cases hi : 31 ≤ i
    · simp [hi]
    · simp [hi]
  rw [e, this, Nat.shiftLeft_eq, Nat.shiftRight_eq_div_pow, Nat.and_one_is_mod]
  split
  · rw [show a / 2 ^ 31 = 1 by omega]
  · rw [show a / 2 ^ 31 = 0 by omega]

theorem fixIsNeg_eq {a : Nat} (h : a < 2 ^ 32) : fixIsNeg a = decide (2 ^ 31 ≤ a) := by
  unfold fixIsNeg
  rw [and_bit31 h]
  split <;> simp_all

theorem fixToSigned_cond {a : Nat} (h : a < 2 ^ 32) : fixToSigned a = if 2 ^ 31 ≤ a then (a : Int) - 2 ^ 32 else (a : Int) := by
  unfold fixToSigned
  rw [and_bit31 h]
  split <;> split <;> omega

theorem fixToSigned_eq {a : Nat} (h : a < 2 ^ 32) : fixToSigned a = (BitVec.ofNat 32 a).toInt := by
  unfold fixToSigned
  rw [and_bit31 h, BitVec.toInt_eq_toNat_cond, BitVec.toNat_ofNat, Nat.mod_eq_of_lt h]
  split <;> split <;> omega

theorem mkFix_val (v : Int) : BitVec.ofNat 32 (v % 2 ^ 32).toNat = BitVec.ofInt 32 v := by
  apply BitVec.eq_of_toNat_eq
  rw [BitVec.toNat_ofNat, BitVec.toNat_ofInt]
  omega

theorem toLuaInt_val (v : Int) : BitVec.ofInt 64 (toLuaInt v) = BitVec.ofInt 64 v := by
  apply BitVec.eq_of_toNat_eq
  rw [BitVec.toNat_ofInt, BitVec.toNat_ofInt]
  unfold toLuaInt; simp only; split <;> omega

theorem toLuaInt_range (v : Int) : -2 ^ 63 ≤ toLuaInt v ∧ toLuaInt v < 2 ^ 63 := by
  unfold toLuaInt; simp only; split <;> omega

theorem ofInt64_toInt {v : Int} (h : -2 ^ 63 ≤ v ∧ v < 2 ^ 63) : (BitVec.ofInt 64 v).toInt = v := by
  rw [BitVec.toInt_ofInt]; unfold Int.bmod; simp only; split <;> omega

theorem ofInt32_toInt {v : Int} (h : -2 ^ 31 ≤ v ∧ v < 2 ^ 31) : (BitVec.ofInt 32 v).toInt = v := by
  rw [BitVec.toInt_ofInt]; unfold Int.bmod; simp only; split <;> omega

theorem uintValue_val (v : Int) : BitVec.ofNat 64 (uintValue v) = BitVec.ofInt 64 v := by
  apply BitVec.eq_of_toNat_eq
  rw [BitVec.toNat_ofNat, BitVec.toNat_ofInt]
  unfold uintValue; omega

theorem uintValue_toNat (v : Int) : (BitVec.ofInt 64 v).toNat = uintValue v := by
  rw [BitVec.toNat_ofInt]; rfl

theorem uintValue_lt (v : Int) : uintValue v < 2 ^ 64 := by unfold uintValue; omega

theorem fixInRange_iff (v : Int) : fixInRange v = true ↔ -2 ^ 31 ≤ v ∧ v < 2 ^ 31 := by
  unfold fixInRange; simp only [Bool.and_eq_true, decide_eq_true_eq]; omega

theorem divTrunc_eq (a b : Int) : divTrunc a b = a.tdiv b := by
  unfold divTrunc
  by_cases ha : a < 0 <;> by_cases hb' : b < 0
  · rw [if_neg (by simp [ha, hb'])]
    rw [← Int.neg_fdiv_neg a b, ← Int.neg_tdiv_neg a b]
    rw [Int.tdiv_eq_ediv_of_nonneg (by omega), Int.fdiv_eq_ediv_of_nonneg _ (by omega)]
  · rw [if_pos (by simp [ha, hb'])]
    rw [← Int.neg_fdiv_neg a (-b), Int.neg_neg, show a.tdiv b = -((-a).tdiv b) by rw [Int.neg_tdiv, Int.neg_neg]]
    rw [Int.tdiv_eq_ediv_of_nonneg (by omega), Int.fdiv_eq_ediv_of_nonneg _ (by omega)]
  · rw [if_pos (by simp [ha, hb'])]
    rw [show a.tdiv b = -(a.tdiv (-b)) by rw [Int.tdiv_neg, Int.neg_neg]]
    rw [Int.tdiv_eq_ediv_of_nonneg (by omega), Int.fdiv_eq_ediv_of_nonneg _ (by omega)]
  · rw [if_neg (by simp [ha, hb'])]
    rw [Int.tdiv_eq_ediv_of_nonneg (by omega), Int.fdiv_eq_ediv_of_nonneg _ (by omega)]

/-! ### Decimal texts -/

theorem digitChar_toNat : ∀ n, n < 10 → (Nat.digitChar n).toNat = 48 + n := by decide

theorem natDigits_repr (n : Nat) : n.repr.toList.map Char.toNat = natDigits n := by
  rw [Nat.toList_repr]
  induction n using Nat.strongRecOn with
  | _ n ih =>
    rw [Nat.toDigits_eq_if (by decide)]
    unfold natDigits
    split
    · rename_i h; simp [digitChar_toNat n h]
    · rw [List.map_append, ih _ (by omega)]
      simp [digitChar_toNat (n % 10) (by omega)]

theorem decText_nonneg (n : Nat) : decText (n : Int) = natDigits n := by
  unfold decText; rw [Int.toString_eq_repr]; exact natDigits_repr n

theorem decText_neg {n : Nat} (h : 0 < n) : decText (-(n : Int)) = 45 :: natDigits n := by
  obtain ⟨m, rfl⟩ : ∃ m, n = m + 1 := ⟨n - 1, by omega⟩
  unfold decText; rw [Int.toString_eq_repr]
  have : (-((m + 1 : Nat) : Int)).repr = "-" ++ (m + 1).repr := rfl
  rw [this, String.toList_append, List.map_append, natDigits_repr]
  rfl

theorem natDigits_no_dot (n : Nat) : 46 ∉ natDigits n := fun h => by have := natDigits_digit n 46 h; omega

theorem roundHalfEven_whole (n : Nat) : roundHalfEven (n * 65536 * 10 ^ 6) 65536 = n * 10 ^ 6 := by
  unfold roundHalfEven; simp only; rw [if_pos (by omega)]; omega

theorem dec6_whole (n : Nat) : dec6 (n * 65536) = natDigits n ++ [46, 48, 48, 48, 48, 48, 48] := by
  unfold dec6
  simp only
  rw [roundHalfEven_whole, show n * 10 ^ 6 / 10 ^ 6 = n by omega, show n * 10 ^ 6 % 10 ^ 6 = 0 by omega]
  rfl

theorem minify_whole {α : Type} [DecidableEq α] (parse : List Nat → α) (target : α) (s : List Nat) (hs : 46 ∉ s)
    (hp : parse (s ++ [46, 48, 48, 48, 48, 48, 48]) = target) :
    floatStrMinify parse target false (s ++ [46, 48, 48, 48, 48, 48, 48]) = some s := by
  unfold floatStrMinify
  rw [decide_eq_true hp]
  obtain ⟨k, hk⟩ : ∃ k, (s ++ [46, 48, 48, 48, 48, 48, 48]).length + 1 = k + 8 := ⟨s.length, by simp⟩
  rw [hk]
  have e : (s ++ [46, 48, 48, 48, 48, 48, 48]).reverse = 48 :: 48 :: 48 :: 48 :: 48 :: 48 :: 46 :: s.reverse := by simp
  rw [e]
  simp only [minifyLoop, List.mem_cons, true_or, or_true, if_true, show ¬ (48 : Nat) = 46 by decide, if_false, and_self]
  simp only [Bool.false_eq_true, if_false, Option.map_some, List.reverse_reverse, Option.some.injEq]
  unfold stripZero
  rw [if_neg]
  intro h
  apply hs
  exact List.mem_of_mem_take (i := 2) (by rw [h.1]; simp)

theorem fixDec_whole {n : Nat} (h : n < 65536) : fixDec (n * 65536) = some (natDigits n) := by
  unfold fixDec
  rw [dec6_whole]
  refine minify_whole _ _ _ (natDigits_no_dot n) ?_
  have hd := dec6_text (n * 65536)
  rw [dec6_whole] at hd
  have := parseFixnum_dec hd.1
  rw [this, hd.2, roundHalfEven_whole]
  congr 1
  omega

theorem format_whole {n : Nat} (h : n < 65536) : formatFixnum (some 10) (n * 65536) .plain = some (natDigits n) := by
  rw [← fixDec_whole h]; rfl

theorem format_neg {v n : Nat} (h : n < 65536) (hv : (2 ^ 32 - v) % 2 ^ 32 = n * 65536) :
    formatFixnum (some 10) v .neg = some (45 :: natDigits n) := by
  have : formatFixnum (some 10) v .neg = (fixDec ((2 ^ 32 - v) % 2 ^ 32)).map (45 :: ·) := rfl
  rw [this, hv, fixDec_whole h]; rfl

/-- The text of a whole fixed point number (pico_constfold.py 359-360). -/
theorem luaTostr_fix {a : Nat} (ha : a < 2 ^ 32) {t : List Nat} (h : luaTostr (.fix a) = some (some t)) :
    tostr (.num (BitVec.ofNat 32 a)) = some t := by
  simp only [luaTostr] at h
  simp only [tostr]
  rw [← fixToSigned_eq ha]
  have hw : fixIsWhole a = decide (a % 65536 = 0) := by unfold fixIsWhole; rw [and_low16]; rfl
  rw [hw, fixIsNeg_eq ha] at h
  split at h
  · rename_i hz
    simp only [decide_eq_true_eq] at hz
    rw [fixToSigned_cond ha]
    by_cases hn : 2 ^ 31 ≤ a
    · rw [if_pos (by simpa using hn), format_neg (n := (2 ^ 32 - a) / 65536) (by omega) (by omega)] at h
      simp only [Option.map_some, Option.some.injEq] at h
      rw [if_pos hn, if_pos (by omega)]
      rw [show ((a : Int) - 2 ^ 32) / 65536 = -(((2 ^ 32 - a) / 65536 : Nat) : Int) by omega, decText_neg (by omega), h]
    · rw [if_neg (by simpa using hn)] at h
      have e : a = a / 65536 * 65536 := by omega
      rw [e, format_whole (by omega)] at h
      simp only [Option.map_some, Option.some.injEq] at h
      rw [if_neg hn, if_pos (by omega)]
      rw [show (a : Int) / 65536 = ((a / 65536 : Nat) : Int) by omega, decText_nonneg, h]
  · simp at h

theorem luaTostr_int {a : Int} (ha : -2 ^ 63 ≤ a ∧ a < 2 ^ 63) : luaTostr (.int a) = some (some (decText a)) := by
  unfold luaTostr
  by_cases hn : a < 0
  · simp only [hn, if_true]
    have : formatLuaInt (some 10) false a .neg = some (45 :: natDigits ((-a) % 2 ^ 64).toNat) := rfl
    rw [this]
    have e : a = -(((-a).toNat : Nat) : Int) := by omega
    have e2 : ((-a) % (2 ^ 64 : Int)).toNat = (-a).toNat := by omega
    rw [e2]
    conv => rhs; rw [e]
    rw [decText_neg (by omega)]; rfl
  · simp only [hn, if_false]
    have : formatLuaInt (some 10) false a .plain = some (natDigits (a % 2 ^ 64).toNat) := rfl
    rw [this]
    have e : a = ((a.toNat : Nat) : Int) := by omega
    have e2 : (a % (2 ^ 64 : Int)).toNat = a.toNat := by omega
    rw [e2]
    conv => rhs; rw [e]
    rw [decText_nonneg]; rfl

/-! ### Shifts -/

/-- What a shift by a non-negative whole count computes (the innermost branches of pico_constfold.py 295-337). -/
def shiftPos (f : ShiftFn) (a n : Nat) : Int :=
  match f with
  | .shl => (a <<< min n 32 : Nat)
  | .shr => (fixToSigned a).fdiv (2 ^ min n 32)
  | .lshr => (a >>> min n 32 : Nat)
  | .rotl => (rotateLeft a n 32 : Nat)
  | .rotr => (rotateRight a n 32 : Nat)

/-- The function called for a negative count. -/
def ShiftFn.flip : ShiftFn → ShiftFn
  | .shl => .lshr
  | .shr => .shl
  | .lshr => .shl
  | .rotl => .rotr
  | .rotr => .rotl

theorem luaShift_pos (d : Nat) (f : ShiftFn) {a b : Nat} (hb : b < 2 ^ 31) :
    luaShift (d + 1) f (.fix a) (.fix b) = some (if b % 65536 = 0 then some (LV.mkFix (shiftPos f a (b / 65536))) else none) := by
  have hn : fixIsNeg b = false := by rw [fixIsNeg_eq (by omega)]; exact decide_eq_false (by omega)
  have hw : fixIsWhole b = decide (b % 65536 = 0) := by unfold fixIsWhole; rw [and_low16]; rfl
  have ht : fixToWhole b = b / 65536 := by unfold fixToWhole; rw [Nat.shiftRight_eq_div_pow]
  cases f <;> (simp only [luaShift, hn, Bool.false_eq_true, if_false, hw, ht, shiftPos, decide_eq_true_eq]; split <;> rfl)

theorem mkFix_neg {b : Nat} (h1 : 0 < b) (h2 : b < 2 ^ 32) : LV.mkFix (-(b : Int)) = .fix (2 ^ 32 - b) := by
  unfold LV.mkFix; congr 1; omega

theorem luaShift_neg (d : Nat) (f : ShiftFn) {a b : Nat} (ha : a < 2 ^ 32) (hb : 2 ^ 31 ≤ b) (hb2 : b < 2 ^ 32) :
    luaShift (d + 1) f (.fix a) (.fix b) =
      if f = .shl ∧ 2 ^ 31 ≤ a then some none else luaShift d f.flip (.fix a) (.fix (2 ^ 32 - b)) := by
  have hn : fixIsNeg b = true := by rw [fixIsNeg_eq (by omega)]; exact decide_eq_true (by omega)
  have hna := fixIsNeg_eq ha
  cases f <;> simp only [luaShift, hn, if_true, mkFix_neg (by omega : 0 < b) hb2, ShiftFn.flip, reduceCtorEq, false_and, if_false,
    true_and]
  by_cases h : 2 ^ 31 ≤ a
  · rw [if_pos h, if_neg (by rw [hna, decide_eq_true h]; decide)]
  · rw [if_neg h, if_pos (by rw [hna, decide_eq_false h]; decide)]

/-- A count of -32768 is its own negation: the functions call one another until the stack is exhausted. -/
theorem luaShift_min (d : Nat) (f : ShiftFn) {a : Nat} (ha : a < 2 ^ 32) {v : LV} :
    luaShift d f (.fix a) (.fix (2 ^ 31)) ≠ some (some v) := by
  induction d generalizing f with
  | zero => simp [luaShift]
  | succ d ih =>
    rw [luaShift_neg d f ha (by omega) (by omega)]
    split
    · simp
    · exact ih _

/-- Inversion: a folded shift comes from a whole count, possibly negative. -/
theorem luaShift_inv {d : Nat} {f : ShiftFn} {a b : Nat} {v : LV} (ha : a < 2 ^ 32) (hb : b < 2 ^ 32)
    (h : luaShift d f (.fix a) (.fix b) = some (some v)) :
    b % 65536 = 0 ∧ b ≠ 2 ^ 31 ∧
      ((b < 2 ^ 31 ∧ v = LV.mkFix (shiftPos f a (b / 65536))) ∨
       (2 ^ 31 < b ∧ (f = .shl → a < 2 ^ 31) ∧ v = LV.mkFix (shiftPos f.flip a ((2 ^ 32 - b) / 65536)))) := by
  cases d with
  | zero => simp [luaShift] at h
  | succ d =>
    by_cases hn : b < 2 ^ 31
    · rw [luaShift_pos d f hn] at h
      split at h
      · rename_i hz
        exact ⟨hz, by omega, Or.inl ⟨hn, by simpa using h.symm⟩⟩
      · simp at h
    · have hmin : b ≠ 2 ^ 31 := by intro e; subst e; exact luaShift_min _ _ ha h
      rw [luaShift_neg d f ha (by omega) hb] at h
      split at h
      · simp at h
      · rename_i hc
        cases d with
        | zero => simp [luaShift] at h
        | succ d =>
          rw [luaShift_pos d _ (by omega)] at h
          split at h
          · rename_i hz
            refine ⟨by omega, hmin, Or.inr ⟨by omega, ?_, by simpa using h.symm⟩⟩
            intro hf
            rcases Nat.lt_or_ge a (2 ^ 31) with h' | h'
            · exact h'
            · exact absurd ⟨hf, h'⟩ hc
          · simp at h

theorem rotateLeft_val {a : Nat} (ha : a < 2 ^ 32) (n : Nat) :
    BitVec.ofNat 32 (rotateLeft a n 32) = (BitVec.ofNat 32 a).rotateLeft n := by
  apply BitVec.eq_of_toNat_eq
  unfold rotateLeft BitVec.rotateLeft BitVec.rotateLeftAux
  simp only
  rw [BitVec.toNat_ofNat, BitVec.toNat_or, BitVec.toNat_shiftLeft, BitVec.toNat_ushiftRight, BitVec.toNat_ofNat,
    Nat.mod_eq_of_lt ha, Nat.and_two_pow_sub_one_eq_mod, Nat.mod_mod, Nat.or_mod_two_pow]
  congr 1
  rw [Nat.shiftRight_eq_div_pow]
  exact Nat.mod_eq_of_lt (Nat.lt_of_le_of_lt (Nat.div_le_self _ _) ha)

theorem rotateRight_val {a : Nat} (ha : a < 2 ^ 32) (n : Nat) :
    BitVec.ofNat 32 (rotateRight a n 32) = (BitVec.ofNat 32 a).rotateRight n := by
  apply BitVec.eq_of_toNat_eq
  unfold rotateRight BitVec.rotateRight BitVec.rotateRightAux
  simp only
  rw [BitVec.toNat_ofNat, BitVec.toNat_or, BitVec.toNat_shiftLeft, BitVec.toNat_ushiftRight, BitVec.toNat_ofNat,
    Nat.mod_eq_of_lt ha, Nat.and_two_pow_sub_one_eq_mod, Nat.mod_mod, Nat.or_mod_two_pow]
  congr 1
  rw [Nat.shiftRight_eq_div_pow]
  exact Nat.mod_eq_of_lt (Nat.lt_of_le_of_lt (Nat.div_le_self _ _) ha)

theorem rotateRight_neg (x : BitVec 32) (n : Nat) : x.rotateRight n = x.rotateLeft ((-(n : Int)) % 32).toNat := by
  unfold BitVec.rotateRight BitVec.rotateLeft BitVec.rotateLeftAux BitVec.rotateRightAux
  by_cases h : n % 32 = 0
  · have e : ((-(n : Int)) % 32).toNat = 0 := by omega
    rw [e, h]; simp [BitVec.ushiftRight_eq_zero]
  · have e : ((-(n : Int)) % 32).toNat % 32 = 32 - n % 32 := by omega
    rw [e, show 32 - (32 - n % 32) = n % 32 by omega, BitVec.or_comm]

theorem rotateLeft_neg (x : BitVec 32) (n : Nat) : x.rotateLeft n = x.rotateRight ((-(n : Int)) % 32).toNat := by
  unfold BitVec.rotateRight BitVec.rotateLeft BitVec.rotateLeftAux BitVec.rotateRightAux
  by_cases h : n % 32 = 0
  · have e : ((-(n : Int)) % 32).toNat = 0 := by omega
    rw [e, h]; simp [BitVec.ushiftRight_eq_zero]
  · have e : ((-(n : Int)) % 32).toNat % 32 = 32 - n % 32 := by omega
    rw [e, show 32 - (32 - n % 32) = n % 32 by omega, BitVec.or_comm]

theorem ediv_pow_big {x : Int} (h : -2 ^ 31 ≤ x ∧ x < 2 ^ 31) (n : Nat) (hn : 32 ≤ n) : x / 2 ^ n = if x < 0 then -1 else 0 := by
  have hp : (2 : Int) ^ 32 ≤ 2 ^ n := by
    have : (2 : Nat) ^ 32 ≤ 2 ^ n := Nat.pow_le_pow_right (by decide) hn
    exact_mod_cast this
  generalize (2 : Int) ^ n = P at hp
  split
  · rw [Int.ediv_eq_iff_of_pos (by omega)]; omega
  · exact Int.ediv_eq_zero_of_lt (by omega) (by omega)

theorem fixToSigned_range {a : Nat} (ha : a < 2 ^ 32) : -2 ^ 31 ≤ fixToSigned a ∧ fixToSigned a < 2 ^ 31 := by
  rw [fixToSigned_cond ha]; split <;> omega

theorem shift_val (f : ShiftFn) {a : Nat} (ha : a < 2 ^ 32) (n : Nat) : BitVec.ofInt 32 (shiftPos f a n) =
    match f with
    | .shl => BitVec.ofNat 32 a <<< n
    | .shr => (BitVec.ofNat 32 a).sshiftRight n
    | .lshr => BitVec.ofNat 32 a >>> n
    | .rotl => (BitVec.ofNat 32 a).rotateLeft n
    | .rotr => (BitVec.ofNat 32 a).rotateRight n := by
  cases f with
  | shl =>
    simp only [shiftPos, BitVec.ofInt_natCast]
    apply BitVec.eq_of_toNat_eq
    rw [BitVec.toNat_ofNat, BitVec.toNat_shiftLeft, BitVec.toNat_ofNat, Nat.mod_eq_of_lt ha, Nat.shiftLeft_eq, Nat.shiftLeft_eq]
    by_cases h : n ≤ 32
    · rw [Nat.min_eq_left h]
    · rw [Nat.min_eq_right (by omega), show n = 32 + (n - 32) by omega, Nat.pow_add, ← Nat.mul_assoc, Nat.mul_right_comm]
      simp
  | lshr =>
    simp only [shiftPos, BitVec.ofInt_natCast]
    apply BitVec.eq_of_toNat_eq
    rw [BitVec.toNat_ofNat, BitVec.toNat_ushiftRight, BitVec.toNat_ofNat, Nat.mod_eq_of_lt ha, Nat.shiftRight_eq_div_pow,
      Nat.shiftRight_eq_div_pow]
    by_cases h : n ≤ 32
    · rw [Nat.min_eq_left h]
      exact Nat.mod_eq_of_lt (Nat.lt_of_le_of_lt (Nat.div_le_self _ _) ha)
    · rw [Nat.min_eq_right (by omega), Nat.div_eq_of_lt ha, Nat.div_eq_of_lt (Nat.lt_of_lt_of_le ha (Nat.pow_le_pow_right (by decide) (by omega)))]
  | shr =>
    simp only [shiftPos]
    apply BitVec.eq_of_toInt_eq
    rw [BitVec.toInt_sshiftRight, Int.shiftRight_eq_div_pow, ← fixToSigned_eq ha]
    have hr := fixToSigned_range ha
    generalize fixToSigned a = x at hr
    have e : x.fdiv (2 ^ min n 32) = x / (2 ^ n : Nat) := by
      rw [Int.fdiv_eq_ediv_of_nonneg _ (Int.le_of_lt (Int.pow_pos (by decide)))]
      by_cases h : n ≤ 32
      · rw [Nat.min_eq_left h]; norm_cast
      · rw [Nat.min_eq_right (by omega), ediv_pow_big hr 32 (by omega)]
        rw [show ((2 ^ n : Nat) : Int) = 2 ^ n by norm_cast, ediv_pow_big hr n (by omega)]
    rw [e, ofInt32_toInt]
    have hp : (0 : Int) < (2 ^ n : Nat) := by exact_mod_cast Nat.pow_pos (by decide)
    generalize ((2 ^ n : Nat) : Int) = P at hp
    constructor
    · exact Int.le_ediv_of_mul_le hp (by omega)
    · exact Int.ediv_lt_of_lt_mul hp (by omega)
  | rotl => simp only [shiftPos, BitVec.ofInt_natCast]; exact rotateLeft_val ha n
  | rotr => simp only [shiftPos, BitVec.ofInt_natCast]; exact rotateRight_val ha n

end Verif
