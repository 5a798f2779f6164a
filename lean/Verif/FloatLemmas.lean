import Verif.Float
import Verif.Props.Num
/-
Lemmas about the nearest floating point number.
-/
namespace Verif

theorem rhe_near {a b : Nat} (hb : 0 < b) : 2 * (roundHalfEven a b * b) ≤ 2 * a + b ∧ 2 * a ≤ 2 * (roundHalfEven a b * b) + b := by
  have hd := Nat.div_add_mod a b
  have hm := Nat.mod_lt a hb
  rw [Nat.mul_comm] at hd
  unfold roundHalfEven
  dsimp only
  have h1 : (a / b + 1) * b = a / b * b + b := by rw [Nat.add_mul, Nat.one_mul]
  split
  · omega
  · split
    · rw [h1]; omega
    · split
      · omega
      · rw [h1]; omega

/-- An integer that is near enough is the nearest one. -/
theorem rhe_eq {a b m : Nat} (h1 : 2 * a < 2 * (m * b) + b) (h2 : 2 * (m * b) < 2 * a + b) : roundHalfEven a b = m := by
  have hb : 0 < b := by
    rcases Nat.eq_zero_or_pos b with rfl | h
    · omega
    · exact h
  have ⟨h3, h4⟩ := rhe_near (a := a) hb
  generalize roundHalfEven a b = r at h3 h4
  rcases Nat.lt_trichotomy r m with h | h | h
  · have : (r + 1) * b ≤ m * b := Nat.mul_le_mul_right b h
    rw [Nat.add_mul, Nat.one_mul] at this
    omega
  · exact h
  · have : (m + 1) * b ≤ r * b := Nat.mul_le_mul_right b h
    rw [Nat.add_mul, Nat.one_mul] at this
    omega

/-! ### The bits -/

theorem dbl_bits (n : Nat) : n = dblExp n * 2 ^ 52 + dblMan n ∧ dblMan n < 2 ^ 53 ∧ (dblExp n = 0 ∨ 2 ^ 52 ≤ dblMan n) := by
  unfold dblMan dblExp
  have := Nat.div_add_mod n (2 ^ 52)
  have := Nat.mod_lt n (show 0 < 2 ^ 52 by decide)
  rcases Nat.eq_zero_or_pos (n / 2 ^ 52) with h0 | h0
  · omega
  · omega

theorem log2_range {x k : Nat} (h1 : 2 ^ k ≤ x) (h2 : x < 2 ^ (k + 1)) : x.log2 = k := by
  have h0 : x ≠ 0 := by have := Nat.two_pow_pos k; omega
  have a := (Nat.le_log2 h0).2 h1
  have b := (Nat.log2_lt h0).2 h2
  omega

/-- A number near enough to `a / b` is the nearest one. -/
theorem nearest_eq {n A b : Nat} (hn : n < infBits) (h1 : 4 * A < 4 * (dbl n * b) + 2 ^ dblExp n * b)
    (h2 : 4 * (dbl n * b) < 4 * A + 2 ^ dblExp n * b) : nearest A b = n := by
  obtain ⟨hbits, hm, hnorm⟩ := dbl_bits n
  unfold dbl at h1 h2
  generalize dblMan n = m at *
  generalize dblExp n = e at *
  unfold nearest
  dsimp only
  have hb : 0 < b := Nat.pos_of_ne_zero fun h => by
    rw [h, Nat.mul_zero, Nat.mul_zero] at h1
    exact Nat.not_lt_zero _ h1
  have hE : 0 < 2 ^ e := Nat.two_pow_pos e
  -- rounding on the right scale
  have fin : ∀ e' m', (A / b).log2 - 52 = e' → roundHalfEven A (b * 2 ^ e') = m' → e' * 2 ^ 52 + m' = n → min infBits (((A / b).log2 - 52) * 2 ^ 52 +
      roundHalfEven A (b * 2 ^ ((A / b).log2 - 52))) = n := by
    intro e' m' h1 h2 h3
    rw [h1, h2, h3]
    exact Nat.min_eq_right (Nat.le_of_lt hn)
  have hB : m * 2 ^ e * b = m * (b * 2 ^ e) := by rw [Nat.mul_assoc, Nat.mul_comm (2 ^ e) b]
  have hB1 : 2 ^ e * b = b * 2 ^ e := Nat.mul_comm ..
  rw [hB, hB1] at h1 h2
  have hBp : 0 < b * 2 ^ e := Nat.mul_pos hb hE
  have same : (A / b).log2 - 52 = e → min infBits (((A / b).log2 - 52) * 2 ^ 52 + roundHalfEven A (b * 2 ^ ((A / b).log2 - 52))) = n := by
    intro he
    exact fin e m he (rhe_eq (by omega) (by omega)) hbits.symm
  -- the top
  have top : A / b < 2 ^ 53 * 2 ^ e := by
    rw [Nat.div_lt_iff_lt_mul hb, Nat.mul_assoc, Nat.mul_comm (2 ^ e) b]
    have : (m + 1) * (b * 2 ^ e) ≤ 2 ^ 53 * (b * 2 ^ e) := Nat.mul_le_mul_right _ hm
    rw [Nat.add_mul, Nat.one_mul] at this
    omega
  have log_top : A / b ≠ 0 → (A / b).log2 < 53 + e := by
    intro h0
    rw [Nat.log2_lt h0, Nat.pow_add]
    exact top
  rcases Nat.eq_zero_or_pos e with rfl | he
  · refine same ?_
    by_cases h0 : A / b = 0
    · rw [h0]; rfl
    · have := log_top h0
      omega
  · have hm52 : 2 ^ 52 ≤ m := hnorm.resolve_left (Nat.ne_of_gt he)
    by_cases hlow : m = 2 ^ 52 ∧ A < m * (b * 2 ^ e)
    · obtain ⟨rfl, hlow⟩ := hlow
      -- one binade below
      obtain ⟨f, rfl⟩ : ∃ f, e = f + 1 := ⟨e - 1, by omega⟩
      have hp : b * 2 ^ (f + 1) = 2 * (b * 2 ^ f) := by rw [Nat.pow_succ, ← Nat.mul_assoc, Nat.mul_comm (b * 2 ^ f) 2]
      rw [hp] at h1 h2 hlow hBp
      have hlog : (A / b).log2 = 52 + f := by
        refine log2_range ?_ ?_
        · rw [Nat.le_div_iff_mul_le hb, Nat.pow_add, Nat.mul_assoc, Nat.mul_comm (2 ^ f) b]
          generalize b * 2 ^ f = B at *
          omega
        · rw [Nat.div_lt_iff_lt_mul hb, show 52 + f + 1 = 53 + f from by omega, Nat.pow_add, Nat.mul_assoc, Nat.mul_comm (2 ^ f) b]
          generalize b * 2 ^ f = B at *
          omega
      refine fin f (2 ^ 53) (by omega) (rhe_eq ?_ ?_) (by omega)
      · generalize b * 2 ^ f = B at *
        omega
      · generalize b * 2 ^ f = B at *
        omega
    · refine same ?_
      have hlow2 : 2 ^ 52 * (b * 2 ^ e) ≤ A := by
        by_cases hm' : m = 2 ^ 52
        · subst hm'; omega
        · have : (2 ^ 52 + 1) * (b * 2 ^ e) ≤ m * (b * 2 ^ e) := Nat.mul_le_mul_right _ (by omega)
          rw [Nat.add_mul, Nat.one_mul] at this
          omega
      have : (A / b).log2 = 52 + e := by
        refine log2_range ?_ ?_
        · rw [Nat.le_div_iff_mul_le hb, Nat.pow_add, Nat.mul_assoc, Nat.mul_comm (2 ^ e) b]
          exact hlow2
        · rw [show 52 + e + 1 = 53 + e from by omega, Nat.pow_add]
          exact top
      omega

theorem toDbl_near {n a b : Nat} (hn : n < infBits) (h1 : 4 * (a * 2 ^ 1074) < 4 * (dbl n * b) + 2 ^ dblExp n * b)
    (h2 : 4 * (dbl n * b) < 4 * (a * 2 ^ 1074) + 2 ^ dblExp n * b) : toDbl a b = n := nearest_eq hn h1 h2

theorem toDbl_exact {n a b : Nat} (hn : n < infBits) (hb : 0 < b) (h : a * 2 ^ 1074 = dbl n * b) : toDbl a b = n := by
  have : 0 < 2 ^ dblExp n * b := Nat.mul_pos (Nat.two_pow_pos _) hb
  unfold toDbl
  rw [h]
  exact nearest_eq hn (by omega) (by omega)

end Verif
