import Verif.FloatDec
/-
The texts that floating point numbers are written as, and how they are read.
-/
namespace Verif

theorem toDbl_cross {a b c d : Nat} (hb : 0 < b) (hd : 0 < d) (h : a * d = c * b) : toDbl a b = toDbl c d := by
  rw [← toDbl_scale (a := a) (b := b) hd, ← toDbl_scale (a := c) (b := d) hb, Nat.mul_comm d a, h, Nat.mul_comm c b, Nat.mul_comm d b]

theorem ten_pos (k : Nat) : 0 < 10 ^ k := Nat.pow_pos (by decide)

theorem dec_text (k d : Nat) : DecText (natDigits (d / 10 ^ k) ++ 46 :: padDigits 10 k (d % 10 ^ k)) k ∧
    valR (natDigits (d / 10 ^ k) ++ 46 :: padDigits 10 k (d % 10 ^ k)).reverse = d ∧
    LeadR (natDigits (d / 10 ^ k) ++ 46 :: padDigits 10 k (d % 10 ^ k)).reverse := by
  have hp : ∀ c ∈ padDigits 10 k (d % 10 ^ k), 48 ≤ c ∧ c ≤ 57 :=
    fun c hc => isBaseDigit_ten.mp (padDigits_digit (by decide) (by decide) _ _ c hc)
  refine ⟨⟨_, _, rfl, padDigits_length _ _ _, natDigits_digit _, hp⟩, ?_, ?_⟩
  · have e : (natDigits (d / 10 ^ k) ++ 46 :: padDigits 10 k (d % 10 ^ k)).reverse =
        (padDigits 10 k (d % 10 ^ k)).reverse ++ 46 :: (natDigits (d / 10 ^ k)).reverse := by simp
    have v1 := valR_digits (l := (padDigits 10 k (d % 10 ^ k)).reverse) (by simpa using hp)
    have v2 := valR_digits (l := (natDigits (d / 10 ^ k)).reverse) (by simpa using natDigits_digit (d / 10 ^ k))
    rw [List.reverse_reverse] at v1 v2
    rw [e, valR_append (by simpa using hp), ← v1, ← v2, padDigits_val (by decide) (by decide), natDigits_val, List.length_reverse,
      padDigits_length, Nat.mod_mod, Nat.add_comm]
    exact Nat.div_add_mod d (10 ^ k)
  · cases e : natDigits (d / 10 ^ k) with
    | nil => exact absurd e (natDigits_ne_nil _)
    | cons c s =>
      have := natDigits_digit (d / 10 ^ k) c (by rw [e]; simp)
      refine ⟨c, ?_, this⟩
      rw [List.getLast?_reverse]
      rfl

theorem natDigits_lower (n : Nat) (h : 0 < n) : 10 ^ ((natDigits n).length - 1) ≤ n := by
  induction n using natDigits.induct with
  | case1 n h1 => unfold natDigits; simp [h1]; omega
  | case2 n h1 ih =>
    have := ih (by omega)
    have hl : 0 < (natDigits (n / 10)).length := List.length_pos_iff.2 (natDigits_ne_nil _)
    unfold natDigits
    rw [dif_neg h1, List.length_append]
    obtain ⟨m, hm⟩ : ∃ m, (natDigits (n / 10)).length = m + 1 := ⟨_, (Nat.sub_add_cancel hl).symm⟩
    rw [hm] at this ⊢
    simp only [List.length_singleton, Nat.add_sub_cancel] at this ⊢
    rw [Nat.pow_succ]
    omega

theorem dbl_pos {n : Nat} (h : 0 < n) : 0 < dbl n := by
  obtain ⟨h1, h2, h3⟩ := dbl_bits n
  refine Nat.mul_pos ?_ (Nat.two_pow_pos _)
  rcases h3 with h3 | h3
  · rw [h3] at h1; omega
  · omega

theorem dbl_lt (n : Nat) : dbl n < 2 ^ 53 * 2 ^ dblExp n := by
  unfold dbl
  exact (Nat.mul_lt_mul_right (Nat.two_pow_pos _)).2 (dbl_bits n).2.1

theorem unit_le : 2 ^ 1074 ≤ 10 ^ 400 := by decide +kernel

/-- The exponent is not too large. -/
theorem decExp_le {n : Nat} (h : 0 < n) :
    2 ^ 1074 * (10 ^ 19 * 10 ^ (decExp n - 19).toNat) ≤ dbl n * 10 ^ (19 - decExp n).toNat := by
  have hv := dbl_pos h
  have hq : 0 < dbl n * 10 ^ 400 / 2 ^ 1074 :=
    Nat.div_pos (Nat.le_trans unit_le (Nat.le_mul_of_pos_left _ hv)) (Nat.two_pow_pos _)
  have h1 := natDigits_lower _ hq
  have h2 := (Nat.le_div_iff_mul_le (Nat.two_pow_pos 1074)).1 h1
  have hL : 0 < (natDigits (dbl n * 10 ^ 400 / 2 ^ 1074)).length := List.length_pos_iff.2 (natDigits_ne_nil _)
  have he : decExp n = ((natDigits (dbl n * 10 ^ 400 / 2 ^ 1074)).length : Int) - 401 := rfl
  clear h1 hq
  generalize (natDigits (dbl n * 10 ^ 400 / 2 ^ 1074)).length = L at *
  rw [he]
  clear he
  generalize ha : (19 - ((L : Int) - 401)).toNat = a
  generalize hb : ((L : Int) - 401 - 19).toNat = b
  have e : 19 + b + 400 = a + (L - 1) := by omega
  generalize dbl n = V at *
  generalize 2 ^ 1074 = U at *
  refine Nat.le_of_mul_le_mul_right (c := 10 ^ 400) ?_ (ten_pos 400)
  calc U * (10 ^ 19 * 10 ^ b) * 10 ^ 400 = 10 ^ a * (10 ^ (L - 1) * U) := by
        rw [← Nat.pow_add, Nat.mul_assoc, ← Nat.pow_add, e, Nat.pow_add, Nat.mul_comm, Nat.mul_assoc]
    _ ≤ 10 ^ a * (V * 10 ^ 400) := Nat.mul_le_mul_left _ h2
    _ = V * 10 ^ a * 10 ^ 400 := by rw [← Nat.mul_assoc, Nat.mul_comm (10 ^ a) V]

theorem sci_arith {U V A B T D : Nat} (h1 : 2 * (D * (U * B)) ≤ 2 * (V * A) + U * B) (h2 : 2 * (V * A) ≤ 2 * (D * (U * B)) + U * B)
    (h3 : U * (10 ^ 19 * B) ≤ V * A) (h4 : V < 2 ^ 53 * T) (hA : 0 < A) :
    4 * (D * B * U) < 4 * (V * A) + T * A ∧ 4 * (V * A) < 4 * (D * B * U) + T * A := by
  have h5 : V * A < 2 ^ 53 * T * A := (Nat.mul_lt_mul_right hA).2 h4
  rw [Nat.mul_assoc] at h5
  have e1 : U * (10 ^ 19 * B) = 10 ^ 19 * (U * B) := by rw [Nat.mul_left_comm]
  have e2 : D * B * U = D * (U * B) := by rw [Nat.mul_assoc, Nat.mul_comm B U]
  rw [e1] at h3
  rw [e2]
  generalize V * A = x at *
  generalize U * B = y at *
  generalize T * A = z at *
  generalize D * y = w at *
  omega

theorem exp_arith (x : Int) : x.toNat + (19 - x).toNat = (x - 19).toNat + (19 + (-x).toNat) := by omega

theorem exp_arith' (x : Int) : 19 + (x + 1).toNat + (19 + (-x).toNat) = 19 + 1 + x.toNat + (19 + (-(x + 1)).toNat) := by omega

theorem near_arith {U x w z : Nat} (h1 : 2 * w ≤ 2 * x + U) (h2 : 2 * x ≤ 2 * w + U) (h3 : 2 * U < z) : 4 * w < 4 * x + z ∧ 4 * x < 4 * w + z := by omega

/-- The twenty digits of a number are read as that number. -/
theorem dec20_read {n : Nat} (h : 0 < n) (hn : n < infBits) : decVal (decExp n) (dec20 n) 19 = n := by
  have hl := decExp_le h
  have hlt := dbl_lt n
  have hB : 0 < 2 ^ 1074 * 10 ^ (decExp n - 19).toNat := Nat.mul_pos (Nat.two_pow_pos _) (ten_pos _)
  obtain ⟨h1, h2⟩ := rhe_near (a := dbl n * 10 ^ (19 - decExp n).toNat) hB
  have hx : decVal (decExp n) (dec20 n) 19 = toDbl (dec20 n * 10 ^ (decExp n - 19).toNat) (10 ^ (19 - decExp n).toNat) := by
    refine toDbl_cross (Nat.mul_pos (ten_pos _) (ten_pos _)) (ten_pos _) ?_
    rw [Nat.mul_assoc, Nat.mul_assoc, ← Nat.pow_add, ← Nat.pow_add, ← Nat.pow_add, exp_arith]
  rw [hx]
  change 2 * (dec20 n * _) ≤ _ at h1
  change _ ≤ 2 * (dec20 n * _) + _ at h2
  obtain ⟨g1, g2⟩ := sci_arith h1 h2 hl hlt (ten_pos _)
  exact toDbl_near hn g1 g2

theorem natDigits_one : natDigits 1 = [49] := by decide +kernel

/-- `"%.19e"` prints a decimal that is read as the same number. -/
theorem decSci_read {n : Nat} (hn : n < infBits) : DecText (decSci n).1 19 ∧ LeadR (decSci n).1.reverse ∧
    readDec ((decSci n).1 ++ 101 :: intText (decSci n).2) = some n := by
  have ten : natDigits (10 ^ 19 / 10 ^ 19) ++ 46 :: padDigits 10 19 (10 ^ 19 % 10 ^ 19) = 49 :: 46 :: List.replicate 19 48 := by decide +kernel
  have zero : natDigits (0 / 10 ^ 19) ++ 46 :: padDigits 10 19 (0 % 10 ^ 19) = 48 :: 46 :: List.replicate 19 48 := by decide +kernel
  have go : ∀ d E, decVal E d 19 = n → DecText (natDigits (d / 10 ^ 19) ++ 46 :: padDigits 10 19 (d % 10 ^ 19)) 19 ∧
      LeadR (natDigits (d / 10 ^ 19) ++ 46 :: padDigits 10 19 (d % 10 ^ 19)).reverse ∧
      readDec ((natDigits (d / 10 ^ 19) ++ 46 :: padDigits 10 19 (d % 10 ^ 19)) ++ 101 :: intText E) = some n := by
    intro d E h
    obtain ⟨h1, h2, h3⟩ := dec_text 19 d
    refine ⟨h1, h3, ?_⟩
    rw [readDec_text (.inr rfl) h1, h2, h]
    intro e
    rw [e] at h3
    obtain ⟨c, hc, h'⟩ := h3
    simp at hc; omega
  unfold decSci
  split
  · next h =>
    subst h
    rw [← zero]
    exact go 0 0 (decVal_zero 0 19)
  · next h0 =>
    have hr := dec20_read (Nat.pos_of_ne_zero h0) hn
    split
    · next h =>
      rw [← ten]
      refine go _ _ ?_
      rw [h] at hr
      refine Eq.trans ?_ hr
      refine toDbl_cross (Nat.mul_pos (ten_pos _) (ten_pos _)) (Nat.mul_pos (ten_pos _) (ten_pos _)) ?_
      have e10 : (10 : Nat) ^ 20 = 10 ^ 19 * 10 ^ 1 := rfl
      rw [e10]
      simp only [← Nat.pow_add]
      rw [exp_arith']
    · exact go _ _ hr

theorem milli : toDbl 1 (10 ^ 3) / 2 ^ 52 = 1013 := by decide +kernel

theorem dblExp_le {m n : Nat} (h : m ≤ n) : dblExp m ≤ dblExp n := by
  unfold dblExp
  have : m / 2 ^ 52 ≤ n / 2 ^ 52 := Nat.div_le_div_right h
  omega

/-- `"%.24f"` prints a decimal that is read as the same number, if it is not too small. -/
theorem dec24_read {n : Nat} (hn : n < infBits) (h : n = 0 ∨ toDbl 1 (10 ^ 3) ≤ n) : DecText (dec24 n) 24 ∧ LeadR (dec24 n).reverse ∧
    readDec (dec24 n ++ []) = some n := by
  unfold dec24
  generalize hd : roundHalfEven (dbl n * 10 ^ 24) (2 ^ 1074) = d
  obtain ⟨h1, h2, h3⟩ := dec_text 24 d
  refine ⟨h1, h3, ?_⟩
  dsimp only
  rw [readDec_text (.inl ⟨rfl, rfl⟩) h1, h2]
  · refine congrArg some ?_
    have e0 : decVal 0 d 24 = toDbl d (10 ^ 24) := by simp only [decVal, Int.toNat_zero, Int.neg_zero, Nat.pow_zero, Nat.mul_one]
    rw [e0]
    obtain ⟨g1, g2⟩ := rhe_near (a := dbl n * 10 ^ 24) (Nat.two_pow_pos 1074)
    rw [hd] at g1 g2
    rcases h with rfl | h
    · have : dbl 0 = 0 := by decide
      rw [this] at g1
      have : d = 0 := by
        rcases Nat.eq_zero_or_pos d with h | h
        · exact h
        · exfalso
          have : 1 * 2 ^ 1074 ≤ d * 2 ^ 1074 := Nat.mul_le_mul_right _ h
          have := Nat.two_pow_pos 1074
          generalize 2 ^ 1074 = U at *
          omega
      rw [this]
      exact toDbl_zero (ten_pos 24)
    · have he : 1012 ≤ dblExp n := by
        have := dblExp_le h
        have e : dblExp (toDbl 1 (10 ^ 3)) = 1012 := by unfold dblExp; rw [milli]
        rwa [e] at this
      have hU : 2 * 2 ^ 1074 < 2 ^ dblExp n * 10 ^ 24 := by
        have h1 : 2 ^ 1012 ≤ 2 ^ dblExp n := Nat.pow_le_pow_right (by decide) he
        have h2 : 2 ^ 1012 * 10 ^ 24 ≤ 2 ^ dblExp n * 10 ^ 24 := Nat.mul_le_mul_right _ h1
        have h3 : 2 * 2 ^ 1074 < 2 ^ 1012 * 10 ^ 24 := by decide +kernel
        exact Nat.lt_of_lt_of_le h3 h2
      obtain ⟨k1, k2⟩ := near_arith g1 g2 hU
      exact toDbl_near hn k1 k2
  · intro e
    rw [e] at h3
    obtain ⟨c, hc, h'⟩ := h3
    simp at hc; omega

end Verif
