import Verif.FloatOut
import Verif.Spec.Double
/-
C71: floating point literals of Picotron.
-/
namespace Verif
open Double (units inf dist Nearest)

theorem C71_value (n : Nat) : dbl n = units n := by
  unfold dbl dblMan dblExp units
  dsimp only
  have h := Nat.div_add_mod n (2 ^ 52)
  split
  · next h0 =>
    rw [h0] at h ⊢
    simp only [Nat.zero_sub, Nat.zero_mul, Nat.pow_zero, Nat.mul_one]
    omega
  · next h0 =>
    have : n - (n / 2 ^ 52 - 1) * 2 ^ 52 = 2 ^ 52 + n % 2 ^ 52 := by
      obtain ⟨k, hk⟩ : ∃ k, n / 2 ^ 52 = k + 1 := ⟨_, (Nat.sub_add_cancel (Nat.pos_of_ne_zero h0)).symm⟩
      rw [hk] at h ⊢
      simp only [Nat.add_sub_cancel]
      omega
    rw [this]

theorem inf_bits : infBits = inf := by decide

theorem rhe_tie {a b : Nat} (hb : 0 < b) (h : 2 * (roundHalfEven a b * b) = 2 * a + b ∨ 2 * a = 2 * (roundHalfEven a b * b) + b) :
    roundHalfEven a b % 2 = 0 := by
  have hd := Nat.div_add_mod a b
  have hm := Nat.mod_lt a hb
  rw [Nat.mul_comm] at hd
  unfold roundHalfEven at h ⊢
  dsimp only at h ⊢
  have h1 : (a / b + 1) * b = a / b * b + b := by rw [Nat.add_mul, Nat.one_mul]
  split
  · next h2 => rw [if_pos h2] at h; omega
  · next h2 =>
    rw [if_neg h2] at h
    split
    · next h3 => rw [if_pos h3, h1] at h; omega
    · next h3 =>
      split
      · omega
      · omega

/-- What rounding makes of a fraction: a number with at most 53 bits. -/
theorem nearest_parts {A b : Nat} (hb : 0 < b) : ∃ e M, nearest A b = min infBits (e * 2 ^ 52 + M) ∧ M ≤ 2 ^ 53 ∧
    M = roundHalfEven A (b * 2 ^ e) ∧ (e = 0 ∨ 2 ^ 52 ≤ M ∧ 2 ^ 52 * (2 ^ e * b) ≤ A) ∧ A < 2 ^ 53 * (2 ^ e * b) ∧ dbl (e * 2 ^ 52 + M) = M * 2 ^ e := by
  have hq1 : A / b * b ≤ A := Nat.div_mul_le_self A b
  have hq2 : A < (A / b + 1) * b := Nat.lt_mul_of_div_lt (Nat.lt_succ_self _) hb
  have hlt : A / b < 2 ^ ((A / b).log2 + 1) := Nat.lt_log2_self
  have hlow : (A / b).log2 - 52 = 0 ∨ 2 ^ (A / b).log2 ≤ A / b := by
    rcases Nat.eq_zero_or_pos (A / b) with h | h
    · left; rw [h]; decide
    · right; exact Nat.log2_self_le (by omega)
  unfold nearest
  dsimp only
  generalize A / b = q at *
  generalize hl : q.log2 = l at *
  generalize he : l - 52 = e at *
  have hA : A < 2 ^ 53 * (2 ^ e * b) := by
    have h1 : (q + 1) * b ≤ 2 ^ (l + 1) * b := Nat.mul_le_mul_right b hlt
    have h2 : 2 ^ (l + 1) ≤ 2 ^ (53 + e) := Nat.pow_le_pow_right (by decide) (by omega)
    have h3 := Nat.mul_le_mul_right b h2
    rw [Nat.pow_add 2 53 e, Nat.mul_assoc] at h3
    omega
  have hB : 0 < b * 2 ^ e := Nat.mul_pos hb (Nat.two_pow_pos e)
  have hA' : e = 0 ∨ 2 ^ 52 * (2 ^ e * b) ≤ A := by
    rcases hlow with h | h
    · exact .inl h
    · by_cases h0 : e = 0
      · exact .inl h0
      · right
        have h1 := Nat.mul_le_mul_right b h
        have : l = 52 + e := by omega
        rw [this, Nat.pow_add, Nat.mul_assoc] at h1
        omega
  obtain ⟨g1, g2⟩ := rhe_near (a := A) hB
  generalize hM : roundHalfEven A (b * 2 ^ e) = M at *
  have hx : b * 2 ^ e = 2 ^ e * b := Nat.mul_comm _ _
  rw [hx] at hB g1 g2
  generalize hX : 2 ^ e * b = X at *
  have hM1 : M ≤ 2 ^ 53 := by
    rcases Nat.lt_or_ge (2 ^ 53) M with h | h
    · exfalso
      have := Nat.mul_le_mul_right X h
      rw [Nat.succ_mul] at this
      omega
    · exact h
  have hM2 : e = 0 ∨ 2 ^ 52 ≤ M := by
    rcases hA' with h | h
    · exact .inl h
    · right
      rcases Nat.lt_or_ge M (2 ^ 52) with h' | h'
      · exfalso
        have := Nat.mul_le_mul_right X h'
        rw [Nat.succ_mul] at this
        omega
      · exact h'
  refine ⟨e, M, rfl, hM1, hM.symm, ?_, by rw [hX]; exact hA, ?_⟩
  · rcases hM2 with h | h
    · exact .inl h
    · rcases hA' with h' | h'
      · exact .inl h'
      · right; rw [hX]; exact ⟨h, h'⟩
  · clear g1 g2 hA hA' hq1 hq2 hlt hlow hX hM he hl hB hx
    unfold dbl dblMan dblExp
    rcases Nat.lt_or_ge M (2 ^ 53) with h | h
    · have : (e * 2 ^ 52 + M) / 2 ^ 52 - 1 = e := by omega
      rw [this]
      congr 1
      omega
    · have : (e * 2 ^ 52 + M) / 2 ^ 52 - 1 = e + 1 := by omega
      rw [this, Nat.pow_succ 2 e, Nat.mul_comm (2 ^ e) 2, ← Nat.mul_assoc]
      congr 1
      omega

theorem dist_arith1 {A x y X : Nat} (h1 : 2 * x ≤ 2 * A + X) (h2 : 2 * A ≤ 2 * x + X) (h : x + X ≤ y ∨ y + X ≤ x)
    : dist A x < dist A y ∨ dist A x = dist A y ∧ (2 * x = 2 * A + X ∨ 2 * A = 2 * x + X) := by
  unfold dist; omega

theorem dist_arith2 {A x y X z : Nat} (h1 : 2 * x ≤ 2 * A + X) (h2 : 2 * A ≤ 2 * x + X) (hz : z ≤ A) (hy : y < z) (hx : x = z ∨ z + X ≤ x)
    : dist A x < dist A y := by
  unfold dist; omega

/-- A finite result is the nearest number. -/
theorem C71_nearest {a b : Nat} (hb : 0 < b) (h : toDbl a b ≠ inf) : Nearest a b (toDbl a b) := by
  rw [← inf_bits] at h
  intro m hm hne
  simp only [← C71_value]
  unfold toDbl at *
  generalize a * 2 ^ 1074 = A at *
  obtain ⟨e, M, h1, h2, h3, h4, h5, h6⟩ := nearest_parts (A := A) hb
  rw [h1] at h hne ⊢
  have hmin : min infBits (e * 2 ^ 52 + M) = e * 2 ^ 52 + M := by omega
  rw [hmin] at h hne ⊢
  rw [h6]
  have hB : 0 < b * 2 ^ e := Nat.mul_pos hb (Nat.two_pow_pos e)
  obtain ⟨g1, g2⟩ := rhe_near (a := A) hB
  have g3 := rhe_tie (a := A) hB
  rw [← h3] at g1 g2 g3
  have hx : M * 2 ^ e * b = M * (b * 2 ^ e) := by rw [Nat.mul_assoc, Nat.mul_comm b]
  have hX : 2 ^ e * b = b * 2 ^ e := Nat.mul_comm _ _
  rw [hX] at h4 h5
  rw [hx]
  generalize b * 2 ^ e = X at *
  obtain ⟨b1, b2, b3⟩ := dbl_bits m
  rcases Nat.lt_or_ge (dblExp m) e with hlt | hge
  · -- a number with a smaller exponent is below all of these
    have he : e ≠ 0 := by omega
    obtain ⟨k1, k2⟩ := h4.resolve_left he
    left
    refine dist_arith2 g1 g2 k2 ?_ ?_
    · have h7 : dbl m < 2 ^ 52 * 2 ^ e := by
        have h8 := dbl_lt m
        have h9 : 2 ^ (dblExp m + 1) ≤ 2 ^ e := Nat.pow_le_pow_right (by decide) hlt
        rw [Nat.pow_succ] at h9
        omega
      have := (Nat.mul_lt_mul_right hb).2 h7
      rwa [Nat.mul_assoc, hX] at this
    · rcases Nat.eq_or_lt_of_le k1 with h | h
      · left; rw [← h]
      · right
        have := Nat.mul_le_mul_right X h
        rwa [Nat.succ_mul] at this
  · -- others are multiples of the same unit
    obtain ⟨j, hj⟩ : ∃ j, dblExp m = e + j := ⟨_, (Nat.add_sub_cancel' hge).symm⟩
    have hk : dbl m * b = dblMan m * 2 ^ j * X := by
      unfold dbl
      rw [hj, Nat.pow_add, ← hX]
      simp only [Nat.mul_assoc, Nat.mul_left_comm]
    have hkM : dblMan m * 2 ^ j ≠ M := by
      intro e1
      have e2 : dbl m = M * 2 ^ e := by unfold dbl; rw [hj, Nat.pow_add, Nat.mul_comm (2 ^ e), ← Nat.mul_assoc, e1]
      have e3 : nearest (dbl m) 1 = m := nearest_eq (by rw [inf_bits]; exact hm) (by have := Nat.two_pow_pos (dblExp m); omega) (by have := Nat.two_pow_pos (dblExp m); omega)
      have hN : e * 2 ^ 52 + M < infBits := by omega
      have e4 : nearest (dbl (e * 2 ^ 52 + M)) 1 = e * 2 ^ 52 + M :=
        nearest_eq hN (by have := Nat.two_pow_pos (dblExp (e * 2 ^ 52 + M)); omega) (by have := Nat.two_pow_pos (dblExp (e * 2 ^ 52 + M)); omega)
      rw [h6, ← e2, e3] at e4
      exact hne e4
    rw [hk]
    generalize dblMan m * 2 ^ j = k at *
    have step : M * X + X ≤ k * X ∨ k * X + X ≤ M * X := by
      rcases Nat.lt_or_gt_of_ne hkM with h | h
      · right; have := Nat.mul_le_mul_right X h; rwa [Nat.succ_mul] at this
      · left; have := Nat.mul_le_mul_right X h; rwa [Nat.succ_mul] at this
    rcases dist_arith1 g1 g2 step with h | ⟨h, h'⟩
    · exact .inl h
    · refine .inr ⟨h, ?_⟩
      have := g3 h'
      omega

theorem over_arith {A Y M : Nat} (h1 : 2 * (M * (2 * Y)) ≤ 2 * A + 2 * Y) (h2 : 2 * A ≤ 2 * (M * (2 * Y)) + 2 * Y) (hY : 0 < Y)
    (h3 : 2 * A = 2 * (M * (2 * Y)) + 2 * Y → M % 2 = 0) (hM : M ≤ 2 ^ 53) : 2 ^ 53 ≤ M ↔ (2 ^ 54 - 1) * Y ≤ A := by
  constructor
  · intro h
    have : M = 2 ^ 53 := by omega
    subst this
    omega
  · intro h
    rcases Nat.lt_or_ge M (2 ^ 53) with h' | h'
    · exfalso
      rcases Nat.lt_or_ge M (2 ^ 53 - 1) with h'' | h''
      · have : (M + 1) * (2 * Y) ≤ (2 ^ 53 - 1) * (2 * Y) := Nat.mul_le_mul_right _ h''
        rw [Nat.add_mul, Nat.one_mul] at this
        omega
      · have : M = 2 ^ 53 - 1 := by omega
        subst this
        have := h3 (by omega)
        omega
    · exact h'

/-- Only fractions at least half a step above the greatest finite number become infinite. -/
theorem C71_overflow {a b : Nat} (hb : 0 < b) : toDbl a b = inf ↔ (2 ^ 54 - 1) * 2 ^ 970 * b ≤ a := by
  have hcancel : (2 ^ 54 - 1) * 2 ^ 970 * b ≤ a ↔ (2 ^ 54 - 1) * (2 ^ 2044 * b) ≤ a * 2 ^ 1074 := by
    rw [← Nat.mul_le_mul_right_iff (Nat.two_pow_pos 1074)]
    have : (2 ^ 54 - 1) * 2 ^ 970 * b * 2 ^ 1074 = (2 ^ 54 - 1) * (2 ^ 2044 * b) := by
      rw [show 2044 = 970 + 1074 from rfl, Nat.pow_add 2 970 1074]
      generalize 2 ^ 54 - 1 = p
      generalize 2 ^ 970 = q
      generalize 2 ^ 1074 = r
      simp only [Nat.mul_comm, Nat.mul_left_comm]
    rw [this]
  rw [hcancel, ← inf_bits]
  unfold toDbl
  generalize a * 2 ^ 1074 = A
  obtain ⟨e, M, h1, h2, h3, h4, h5, -⟩ := nearest_parts (A := A) hb
  have hN : nearest A b = infBits ↔ 2047 * 2 ^ 52 ≤ e * 2 ^ 52 + M := by rw [h1]; unfold infBits; omega
  rw [hN]
  have hB : 0 < b * 2 ^ e := Nat.mul_pos hb (Nat.two_pow_pos e)
  obtain ⟨g1, g2⟩ := rhe_near (a := A) hB
  have g3 := rhe_tie (a := A) hB
  rw [← h3] at g1 g2 g3
  rw [Nat.mul_comm b] at g1 g2 g3
  have hY : 0 < 2 ^ 2044 * b := Nat.mul_pos (Nat.two_pow_pos _) hb
  rcases Nat.lt_trichotomy e 2045 with he | he | he
  · have h6 : 2 ^ e * b ≤ 2 ^ 2044 * b := Nat.mul_le_mul_right b (Nat.pow_le_pow_right (by decide) (by omega))
    clear h3 h4 h1 hN g1 g2 g3 hB hcancel
    generalize 2 ^ 2044 * b = Y at *
    generalize 2 ^ e * b = X at *
    omega
  · subst he
    have h6 : 2 ^ 2045 * b = 2 * (2 ^ 2044 * b) := by rw [Nat.pow_succ 2 2044, Nat.mul_comm (2 ^ 2044) 2, Nat.mul_assoc]
    rw [h6] at g1 g2 g3
    rw [← over_arith g1 g2 hY (fun h => g3 (.inr h)) h2]
    clear h3 h4 h1 hN g1 g2 g3 hB hcancel h5 h6 hY
    omega
  · obtain ⟨k1, k2⟩ := h4.resolve_left (by omega)
    have h6 : 2 ^ 2046 * b ≤ 2 ^ e * b := Nat.mul_le_mul_right b (Nat.pow_le_pow_right (by decide) he)
    have h7 : 2 ^ 2046 * b = 4 * (2 ^ 2044 * b) := by rw [show 2046 = 2 + 2044 from rfl, Nat.pow_add 2 2 2044, Nat.mul_assoc]
    rw [h7] at h6
    clear h3 h4 h1 hN g1 g2 g3 hB hcancel h5 h7
    generalize 2 ^ 2044 * b = Y at *
    generalize 2 ^ e * b = X at *
    omega

/-! ### Reading -/

/-- The value of digits. -/
def decimalVal (s : List Nat) : Nat := s.foldl (fun a c => 10 * a + (c - 48)) 0

theorem decimalVal_eq {s : List Nat} (h : ∀ c ∈ s, 48 ≤ c ∧ c ≤ 57) : digitsVal 10 s = decimalVal s := by
  rcases List.eq_nil_or_concat s with rfl | ⟨s, c, rfl⟩
  · rfl
  · have ih := decimalVal_eq (s := s) fun c hc => h c (by simp [hc])
    have hc := h c (by simp)
    rw [List.concat_eq_append, digitsVal_concat, ih, hexVal_digit hc]
    simp only [decimalVal, List.foldl_append, List.foldl_cons, List.foldl_nil, Option.getD_some]
    omega
termination_by s.length
decreasing_by simp_all

/-- **C71.** Digits with a point and perhaps an exponent, as in `12.5e-3`, are read as the floating point number that is nearest to what they say,
or as infinity if that is too large. -/
theorem C71_decimal {ip fp es : List Nat} {E : Int} (h1 : ∀ c ∈ ip, 48 ≤ c ∧ c ≤ 57) (h2 : ∀ c ∈ fp, 48 ≤ c ∧ c ≤ 57) (hne : ip ++ fp ≠ [])
    (he : es = [] ∧ E = 0 ∨ es = 101 :: intText E) :
    ∃ r, parseFloatAbs (ip ++ 46 :: fp ++ es) = some r ∧ parseLuaAbs (ip ++ 46 :: fp ++ es) = .float ∧
      (r ≠ inf → Nearest (decimalVal (ip ++ fp) * 10 ^ E.toNat) (10 ^ fp.length * 10 ^ (-E).toNat) r) ∧
      (r = inf ↔ (2 ^ 54 - 1) * 2 ^ 970 * (10 ^ fp.length * 10 ^ (-E).toNat) ≤ decimalVal (ip ++ fp) * 10 ^ E.toNat) := by
  have hd : ∀ c ∈ ip ++ fp, 48 ≤ c ∧ c ≤ 57 := fun c hc => (List.mem_append.1 hc).elim (h1 c) (h2 c)
  have hr : readDec (ip ++ 46 :: fp ++ es) = some (toDbl (decimalVal (ip ++ fp) * 10 ^ E.toNat) (10 ^ fp.length * 10 ^ (-E).toNat)) := by
    unfold readDec
    rw [List.append_assoc, readFloat_eq (fun c hc => isBaseDigit_ten.2 (h1 c hc)) (fun c hc => isBaseDigit_ten.2 (h2 c hc)) (.inl rfl) (by decide) (by decide)
      (exp_hes he) hne, decimalVal_eq hd]
  have hm : ∀ c ∈ ip ++ 46 :: fp, c = 46 ∨ 48 ≤ c ∧ c ≤ 57 := by
    intro c hc
    rcases List.mem_append.1 hc with hc | hc
    · exact .inr (h1 c hc)
    · rcases List.mem_cons.1 hc with rfl | hc
      · exact .inl rfl
      · exact .inr (h2 c hc)
  have ho := dec_out he hm (.inr (by simp)) hr
  have hb : 0 < 10 ^ fp.length * 10 ^ (-E).toNat := Nat.mul_pos (ten_pos _) (ten_pos _)
  exact ⟨_, ho.parse, ho.float, C71_nearest hb, C71_overflow hb⟩

theorem readSigned_digits {sg ds : List Nat} {E : Int} (hd : ∀ c ∈ ds, 48 ≤ c ∧ c ≤ 57) (hds : ds ≠ [])
    (hE : (sg = [] ∨ sg = [43]) ∧ E = decimalVal ds ∨ sg = [45] ∧ E = -(decimalVal ds : Int)) : readSigned (sg ++ ds) = some E := by
  have hall : ds.all (isBaseDigit 10) = true := by
    rw [List.all_eq_true]; exact fun c hc => isBaseDigit_ten.2 (hd c hc)
  rcases hE with ⟨rfl | rfl, rfl⟩ | ⟨rfl, rfl⟩
  · cases ds with
    | nil => exact absurd rfl hds
    | cons c ds =>
      have hc := hd c (by simp)
      unfold readSigned
      simp only [List.nil_append]
      split
      · rename_i h; cases h; omega
      · rename_i h; cases h; omega
      · rw [if_pos ⟨by simp, hall⟩, decimalVal_eq hd]; rfl
  · simp only [List.cons_append, List.nil_append, readSigned]
    rw [if_pos ⟨hds, hall⟩, decimalVal_eq hd]; rfl
  · simp only [List.cons_append, List.nil_append, readSigned]
    rw [if_pos ⟨hds, hall⟩, decimalVal_eq hd]; rfl

/-- The exponent may have a sign and leading zeros: it counts as the integer that it says. -/
theorem C71_exponent {ip fp sg ds : List Nat} {E : Int} (h1 : ∀ c ∈ ip, 48 ≤ c ∧ c ≤ 57) (h2 : ∀ c ∈ fp, 48 ≤ c ∧ c ≤ 57) (hne : ip ++ fp ≠ [])
    (hd : ∀ c ∈ ds, 48 ≤ c ∧ c ≤ 57) (hds : ds ≠ []) (hE : (sg = [] ∨ sg = [43]) ∧ E = decimalVal ds ∨ sg = [45] ∧ E = -(decimalVal ds : Int)) :
    parseFloatAbs (ip ++ 46 :: fp ++ 101 :: (sg ++ ds)) = parseFloatAbs (ip ++ 46 :: fp ++ 101 :: intText E) := by
  have hpar : ∀ r, parseFloatAbs (ip ++ 46 :: r) = readDec (ip ++ 46 :: r) := by
    intro r
    have hx : (ip ++ 46 :: r).take 2 ≠ [48, 120] ∧ (ip ++ 46 :: r).take 2 ≠ [48, 98] := by
      rcases ip with _ | ⟨a, _ | ⟨b, ip⟩⟩
      · simp
      · simp
      · have := h1 b (by simp)
        simp only [List.cons_append, List.take_succ_cons, List.take_zero]
        constructor <;> (intro h; simp only [List.cons.injEq, and_true] at h; omega)
    unfold parseFloatAbs
    rw [if_neg hx.1, if_neg hx.2, if_pos (.inl (by simp))]
  simp only [List.append_assoc, List.cons_append]
  rw [hpar, hpar]
  unfold readDec
  have key : ∀ r, readSigned r = some E → readFloat 10 101 10 (ip ++ 46 :: (fp ++ 101 :: r)) =
      some (toDbl (digitsVal 10 (ip ++ fp) * 10 ^ E.toNat) (10 ^ fp.length * 10 ^ (-E).toNat)) := fun r hr =>
    readFloat_eq (tl := 46 :: fp) (E := E) (fun c hc => isBaseDigit_ten.2 (h1 c hc)) (fun c hc => isBaseDigit_ten.2 (h2 c hc)) (.inl rfl)
      (by decide) (by decide) (.inr ⟨r, rfl, hr⟩) hne
  rw [key _ (readSigned_digits hd hds hE), key _ (readInt_text E)]

/-- The same for hexadecimal numbers. -/
theorem C71_hex_exponent {ip fp sg ds : List Nat} {E : Int} (h1 : ∀ c ∈ ip, LowHex c) (h2 : ∀ c ∈ fp, LowHex c) (hne : ip ++ fp ≠ [])
    (hd : ∀ c ∈ ds, 48 ≤ c ∧ c ≤ 57) (hds : ds ≠ []) (hE : (sg = [] ∨ sg = [43]) ∧ E = decimalVal ds ∨ sg = [45] ∧ E = -(decimalVal ds : Int)) :
    parseFloatAbs (48 :: 120 :: (ip ++ 46 :: fp) ++ 112 :: (sg ++ ds)) = parseFloatAbs (48 :: 120 :: (ip ++ 46 :: fp) ++ 112 :: intText E) := by
  simp only [List.append_assoc, List.cons_append]
  have key : ∀ r, readSigned r = some E → parseFloatAbs (48 :: 120 :: (ip ++ 46 :: (fp ++ 112 :: r))) =
      some (toDbl (digitsVal 16 (ip ++ fp) * 2 ^ E.toNat) (16 ^ fp.length * 2 ^ (-E).toNat)) := by
    intro r hr
    unfold parseFloatAbs
    rw [if_pos (by simp)]
    exact readFloat_eq (tl := 46 :: fp) (E := E) (fun c hc => (h1 c hc).digit) (fun c hc => (h2 c hc).digit) (.inl rfl)
      (by decide) (by decide) (.inr ⟨r, rfl, hr⟩) hne
  rw [key _ (readSigned_digits hd hds hE), key _ (readInt_text E)]

-- `1.5e+02` is `1.5e2`
example : parseFloatAbs ([49] ++ 46 :: [53] ++ 101 :: ([43] ++ [48, 50])) = some (toDbl 1500 10) := by decide +kernel

/-- Hexadecimal digits with a point and perhaps an exponent of two, as in `0x1.8p4`. -/
theorem C71_hex {ip fp es : List Nat} {E : Int} (h1 : ∀ c ∈ ip, LowHex c) (h2 : ∀ c ∈ fp, LowHex c) (hne : ip ++ fp ≠ [])
    (he : es = [] ∧ E = 0 ∨ es = 112 :: intText E) :
    ∃ r, parseFloatAbs (48 :: 120 :: (ip ++ 46 :: fp) ++ es) = some r ∧ parseLuaAbs (48 :: 120 :: (ip ++ 46 :: fp) ++ es) = .float ∧
      (r ≠ inf → Nearest (digitsVal 16 (ip ++ fp) * 2 ^ E.toNat) (16 ^ fp.length * 2 ^ (-E).toNat) r) ∧
      (r = inf ↔ (2 ^ 54 - 1) * 2 ^ 970 * (16 ^ fp.length * 2 ^ (-E).toNat) ≤ digitsVal 16 (ip ++ fp) * 2 ^ E.toNat) := by
  have hr : readFloat 16 112 2 (ip ++ 46 :: fp ++ es) = some (toDbl (digitsVal 16 (ip ++ fp) * 2 ^ E.toNat) (16 ^ fp.length * 2 ^ (-E).toNat)) := by
    rw [List.append_assoc, readFloat_eq (fun c hc => (h1 c hc).digit) (fun c hc => (h2 c hc).digit) (.inl rfl) (by decide) (by decide)
      (pow_hes he) hne]
  have hm : ∀ c ∈ ip ++ 46 :: fp, c = 46 ∨ LowHex c := by
    intro c hc
    rcases List.mem_append.1 hc with hc | hc
    · exact .inr (h1 c hc)
    · rcases List.mem_cons.1 hc with rfl | hc
      · exact .inl rfl
      · exact .inr (h2 c hc)
  have ho := hex_out he hm (.inr (by simp)) hr
  have hb : 0 < 16 ^ fp.length * 2 ^ (-E).toNat := Nat.mul_pos (Nat.pow_pos (by decide)) (two_pos _)
  exact ⟨_, ho.parse, ho.float, C71_nearest hb, C71_overflow hb⟩

/-- Naturals below 2^53 are numbers. -/
theorem small_exact {v : Nat} (hv : v < 2 ^ 53) : toDbl v 1 < infBits ∧ dbl (toDbl v 1) = v * 2 ^ 1074 := by
  unfold toDbl
  have hA : v * 2 ^ 1074 < 2 ^ 53 * 2 ^ 1074 := (Nat.mul_lt_mul_right (Nat.two_pow_pos _)).2 hv
  have hdvd : ∀ e, e ≤ 1074 → v * 2 ^ 1074 = v * 2 ^ (1074 - e) * 2 ^ e := by
    intro e he
    rw [Nat.mul_assoc, ← Nat.pow_add, Nat.sub_add_cancel he]
  have hpow : ∀ e, 1075 ≤ e → 2 ^ 53 * 2 ^ 1074 ≤ 2 ^ 52 * 2 ^ e := by
    intro e he
    have : 2 ^ (52 + 1075) ≤ 2 ^ (52 + e) := Nat.pow_le_pow_right (by decide) (by omega)
    rw [← Nat.pow_add, ← Nat.pow_add]
    exact this
  generalize v * 2 ^ 1074 = A at *
  generalize 2 ^ 53 * 2 ^ 1074 = B at *
  obtain ⟨e, M, h1, h2, h3, h4, -, h6⟩ := nearest_parts (A := A) (b := 1) (by decide)
  simp only [Nat.one_mul, Nat.mul_one] at h3 h4
  have he : e ≤ 1074 := by
    rcases Nat.lt_or_ge 1074 e with h | h
    · have := hpow e h
      rcases h4 with h4 | h4
      · omega
      · have := h4.2; omega
    · exact h
  have hx := hdvd e he
  generalize v * 2 ^ (1074 - e) = x at *
  have hM : M = x := by
    rw [h3, hx]
    have := Nat.two_pow_pos e
    exact rhe_eq (by omega) (by omega)
  subst hM
  have hN : e * 2 ^ 52 + M < infBits := by unfold infBits; omega
  have : nearest A 1 = e * 2 ^ 52 + M := by omega
  rw [this, h6, hx]
  exact ⟨hN, rfl⟩

/-- Binary digits with a point, as in `0b10.01`, if they are less than 2^53 without the point.  (With more of them the result may be rounded twice, and
with more than 1024 it is infinite.) -/
theorem C71_binary {ip fp : List Nat} (h1 : ∀ c ∈ ip, c = 48 ∨ c = 49) (h2 : ∀ c ∈ fp, c = 48 ∨ c = 49) (hne : ip ++ fp ≠ [])
    (hv : digitsVal 2 (ip ++ fp) < 2 ^ 53) :
    ∃ r, parseFloatAbs (48 :: 98 :: (ip ++ 46 :: fp)) = some r ∧ (r ≠ inf → Nearest (digitsVal 2 (ip ++ fp)) (2 ^ fp.length) r) ∧
      (r = inf ↔ (2 ^ 54 - 1) * 2 ^ 970 * 2 ^ fp.length ≤ digitsVal 2 (ip ++ fp)) := by
  have hd : (ip ++ fp).all (isBaseDigit 2) = true := by
    rw [List.all_eq_true]
    intro c hc
    have : c = 48 ∨ c = 49 := (List.mem_append.1 hc).elim (h1 c) (h2 c)
    rcases this with rfl | rfl <;> decide
  have hdot : ∀ c ∈ ip, (c != 46) = true := by
    intro c hc
    rcases h1 c hc with rfl | rfl <;> decide
  have ht : (ip ++ 46 :: fp).takeWhile (· != 46) = ip := by
    rw [List.takeWhile_append_of_pos hdot]; simp
  have hw : (ip ++ 46 :: fp).dropWhile (· != 46) = 46 :: fp := by
    rw [List.dropWhile_append_of_pos hdot]; simp
  obtain ⟨g1, g2⟩ := small_exact hv
  have hb : 0 < 2 ^ fp.length := Nat.two_pow_pos _
  refine ⟨toDbl (digitsVal 2 (ip ++ fp)) (2 ^ fp.length), ?_, C71_nearest hb, C71_overflow hb⟩
  have e1 : parseFloatAbs (48 :: 98 :: (ip ++ 46 :: fp)) = readBin (ip ++ 46 :: fp) := by
    unfold parseFloatAbs
    rw [if_neg (by simp), if_pos (by simp)]
    rfl
  rw [e1]
  unfold readBin
  rw [ht, hw]
  simp only [List.drop_succ_cons, List.drop_zero]
  rw [if_pos ⟨hne, hd⟩, if_neg (Nat.ne_of_lt g1), g2]
  refine congrArg some ?_
  refine toDbl_cross (Nat.mul_pos (Nat.two_pow_pos _) hb) hb ?_
  rw [Nat.mul_assoc]

example : parseFloatAbs (48 :: 98 :: ([49, 48] ++ 46 :: [48, 49])) = some (toDbl 9 4) := by decide +kernel

/-! ### Writing -/

/-- **C71.** Whatever floating point number a literal is read as, the formatter writes a numeral for it, which is one token, is no integer, and is read as
the same number. -/
theorem C71_roundtrip {s : List Nat} {n : Nat} (h : parseFloatAbs s = some n) : ∃ t, formatFloat n = some t ∧ parseFloatAbs t = some n ∧
    parseLuaAbs t = .float ∧ lexAll false t = some [(.number, t)] := by
  obtain ⟨t, h1, h2⟩ := formatFloat_out (parseFloat_le h)
  refine ⟨t, h1, h2.parse, h2.float, ?_⟩
  have ht : lexStep false (t ++ []) = .tok .number t [] := by rw [List.append_nil]; exact h2.token
  have := lexAll_tok ht
  rwa [List.append_nil, lexAll_nil] at this

/-- All numbers are written in this way, whether or not they are literals. -/
theorem C71_all {n : Nat} (h : n ≤ inf) : ∃ t, formatFloat n = some t ∧ parseFloatAbs t = some n ∧ parseLuaAbs t = .float := by
  obtain ⟨t, h1, h2⟩ := formatFloat_out (by rw [inf_bits]; exact h)
  exact ⟨t, h1, h2.parse, h2.float⟩

/-- Distinct numbers are written differently. -/
theorem C71_injective {m n : Nat} (hm : m ≤ inf) (hn : n ≤ inf) (h : formatFloat m = formatFloat n) : m = n := by
  obtain ⟨t, h1, h2, -⟩ := C71_all hm
  obtain ⟨u, h3, h4, -⟩ := C71_all hn
  rw [h, h3] at h1
  cases h1
  rw [h4] at h2
  exact (Option.some.inj h2).symm

/-! ### What it looks like -/

-- `0.1` is written `.1`; `1e22`; `1/3`; `5.`; the smallest number
example : parseFloatAbs [48, 46, 49] = some 0x3fb999999999999a ∧ formatFloat 0x3fb999999999999a = some [46, 49] := by decide +kernel
example : (formatFloat 0x4480f0cf064dd592).map (String.ofList ∘ List.map Char.ofNat) = some "1e22" := by decide +kernel
example : (formatFloat 0x3fd5555555555555).map (String.ofList ∘ List.map Char.ofNat) = some ".3333333333333333" := by decide +kernel
example : (formatFloat 0x4014000000000000).map (String.ofList ∘ List.map Char.ofNat) = some "5." := by decide +kernel
example : (formatFloat 1).map (String.ofList ∘ List.map Char.ofNat) = some "4e-324" := by decide +kernel
example : units 0x3ff0000000000000 = 2 ^ 1074 := by decide +kernel

/-- The plain hexadecimal form of zero is an integer: `0x0`; it is only left out because `0.` is shorter. -/
theorem C71_zero : floatHexValue 0 = [48, 120, 48] ∧ parseLuaAbs (floatHexValue 0) = .int 0 ∧ formatFloat 0 = some [48, 46] := by decide +kernel

/-- A decimal integer that is too large for a float is an error (of a kind that is not caught), though with a point it is infinite. -/
theorem C71_large_counterexample : parseFloatAbs (49 :: List.replicate 309 48) = none ∧ parseFloatAbs (49 :: List.replicate 309 48 ++ [46]) = some inf := by
  decide +kernel

end Verif
