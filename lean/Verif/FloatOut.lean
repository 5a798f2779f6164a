import Verif.FloatText
import Verif.MinifyTron
/-
What `format_luanum` writes for floating point numbers.
-/
namespace Verif
open Mini

/-! ### Hexadecimals -/

/-- A lower case hexadecimal digit. -/
def LowHex (c : Nat) : Prop := 48 ≤ c ∧ c ≤ 57 ∨ 97 ≤ c ∧ c ≤ 102

theorem hexDigit_low {d : Nat} (h : d < 16) : LowHex (hexDigit d) := by
  unfold hexDigit LowHex
  split <;> omega

theorem LowHex.digit {c : Nat} (h : LowHex c) : isBaseDigit 16 c = true := by
  unfold LowHex at h
  rw [isBaseDigit_iff]
  unfold hexVal
  rcases h with h | h
  · exact ⟨c - 48, by omega, if_pos h⟩
  · exact ⟨c - 87, by omega, by rw [if_neg (by omega), if_pos h]⟩

theorem natHex_low (n : Nat) : ∀ c ∈ natHex n, LowHex c := by
  induction n using natHex.induct with
  | case1 n h => unfold natHex; simp only [h, dif_pos, List.mem_singleton, forall_eq]; exact hexDigit_low h
  | case2 n h ih =>
    unfold natHex
    intro c hc
    rw [dif_neg h] at hc
    rcases List.mem_append.1 hc with hc | hc
    · exact ih c hc
    · simp only [List.mem_singleton] at hc; rw [hc]; exact hexDigit_low (by omega)

theorem padHex_low : ∀ k n, ∀ c ∈ padDigits 16 k n, LowHex c
  | 0, _, c, h => by simp [padDigits] at h
  | k + 1, n, c, h => by
    simp only [padDigits, List.mem_append, List.mem_singleton] at h
    rcases h with h | h
    · exact padHex_low k _ c h
    · rw [h]; exact hexDigit_low (by omega)

/-- Zeros at the end are taken off, up to the point. -/
theorem rstrip0_point : ∀ (F : List Nat), (∀ c ∈ F, c ≠ 46) → ∃ F' j, F = F' ++ List.replicate j 48 ∧ ∀ I, rstrip0 (I ++ 46 :: F) = I ++ 46 :: F' := by
  intro F h
  have key : ∀ R : List Nat, ∃ R' j, R = List.replicate j 48 ++ R' ∧ ∀ J, (R ++ 46 :: J).dropWhile (· == 48) = R' ++ 46 :: J := by
    intro R
    induction R with
    | nil => exact ⟨[], 0, rfl, fun J => rfl⟩
    | cons c R ih =>
      by_cases hc : c = 48
      · obtain ⟨R', j, h1, h2⟩ := ih
        refine ⟨R', j + 1, by rw [hc, List.replicate_succ, h1]; rfl, fun J => ?_⟩
        rw [List.cons_append, List.dropWhile_cons_of_pos (by simp [hc])]
        exact h2 J
      · exact ⟨c :: R, 0, rfl, fun J => by rw [List.cons_append, List.dropWhile_cons_of_neg (by simp [hc])]⟩
  obtain ⟨R', j, h1, h2⟩ := key F.reverse
  refine ⟨R'.reverse, j, ?_, fun I => ?_⟩
  · rw [← List.reverse_reverse F, h1]; simp
  · have := h2 I.reverse
    unfold rstrip0
    rw [show (I ++ 46 :: F).reverse = F.reverse ++ 46 :: I.reverse by simp, this]
    simp

theorem digitsVal_after (b : Nat) (s : List Nat) (j : Nat) : digitsVal b (s ++ List.replicate j 48) = digitsVal b s * b ^ j := by
  induction j with
  | zero => simp
  | succ j ih =>
    rw [List.replicate_succ', ← List.append_assoc, digitsVal_concat, ih, Nat.pow_succ, Nat.mul_assoc]
    rfl

theorem rstripDot_none {I : List Nat} {c : Nat} (h : c ≠ 46) : rstripDot (I ++ [c]) = I ++ [c] := by
  unfold rstripDot
  rw [List.reverse_append]
  simp [h]

theorem rstripDot_point {I : List Nat} {c : Nat} (h : c ≠ 46) : rstripDot (I ++ [c] ++ [46]) = I ++ [c] := by
  unfold rstripDot
  rw [List.reverse_append, List.reverse_append]
  simp [h]

/-- Nothing, or `p` and an exponent. -/
def PowText (es : List Nat) (E : Int) : Prop := es = [] ∧ E = 0 ∨ es = 112 :: intText E

theorem pow_hes {es : List Nat} {E : Int} (h : PowText es E) : es = [] ∧ E = 0 ∨ ∃ r, es = 112 :: r ∧ readSigned r = some E := by
  rcases h with h | rfl
  · exact .inl h
  · exact .inr ⟨_, rfl, readInt_text E⟩

theorem two_pos (k : Nat) : 0 < 2 ^ k := Nat.two_pow_pos k

/-- The digits that `float_hex` writes. -/
theorem floatHex_read {es : List Nat} {E : Int} (he : PowText es E) (x k : Nat) (keep : Bool) :
    ∃ r, floatHex x k keep = 48 :: 120 :: r ∧ readFloat 16 112 2 (r ++ es) = some (toDbl (x * 2 ^ E.toNat) (16 ^ k * 2 ^ (-E).toNat)) ∧
      (∀ c ∈ r, c = 46 ∨ LowHex c) ∧ (keep = true → x ≠ 0 → 46 ∈ r) := by
  -- the digits before and after the point
  obtain ⟨I, hI, hIlow, hIval⟩ : ∃ I, (if x < 16 ^ k then [] else natHex (x / 16 ^ k)) = I ∧ (∀ c ∈ I, LowHex c) ∧ digitsVal 16 I = x / 16 ^ k := by
    refine ⟨_, rfl, ?_, ?_⟩
    · split
      · simp
      · exact natHex_low _
    · split
      · next h => rw [Nat.div_eq_of_lt h]; rfl
      · exact natHex_val _
  have hFlow := padHex_low k (x % 16 ^ k)
  obtain ⟨F, j, hF, hstrip⟩ := rstrip0_point (padDigits 16 k (x % 16 ^ k)) (fun c hc => by have := hFlow c hc; unfold LowHex at this; omega)
  have hFval := padDigits_val (b := 16) (by decide) (by decide) k (x % 16 ^ k)
  have hFlen := padDigits_length 16 k (x % 16 ^ k)
  rw [Nat.mod_mod] at hFval
  have hF'low : ∀ c ∈ F, LowHex c := fun c hc => hFlow c (by rw [hF]; exact List.mem_append_left _ hc)
  have hval : digitsVal 16 (I ++ F) * 16 ^ j = x := by
    have h1 := digitsVal_append 16 I (padDigits 16 k (x % 16 ^ k))
    rw [hFval, hFlen, hIval, Nat.mul_comm, Nat.div_add_mod, hF, ← List.append_assoc, digitsVal_after] at h1
    exact h1
  have hlen : F.length + j = k := by rw [← hFlen, hF]; simp
  have hex : floatHex x k keep = (if (if keep then [48, 120] ++ I ++ 46 :: F else rstripDot ([48, 120] ++ I ++ 46 :: F)) = [48, 120] ∨
      (if keep then [48, 120] ++ I ++ 46 :: F else rstripDot ([48, 120] ++ I ++ 46 :: F)) = [48, 120, 46] then [48, 120, 48] else
      (if keep then [48, 120] ++ I ++ 46 :: F else rstripDot ([48, 120] ++ I ++ 46 :: F))) := by
    unfold floatHex
    rw [hI]
    have := hstrip ([48, 120] ++ I)
    rw [List.append_assoc] at this
    dsimp only
    rw [this]
  -- the value of any text with these digits
  have value : ∀ tl, (tl = 46 :: F ∨ tl = [] ∧ F = []) → I ++ F ≠ [] →
      readFloat 16 112 2 ((I ++ tl) ++ es) = some (toDbl (x * 2 ^ E.toNat) (16 ^ k * 2 ^ (-E).toNat)) := by
    intro tl htl hne
    rw [List.append_assoc, readFloat_eq (fun c hc => (hIlow c hc).digit) (fun c hc => (hF'low c hc).digit) htl (by decide) (by decide) (pow_hes he) hne,
      ← toDbl_scale (c := 16 ^ j) (Nat.pow_pos (by decide)), ← hval, ← hlen]
    congr 2
    · rw [Nat.mul_comm (digitsVal _ _) (16 ^ j), Nat.mul_assoc]
    · rw [Nat.pow_add, Nat.mul_comm (16 ^ F.length) (16 ^ j), Nat.mul_assoc]
  by_cases hz : I ++ F = []
  · obtain ⟨hI0, hF0⟩ := List.append_eq_nil_iff.1 hz
    have hx : x = 0 := by
      rw [← hval, hz]
      exact Nat.zero_mul _
    refine ⟨[48], ?_, ?_, by simp [LowHex], fun _ h => absurd hx h⟩
    · rw [hex, hI0, hF0]
      cases keep with
      | true => rfl
      | false => decide
    · rw [hx, Nat.zero_mul, toDbl_zero (Nat.mul_pos (Nat.pow_pos (by decide)) (two_pos _))]
      have := readFloat_eq (base := 16) (mark := 112) (rad := 2) (ip := [48]) (fp := []) (tl := []) (by decide) (by simp) (.inr ⟨rfl, rfl⟩) (by decide) (by decide)
        (pow_hes he) (by simp)
      simp only [List.append_nil, List.nil_append] at this
      rw [this, show digitsVal 16 [48] = 0 from rfl, Nat.zero_mul, toDbl_zero (Nat.mul_pos (Nat.pow_pos (by decide)) (two_pos _))]
  · -- what is left of the point
    have out : ∃ tl, (tl = 46 :: F ∨ tl = [] ∧ F = []) ∧ (if keep then [48, 120] ++ I ++ 46 :: F else rstripDot ([48, 120] ++ I ++ 46 :: F)) = 48 :: 120 :: (I ++ tl) ∧
        (keep = true → tl = 46 :: F) := by
      cases keep with
      | true => exact ⟨_, .inl rfl, by simp, fun _ => rfl⟩
      | false =>
        rcases List.eq_nil_or_concat F with rfl | ⟨F', c, rfl⟩
        · refine ⟨[], .inr ⟨rfl, rfl⟩, ?_, nofun⟩
          have : ∃ J c, [48, 120] ++ I = J ++ [c] ∧ c ≠ 46 := by
            rcases List.eq_nil_or_concat I with rfl | ⟨I', c, rfl⟩
            · exact absurd rfl hz
            · refine ⟨[48, 120] ++ I', c, by simp, ?_⟩
              have := hIlow c (by simp); unfold LowHex at this; omega
          obtain ⟨J, c, e, hc⟩ := this
          rw [if_neg (by decide), e, rstripDot_point hc, ← e]
          simp
        · refine ⟨_, .inl rfl, ?_, nofun⟩
          have hc : c ≠ 46 := by have := hF'low c (by simp); unfold LowHex at this; omega
          have := rstripDot_none (I := [48, 120] ++ I ++ 46 :: F') hc
          rw [if_neg (by decide)]
          simpa using this
    obtain ⟨tl, htl, ht, hk⟩ := out
    refine ⟨I ++ tl, ?_, value tl htl hz, ?_, ?_⟩
    · rw [hex, ht, if_neg]
      rintro (h | h)
      · injection h with _ h; injection h with _ h
        obtain ⟨rfl, rfl⟩ := List.append_eq_nil_iff.1 h
        rcases htl with h | ⟨-, rfl⟩
        · cases h
        · exact hz rfl
      · injection h with _ h; injection h with _ h
        rcases htl with rfl | ⟨rfl, rfl⟩
        · cases I with
          | nil => injection h with _ h; subst h; exact hz rfl
          | cons c I => simp at h
        · rw [List.append_nil] at h
          have := hIlow 46 (by rw [h]; simp)
          unfold LowHex at this; omega
    · intro c hc
      rcases List.mem_append.1 hc with hc | hc
      · exact .inr (hIlow c hc)
      · rcases htl with rfl | ⟨rfl, -⟩
        · rcases List.mem_cons.1 hc with rfl | hc
          · exact .inl rfl
          · exact .inr (hF'low c hc)
        · cases hc
    · intro hk' _
      rw [hk hk']
      simp

/-! ### Both forms of a hexadecimal -/

theorem sixteen (k : Nat) : 16 ^ k = 2 ^ (4 * k) := by rw [Nat.pow_mul]

theorem man_log {n : Nat} : (dblMan n).log2 ≤ 52 := by
  have := (dbl_bits n).2.1
  rcases Nat.eq_zero_or_pos (dblMan n) with h | h
  · rw [h]; decide
  · have := (Nat.log2_lt (by omega)).2 this; omega

/-- The digits with an exponent are exact. -/
theorem hex_exp {n : Nat} (hn : n < infBits) {E : Int} (hE : n = 0 ∨ E = (dblExp n : Int) + (dblMan n).log2 - 1074) :
    toDbl (dblMan n * 2 ^ (224 - (dblMan n).log2) * 2 ^ E.toNat) (16 ^ 56 * 2 ^ (-E).toNat) = n := by
  refine toDbl_exact hn (Nat.mul_pos (Nat.pow_pos (by decide)) (two_pos _)) ?_
  rcases hE with rfl | hE
  · rw [show dblMan 0 = 0 by decide, show dbl 0 = 0 by decide]; simp only [Nat.zero_mul]
  · have hl := @man_log n
    unfold dbl
    rw [sixteen 56]
    have e : 224 - (dblMan n).log2 + E.toNat + 1074 = dblExp n + (4 * 56 + (-E).toNat) := by omega
    rw [Nat.mul_assoc, Nat.mul_assoc, ← Nat.pow_add, ← Nat.pow_add, Nat.mul_assoc, ← Nat.pow_add, ← Nat.pow_add, ← e, Nat.add_assoc]

theorem tenthMilli : toDbl 1 (10 ^ 4) / 2 ^ 52 = 1009 := by decide +kernel

/-- The digits without exponent are exact, if the number is not too small. -/
theorem hex_plain {n : Nat} (hn : n < infBits) (h : toDbl 1 (10 ^ 4) ≤ n) :
    toDbl (dbl n * 2 ^ 352 / 2 ^ 1074 * 2 ^ (0 : Int).toNat) (16 ^ 88 * 2 ^ (-(0 : Int)).toNat) = n := by
  have he : 1008 ≤ dblExp n := by
    have := dblExp_le h
    have e : dblExp (toDbl 1 (10 ^ 4)) = 1008 := by unfold dblExp; rw [tenthMilli]
    rwa [e] at this
  have hd : dbl n * 2 ^ 352 / 2 ^ 1074 * 2 ^ 1074 = dbl n * 2 ^ 352 := by
    refine Nat.div_mul_cancel ?_
    unfold dbl
    rw [Nat.mul_assoc, ← Nat.pow_add]
    exact Nat.dvd_mul_left_of_dvd (Nat.pow_dvd_pow 2 (by omega)) _
  refine toDbl_exact hn (Nat.mul_pos (Nat.pow_pos (by decide)) (two_pos _)) ?_
  simp only [Int.toNat_zero, Int.neg_zero, Nat.pow_zero, Nat.mul_one]
  rw [hd, sixteen 88]

theorem hex_plain_ne {n : Nat} (h : toDbl 1 (10 ^ 4) ≤ n) : dbl n * 2 ^ 352 / 2 ^ 1074 ≠ 0 := by
  have he : 1008 ≤ dblExp n := by
    have := dblExp_le h
    have e : dblExp (toDbl 1 (10 ^ 4)) = 1008 := by unfold dblExp; rw [tenthMilli]
    rwa [e] at this
  have hn : 0 < n := by
    rcases Nat.eq_zero_or_pos n with rfl | h'
    · have : dblExp 0 = 0 := by decide
      omega
    · exact h'
  refine Nat.pos_iff_ne_zero.1 (Nat.div_pos ?_ (two_pos _))
  have h1 : 0 < dblMan n := by
    rcases Nat.eq_zero_or_pos (dblMan n) with h | h
    · have := dbl_pos hn; unfold dbl at this; rw [h, Nat.zero_mul] at this; cases this
    · exact h
  unfold dbl
  rw [Nat.mul_assoc, ← Nat.pow_add]
  exact Nat.le_trans (Nat.pow_le_pow_right (by decide) (by omega)) (Nat.le_mul_of_pos_left _ h1)

/-! ### Tokens -/

theorem scan_exp {hx : Bool} {mark : Nat} (hm : isIdentChar false mark = true) (hg : (if hx then [112, 80] else [101, 69]).contains mark = true) (E : Int) :
    ∀ {m : List Nat} {p : Nat}, (∀ c ∈ m, isIdentChar false c = true ∨ c = 46) → numScan hx p (m ++ mark :: intText E) = (m ++ mark :: intText E).length
  | [], p, _ => by
    have hd : ∀ n, ∀ p, numScan hx p (natDigits n) = (natDigits n).length := fun n p => Mini.scan_all fun c hc => by
      have := natDigits_digit n c hc; simp [isIdentChar]; omega
    have hi : numScan hx mark (intText E) = (intText E).length := by
      unfold intText
      split
      · have : numGo hx mark 45 = true := by simp only [numGo, hg]; rfl
        rw [numScan, if_pos this, hd, List.length_cons]
      · exact hd _ _
    have : numGo hx p mark = true := by simp [numGo, hm]
    rw [List.nil_append, numScan, if_pos this, hi, List.length_cons]
  | c :: m, p, h => by
    have : numGo hx p c = true := by
      rcases h c (by simp) with hc | hc <;> simp [numGo, hc]
    rw [List.cons_append, numScan, if_pos this, scan_exp hm hg E fun d hd => h d (by simp [hd]), List.length_cons]

theorem scan_dots {hx : Bool} : ∀ {m : List Nat} {p : Nat}, (∀ c ∈ m, isIdentChar false c = true ∨ c = 46) → numScan hx p m = m.length
  | [], _, _ => rfl
  | c :: m, p, h => by
    have : numGo hx p c = true := by
      rcases h c (by simp) with hc | hc <;> simp [numGo, hc]
    rw [numScan, if_pos this, scan_dots fun d hd => h d (by simp [hd]), List.length_cons]

theorem scan_alone {c : Nat} {s : List Nat} (hc : isDigit c = true ∨ c = 46 ∧ headDigit s.head? = true) (h : numLen false (c :: s) = (c :: s).length) :
    Alone false (.number, c :: s) := by
  have hw : isWspace c = false := by
    rcases hc with hc | hc
    · cases hw : isWspace c with
      | false => rfl
      | true => rw [isDigit_wspace hw] at hc; cases hc
    · rw [hc.1]; decide
  have hcls : lexClass false c s.head? = .num := by
    rcases hc with hc | ⟨rfl, hc⟩
    · simp [lexClass, hw, hc]
    · simp [lexClass, hw, hc]
  simp only [Alone, lexStep, hcls, cutTok, h, List.take_length, List.drop_length]

/-- What is written for a number. -/
structure FloatOut (n : Nat) (t : List Nat) : Prop where
  parse : parseFloatAbs t = some n
  float : parseLuaAbs t = .float
  lower : ∀ c ∈ t, ¬ (65 ≤ c ∧ c ≤ 90)
  small : ∀ c ∈ t, c < 256
  token : Alone false (.number, t)

theorem intText_chars (E : Int) : ∀ c ∈ intText E, c = 45 ∨ 48 ≤ c ∧ c ≤ 57 := by
  intro c hc
  unfold intText at hc
  split at hc
  · rcases List.mem_cons.1 hc with rfl | hc
    · exact .inl rfl
    · exact .inr (natDigits_digit _ c hc)
  · exact .inr (natDigits_digit _ c hc)

theorem ident_digit {c : Nat} (h : 48 ≤ c ∧ c ≤ 57) : isIdentChar false c = true := by simp [isIdentChar]; omega

theorem ident_low {c : Nat} (h : LowHex c) : isIdentChar false c = true := by
  unfold LowHex at h; simp [isIdentChar]; omega

theorem hex_out {r es : List Nat} {E : Int} {n : Nat} (he : PowText es E) (hr : ∀ c ∈ r, c = 46 ∨ LowHex c) (hf : es ≠ [] ∨ 46 ∈ r)
    (h : readFloat 16 112 2 (r ++ es) = some n) : FloatOut n (48 :: 120 :: r ++ es) := by
  have hf' : 46 ∈ 48 :: 120 :: r ++ es ∨ 112 ∈ 48 :: 120 :: r ++ es := by
    rcases hf with hf | hf
    · rcases he with ⟨rfl, -⟩ | rfl
      · exact absurd rfl hf
      · right; simp
    · left; simp [hf]
  have hall : ∀ c ∈ 48 :: 120 :: r ++ es, c = 46 ∨ LowHex c ∨ c = 120 ∨ c = 112 ∨ c = 45 := by
    intro c hc
    simp only [List.cons_append, List.mem_cons, List.mem_append] at hc
    rcases hc with rfl | rfl | hc | hc
    · exact .inr (.inl (.inl (by decide)))
    · simp
    · rcases hr c hc with h | h <;> simp [h]
    · rcases he with ⟨rfl, -⟩ | rfl
      · cases hc
      · rcases List.mem_cons.1 hc with rfl | hc
        · simp
        · rcases intText_chars E c hc with rfl | h
          · simp
          · exact .inr (.inl (.inl h))
  refine ⟨?_, ?_, ?_, ?_, ?_⟩
  · unfold parseFloatAbs
    rw [if_pos (by rfl)]
    exact h
  · unfold parseLuaAbs
    rw [if_pos (by rfl), if_pos hf']
  · intro c hc; have := hall c hc; unfold LowHex at this; omega
  · intro c hc; have := hall c hc; unfold LowHex at this; omega
  · have hr' : ∀ c ∈ 48 :: 120 :: r, isIdentChar false c = true ∨ c = 46 := by
      intro c hc
      simp only [List.mem_cons] at hc
      rcases hc with rfl | rfl | hc
      · left; decide
      · left; decide
      · rcases hr c hc with h | h
        · exact .inr h
        · exact .inl (ident_low h)
    refine scan_alone (.inl (by decide)) ?_
    have hl : numLen false (48 :: 120 :: r ++ es) = numScan true 0 (48 :: 120 :: r ++ es) := rfl
    refine hl.trans ?_
    rcases he with ⟨rfl, -⟩ | rfl
    · rw [List.append_nil]; exact (scan_dots hr').trans (congrArg List.length (List.append_nil (48 :: 120 :: r)).symm)
    · exact scan_exp (by decide) (by decide) E hr'

theorem dec_out {m es : List Nat} {E : Int} {n : Nat} (he : ExpText es E) (hm : ∀ c ∈ m, c = 46 ∨ 48 ≤ c ∧ c ≤ 57) (hf : es ≠ [] ∨ 46 ∈ m)
    (h : readDec (m ++ es) = some n) : FloatOut n (m ++ es) := by
  have hf' : 46 ∈ m ++ es ∨ 101 ∈ m ++ es := by
    rcases hf with hf | hf
    · rcases he with ⟨rfl, -⟩ | rfl
      · exact absurd rfl hf
      · right; simp
    · left; simp [hf]
  have hall : ∀ c ∈ m ++ es, c = 46 ∨ (48 ≤ c ∧ c ≤ 57) ∨ c = 101 ∨ c = 45 := by
    intro c hc
    rcases List.mem_append.1 hc with hc | hc
    · rcases hm c hc with h | h
      · exact .inl h
      · exact .inr (.inl h)
    · rcases he with ⟨rfl, -⟩ | rfl
      · cases hc
      · rcases List.mem_cons.1 hc with rfl | hc
        · simp
        · rcases intText_chars E c hc with rfl | h
          · simp
          · exact .inr (.inl h)
  have two : ∀ x, x = 120 ∨ x = 98 → ¬ (m ++ es).take 2 = [48, x] := by
    intro x hx e
    have : x ∈ (m ++ es).take 2 := by rw [e]; simp
    have := hall x (List.mem_of_mem_take this)
    omega
  refine ⟨?_, ?_, ?_, ?_, ?_⟩
  · unfold parseFloatAbs
    rw [if_neg (two _ (.inl rfl)), if_neg (two _ (.inr rfl)), if_pos hf']
    exact h
  · unfold parseLuaAbs
    rw [if_neg (two _ (.inl rfl)), if_neg (two _ (.inr rfl)), if_pos hf']
  · intro c hc; have := hall c hc; omega
  · intro c hc; have := hall c hc; omega
  · have hm' : ∀ c ∈ m, isIdentChar false c = true ∨ c = 46 := fun c hc => (hm c hc).symm.imp ident_digit id
    have hlen : numLen false (m ++ es) = (m ++ es).length := by
      have hx : (((m ++ es).head? == some 48) && headIn ((m ++ es).drop 1).head? [120, 88]) = false := by
        match e : m ++ es with
        | [] => rfl
        | [c] => simp [headIn]
        | c :: d :: l =>
          have hd := hall d (by rw [e]; simp)
          have : headIn (some d) [120, 88] = false := by simp [headIn]; omega
          simp [this]
      simp only [numLen, Bool.false_eq_true, if_false, hx]
      rcases he with ⟨rfl, -⟩ | rfl
      · rw [List.append_nil]; exact scan_dots hm'
      · exact scan_exp (by decide) (by decide) E hm'
    cases m with
    | nil =>
      exfalso
      rcases he with ⟨rfl, -⟩ | rfl
      · cases h
      · simp [readDec, readFloat, readInt_text] at h
    | cons c m =>
      refine scan_alone ?_ hlen
      rcases hm c (by simp) with rfl | hc
      · right
        refine ⟨rfl, ?_⟩
        cases m with
        | nil =>
          exfalso
          rcases he with ⟨rfl, -⟩ | rfl
          · simp [readDec, readFloat, point_digit] at h
          · simp [readDec, readFloat, point_digit, readInt_text] at h
        | cons d m =>
          rcases hm d (by simp) with rfl | hd
          · exfalso
            simp [readDec, readFloat, point_digit] at h
          · simp [headDigit, isDigit]; omega
      · left; simp [isDigit]; omega

/-! ### All numbers -/

theorem pick {α : Type} {Q : α → Prop} {p : Prop} [Decidable p] {a b : α} (h1 : p → Q a) (h2 : ¬ p → Q b) : Q (if p then a else b) := by
  split
  · exact h1 ‹_›
  · exact h2 ‹_›

theorem plain_out {n : Nat} (hn : n < infBits) (h' : toDbl 1 (10 ^ 4) ≤ n) : FloatOut n (floatHex (dbl n * 2 ^ 352 / 2 ^ 1074) 88 true) := by
  have g1 := hex_plain hn h'
  have g2 := hex_plain_ne h'
  clear h'
  generalize dbl n * 2 ^ 352 / 2 ^ 1074 = x at g1 g2 ⊢
  obtain ⟨r, h1, h2, h3, h4⟩ := floatHex_read (es := []) (E := 0) (.inl ⟨rfl, rfl⟩) x 88 true
  rw [g1] at h2
  rw [h1]
  have := hex_out (.inl ⟨rfl, rfl⟩) h3 (.inr (h4 rfl g2)) h2
  rwa [List.append_nil] at this

theorem floatHexValue_out {n : Nat} (h0 : n ≠ 0) (hn : n < infBits) : FloatOut n (floatHexValue n) := by
  have ex : FloatOut n (floatHex (dblMan n * 2 ^ (224 - (dblMan n).log2)) 56 false ++
      112 :: intText (if n = 0 then -1 else (dblExp n : Int) + (dblMan n).log2 - 1074)) := by
    rw [if_neg h0]
    generalize hE : (dblExp n : Int) + (dblMan n).log2 - 1074 = E
    obtain ⟨r, h1, h2, h3, -⟩ := floatHex_read (es := 112 :: intText E) (.inr rfl) (dblMan n * 2 ^ (224 - (dblMan n).log2)) 56 false
    rw [hex_exp hn (.inr hE.symm)] at h2
    rw [h1]
    exact hex_out (.inr rfl) h3 (.inl (by simp)) h2
  unfold floatHexValue
  exact pick (fun h => pick (fun _ => ex) fun _ => plain_out hn ((or_iff_right h0).1 h).1) fun _ => ex

theorem floatDecValue_out {n : Nat} (hn : n < infBits) : ∃ t, floatDecValue n = some t ∧ FloatOut n t := by
  obtain ⟨s1, s2, s3⟩ := decSci_read hn
  obtain ⟨m, m1, m2, -, m3⟩ := shorten_float (.inr rfl) (keep := false) s1 s2 s3
  have ex : FloatOut n (m ++ 101 :: intText (decSci n).2) := dec_out (.inr rfl) m3 (.inl (by simp)) m2
  unfold floatDecValue
  dsimp only
  rw [m1, Option.bind_some]
  split
  · next h =>
    obtain ⟨d1, d2, d3⟩ := dec24_read hn (h.imp id And.left)
    obtain ⟨d, e1, e2, e3, e4⟩ := shorten_float (.inl ⟨rfl, rfl⟩) (keep := true) d1 d2 d3
    have dx := dec_out (.inl ⟨rfl, rfl⟩) e4 (.inr (e3 rfl)) e2
    simp only [List.append_nil] at e1 dx
    rw [show (fun v => readDec v) = readDec from rfl] at e1
    rw [e1, Option.map_some]
    refine ⟨_, rfl, ?_⟩
    split
    · exact ex
    · exact dx
  · exact ⟨_, rfl, ex⟩

theorem zero_out : formatFloat 0 = some [48, 46] := by decide +kernel

/-- Every number is written, as a token that is read as the same number. -/
theorem formatFloat_out {n : Nat} (hn : n ≤ infBits) : ∃ t, formatFloat n = some t ∧ FloatOut n t := by
  by_cases h0 : n = 0
  · subst h0
    refine ⟨_, zero_out, ?_⟩
    have := dec_out (n := 0) (m := [48, 46]) (es := []) (.inl ⟨rfl, rfl⟩) (by simp) (by simp) (by decide +kernel)
    exact this
  unfold formatFloat
  by_cases hi : n = infBits
  · rw [if_pos hi]
    subst hi
    refine ⟨_, rfl, ?_⟩
    have := dec_out (n := infBits) (m := [49]) (es := 101 :: intText 333) (.inr rfl) (by simp) (by simp) (by decide +kernel)
    have e : [49] ++ 101 :: intText 333 = [49, 101, 51, 51, 51] := by decide +kernel
    rwa [e] at this
  · rw [if_neg hi]
    have hn' : n < infBits := by omega
    obtain ⟨d, h1, h2⟩ := floatDecValue_out hn'
    have h3 := floatHexValue_out h0 hn'
    rw [h1, Option.map_some]
    refine ⟨_, rfl, ?_⟩
    split
    · exact h3
    · exact h2

theorem parseFloat_le {s : List Nat} {v : Nat} (h : parseFloatAbs s = some v) : v ≤ infBits := by
  have t : ∀ a b, toDbl a b ≤ infBits := fun a b => Nat.min_le_left _ _
  have r : ∀ {b m d s v}, readFloat b m d s = some v → v ≤ infBits := by
    intro b m d s v h
    unfold readFloat at h
    dsimp only at h
    split at h
    · split at h
      · cases h
      · cases h; exact t _ _
    · cases h
  unfold parseFloatAbs at h
  split at h
  · exact r h
  · split at h
    · unfold readBin at h
      dsimp only at h
      split at h
      · cases h
        split
        · exact Nat.le_refl _
        · exact t _ _
      · cases h
    · split at h
      · exact r h
      · split at h
        · split at h
          · cases h
          · cases h; exact t _ _
        · cases h

end Verif
