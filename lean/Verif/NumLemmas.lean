import Verif.Num
import Verif.TextLemmas
/-! Helper lemmas for numeric literals. -/
namespace Verif

/-! ### Digits -/

theorem hexVal_digit {c : Nat} (h : 48 ≤ c ∧ c ≤ 57) : hexVal c = some (c - 48) := by simp [hexVal, h]

theorem isBaseDigit_ten {c : Nat} : isBaseDigit 10 c = true ↔ 48 ≤ c ∧ c ≤ 57 := by
  unfold isBaseDigit hexVal
  constructor
  · intro h
    split at h
    · next d hd =>
      simp at h
      split at hd
      · assumption
      · split at hd
        · simp at hd; omega
        · split at hd
          · simp at hd; omega
          · simp at hd
    · cases h
  · intro h; simp [h]; omega

theorem isBaseDigit_hexDigit {base n : Nat} (hb : base ≤ 16) (h : n < base) : isBaseDigit base (hexDigit n) = true := by
  unfold isBaseDigit; rw [hexVal_hexDigit (by omega)]; simpa using h

theorem digitsVal_concat (b : Nat) (s : List Nat) (c : Nat) : digitsVal b (s ++ [c]) = digitsVal b s * b + (hexVal c).getD 0 := by
  simp [digitsVal]

theorem digitsVal_foldl (b : Nat) (t : List Nat) : ∀ a, t.foldl (fun a c => a * b + (hexVal c).getD 0) a = a * b ^ t.length + digitsVal b t := by
  induction t with
  | nil => intro a; simp [digitsVal]
  | cons c t ih =>
    intro a
    unfold digitsVal
    rw [List.foldl_cons, ih, List.foldl_cons, ih (0 * b + _)]
    simp only [List.length_cons, Nat.pow_succ, Nat.zero_mul, Nat.zero_add, Nat.add_mul]
    rw [Nat.mul_assoc, Nat.mul_comm b, Nat.add_assoc]

theorem digitsVal_append (b : Nat) (s t : List Nat) : digitsVal b (s ++ t) = digitsVal b s * b ^ t.length + digitsVal b t := by
  conv => lhs; unfold digitsVal
  rw [List.foldl_append, digitsVal_foldl]; rfl

theorem padDigits_length (b : Nat) : ∀ k n, (padDigits b k n).length = k
  | 0, _ => rfl
  | k + 1, n => by simp [padDigits, padDigits_length b k]

theorem padDigits_digit {b : Nat} (hb : b ≤ 16) (h0 : 0 < b) : ∀ k n, ∀ c ∈ padDigits b k n, isBaseDigit b c = true
  | 0, _, c, h => by simp [padDigits] at h
  | k + 1, n, c, h => by
    simp only [padDigits, List.mem_append, List.mem_singleton] at h
    rcases h with h | rfl
    · exact padDigits_digit hb h0 k _ c h
    · exact isBaseDigit_hexDigit hb (Nat.mod_lt _ h0)

theorem padDigits_val {b : Nat} (hb : b ≤ 16) (h0 : 0 < b) : ∀ k n, digitsVal b (padDigits b k n) = n % b ^ k
  | 0, n => by simp [padDigits, digitsVal, Nat.mod_one]
  | k + 1, n => by
    rw [padDigits, digitsVal_concat, padDigits_val hb h0 k, hexVal_hexDigit (Nat.lt_of_lt_of_le (Nat.mod_lt _ h0) hb), Option.getD_some]
    rw [Nat.pow_succ, Nat.mul_comm (b ^ k) b, Nat.mod_mul, Nat.mul_comm]; omega

theorem natHex_ne_nil (n : Nat) : natHex n ≠ [] := by unfold natHex; split <;> simp

theorem natHex_digit (n : Nat) : ∀ c ∈ natHex n, isBaseDigit 16 c = true := by
  induction n using natHex.induct with
  | case1 n h => unfold natHex; simp [h, isBaseDigit_hexDigit]
  | case2 n h ih =>
    unfold natHex
    rw [dif_neg h]
    intro c hc
    rcases List.mem_append.mp hc with h1 | h1
    · exact ih c h1
    · simp at h1; rw [h1]; exact isBaseDigit_hexDigit (Nat.le_refl _) (by omega)

theorem natHex_val (n : Nat) : digitsVal 16 (natHex n) = n := by
  induction n using natHex.induct with
  | case1 n h => unfold natHex; simp [h, digitsVal, hexVal_hexDigit]
  | case2 n h ih =>
    unfold natHex
    rw [dif_neg h, digitsVal_concat, ih, hexVal_hexDigit (by omega)]
    simp; omega

theorem natDigits_val (n : Nat) : digitsVal 10 (natDigits n) = n := by
  induction n using natDigits.induct with
  | case1 n h => unfold natDigits; simp [h, digitsVal, hexVal_digit (c := 48 + n) (by omega)]
  | case2 n h ih =>
    unfold natDigits
    rw [dif_neg h, digitsVal_concat, ih, hexVal_digit (by omega)]
    simp; omega

theorem takeWhile_eq_all {p : Nat → Bool} {l r : List Nat} (h : ∀ a ∈ l, p a = true) (hr : ∀ a, r.head? = some a → p a = false) :
    (l ++ r).takeWhile p = l ∧ (l ++ r).dropWhile p = r := by
  rw [List.takeWhile_append_of_pos h, List.dropWhile_append_of_pos h]
  cases r with
  | nil => simp
  | cons a r => simp [hr a rfl]

theorem lowerChar_digit {c : Nat} (h : ¬ (65 ≤ c ∧ c ≤ 90)) : lowerChar c = c := by unfold lowerChar; rw [if_neg h]

/-- Characters the formatters write: digits, `a`..`f`, `x` and the point. -/
def NumChar (c : Nat) : Prop := isBaseDigit 10 c = true ∨ (97 ≤ c ∧ c ≤ 122) ∨ c = 46

theorem NumChar.lower {c : Nat} (h : NumChar c) : lowerChar c = c := by
  apply lowerChar_digit
  rcases h with h | h | h
  · rw [isBaseDigit_ten] at h; omega
  · omega
  · omega

theorem NumChar.not_sign {c : Nat} (h : NumChar c) : c ≠ 45 ∧ c ≠ 126 := by
  rcases h with h | h | h
  · rw [isBaseDigit_ten] at h; omega
  · omega
  · omega

theorem map_lower {s : List Nat} (h : ∀ c ∈ s, NumChar c) : s.map lowerChar = s := by
  conv => rhs; rw [← List.map_id s]
  apply List.map_congr_left
  intro a ha; exact (h a ha).lower

theorem parseFixnum_plain {s : List Nat} (h : ∀ c ∈ s, NumChar c) : parseFixnum s = parseFixAbs s := by
  unfold parseFixnum
  rw [map_lower h]
  cases s with
  | nil => rfl
  | cons c s =>
    have := (h c (by simp)).not_sign
    split
    · next e => simp at e; omega
    · next e => simp at e; omega
    · rfl

theorem parseFixnum_neg {s : List Nat} (h : ∀ c ∈ s, NumChar c) :
    parseFixnum (45 :: s) = (parseFixAbs s).map fun f => (2 ^ 32 - f) % 2 ^ 32 := by
  unfold parseFixnum
  rw [List.map_cons, map_lower h]; rfl

theorem parseFixnum_bnot {s : List Nat} (h : ∀ c ∈ s, NumChar c) :
    parseFixnum (126 :: s) = (parseFixAbs s).map fun f => 2 ^ 32 - 1 - f := by
  unfold parseFixnum
  rw [List.map_cons, map_lower h]; rfl

/-! ### Decimal texts -/

/-- Value of a reversed decimal text, ignoring points. -/
def valR : List Nat → Nat
  | [] => 0
  | c :: r => if c = 46 then valR r else (c - 48) + 10 * valR r

/-- A reversed decimal text with `k` digits after the point. -/
def DecR (rs : List Nat) (k : Nat) : Prop :=
  ∃ f i, rs = f ++ 46 :: i ∧ f.length = k ∧ (∀ c ∈ f, 48 ≤ c ∧ c ≤ 57) ∧ (∀ c ∈ i, 48 ≤ c ∧ c ≤ 57)

theorem valR_digits : ∀ {l : List Nat}, (∀ c ∈ l, 48 ≤ c ∧ c ≤ 57) → digitsVal 10 l.reverse = valR l
  | [], _ => rfl
  | c :: l, h => by
    have hc := h c (by simp)
    rw [List.reverse_cons, digitsVal_concat, valR_digits fun x hx => h x (List.mem_cons_of_mem _ hx), hexVal_digit hc, valR,
      if_neg (by omega)]
    simp; omega

theorem valR_append : ∀ {f i : List Nat}, (∀ c ∈ f, 48 ≤ c ∧ c ≤ 57) → valR (f ++ 46 :: i) = valR f + 10 ^ f.length * valR i
  | [], i, _ => by simp [valR]
  | c :: f, i, h => by
    have hc := h c (by simp)
    rw [List.cons_append, valR, if_neg (by omega), valR_append fun x hx => h x (List.mem_cons_of_mem _ hx), valR, if_neg (by omega),
      List.length_cons, Nat.pow_succ]
    rw [Nat.mul_add, ← Nat.mul_assoc, Nat.mul_comm 10 (10 ^ f.length)]; omega

theorem parseFixAbs_dec {rs : List Nat} {k : Nat} (h : DecR rs k) :
    parseFixAbs rs.reverse = some (valR rs * 65536 / 10 ^ k % 2 ^ 32) := by
  obtain ⟨f, i, rfl, hf, h1, h2⟩ := h
  have hd : ∀ l : List Nat, (∀ c ∈ l, 48 ≤ c ∧ c ≤ 57) → ∀ c ∈ l.reverse, isBaseDigit 10 c = true :=
    fun l hl c hc => isBaseDigit_ten.mpr (hl c (List.mem_reverse.mp hc))
  have e : (f ++ 46 :: i).reverse = i.reverse ++ 46 :: f.reverse := by simp
  rw [e, valR_append h1]
  have hpre : ∀ x, x = 120 ∨ x = 98 → (i.reverse ++ 46 :: f.reverse).take 2 ≠ [48, x] := by
    intro x hx hh
    have hm : x ∈ i.reverse ++ 46 :: f.reverse := List.mem_of_mem_take (i := 2) (by rw [hh]; simp : x ∈ _)
    simp at hm
    rcases hm with hm | hm | hm
    · have := h2 x hm; omega
    · omega
    · have := h1 x hm; omega
  unfold parseFixAbs
  rw [if_neg (hpre 120 (by simp)), if_neg (hpre 98 (by simp))]
  obtain ⟨t1, t2⟩ := takeWhile_eq_all (p := isBaseDigit 10) (r := 46 :: f.reverse) (hd i h2) (by simp; decide)
  obtain ⟨t3, t4⟩ := takeWhile_eq_all (p := isBaseDigit 10) (r := []) (hd f h1) (by simp)
  rw [List.append_nil] at t3 t4
  simp only [t1, t2, t3, t4, List.length_reverse, hf, and_self, if_true]
  rw [valR_digits h2, valR_digits h1, Nat.mul_comm (valR i), Nat.add_comm]

theorem add1R_digits : ∀ {l : List Nat}, (∀ c ∈ l, 48 ≤ c ∧ c ≤ 57) → (∀ c ∈ add1R l, 48 ≤ c ∧ c ≤ 57) ∧ valR (add1R l) = valR l + 1
  | [], _ => by simp [add1R, valR]
  | c :: l, h => by
    have hc := h c (by simp)
    have hl : ∀ x ∈ l, 48 ≤ x ∧ x ≤ 57 := fun x hx => h x (List.mem_cons_of_mem _ hx)
    obtain ⟨i1, i2⟩ := add1R_digits hl
    unfold add1R
    rw [if_neg (by omega)]
    by_cases h9 : c = 57
    · rw [if_pos h9]
      constructor
      · intro x hx
        rcases List.mem_cons.mp hx with rfl | hx
        · omega
        · exact i1 x hx
      · simp only [valR]; rw [if_neg (by omega), if_neg (by omega), i2]; omega
    · rw [if_neg h9]
      constructor
      · intro x hx
        rcases List.mem_cons.mp hx with rfl | hx
        · omega
        · exact hl x hx
      · simp only [valR]; rw [if_neg (by omega), if_neg (by omega)]; omega

theorem add1R_dec : ∀ {f i : List Nat}, (∀ c ∈ f, 48 ≤ c ∧ c ≤ 57) → (∀ c ∈ i, 48 ≤ c ∧ c ≤ 57) →
    DecR (add1R (f ++ 46 :: i)) f.length ∧ valR (add1R (f ++ 46 :: i)) = valR (f ++ 46 :: i) + 1
  | [], i, _, h2 => by
    obtain ⟨i1, i2⟩ := add1R_digits h2
    simp only [List.nil_append, add1R, if_true]
    exact ⟨⟨[], add1R i, rfl, rfl, by simp, i1⟩, by simp [valR, i2]⟩
  | c :: f, i, h1, h2 => by
    have hc := h1 c (by simp)
    have hl : ∀ x ∈ f, 48 ≤ x ∧ x ≤ 57 := fun x hx => h1 x (List.mem_cons_of_mem _ hx)
    obtain ⟨⟨f', i', e, i1, i2, i3⟩, i4⟩ := add1R_dec hl h2
    rw [List.cons_append]
    unfold add1R
    rw [if_neg (by omega)]
    by_cases h9 : c = 57
    · rw [if_pos h9]
      refine ⟨⟨48 :: f', i', by rw [e]; rfl, by simp [i1], ?_, i3⟩, ?_⟩
      · intro x hx
        rcases List.mem_cons.mp hx with rfl | hx
        · omega
        · exact i2 x hx
      · simp only [valR]; rw [if_neg (by omega), if_neg (by omega), i4]; omega
    · rw [if_neg h9]
      refine ⟨⟨(c + 1) :: f, i, rfl, rfl, ?_, h2⟩, ?_⟩
      · intro x hx
        rcases List.mem_cons.mp hx with rfl | hx
        · omega
        · exact hl x hx
      · simp only [valR]; rw [if_neg (by omega), if_neg (by omega)]; omega

end Verif
