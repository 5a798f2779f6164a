import Verif.NumLemmas
/-! C18, C19, C20: numeric literals. -/
namespace Verif

/-! ### C20 -/

/-- A decimal text: digits, a point, `k` digits. -/
def DecText (s : List Nat) (k : Nat) : Prop :=
  ∃ ip fp, s = ip ++ 46 :: fp ∧ fp.length = k ∧ (∀ c ∈ ip, 48 ≤ c ∧ c ≤ 57) ∧ (∀ c ∈ fp, 48 ≤ c ∧ c ≤ 57)

/-- What every sensible reader of decimal texts does: final zeros, a final point and a lone zero before the point mean nothing. -/
structure SensibleParse {α : Type} (parse : List Nat → α) : Prop where
  zero : ∀ s k, DecText s k → parse (s ++ [48]) = parse s
  point : ∀ s, (∀ c ∈ s, 48 ≤ c ∧ c ≤ 57) → parse (s ++ [46]) = parse s
  lead : ∀ s, (∀ c ∈ s, 48 ≤ c ∧ c ≤ 57) → s ≠ [] → parse (48 :: 46 :: s) = parse (46 :: s)

theorem decR_iff {s : List Nat} {k : Nat} : DecR s k ↔ DecText s.reverse k := by
  constructor
  · rintro ⟨f, i, rfl, h1, h2, h3⟩
    exact ⟨i.reverse, f.reverse, by simp, by simpa using h1, by simpa using h3, by simpa using h2⟩
  · rintro ⟨i, f, e, h1, h2, h3⟩
    refine ⟨f.reverse, i.reverse, ?_, by simpa using h1, by simpa using h3, by simpa using h2⟩
    rw [← List.reverse_reverse s, e]; simp

variable {α : Type} [DecidableEq α]

theorem minifyLoop_spec {parse : List Nat → α} {target : α} {keep : Bool} (hp : SensibleParse parse) :
    ∀ fuel ok rs k r, minifyLoop parse target keep fuel ok rs = some r → DecR rs k → (ok = true → parse rs.reverse = target) →
      (ok = true ∨ 0 < k) → parse r.reverse = target ∧ ((∃ k', DecR r k') ∨ ∀ c ∈ r, 48 ≤ c ∧ c ≤ 57) := by
  intro fuel
  induction fuel with
  | zero => intro ok rs k r h; simp [minifyLoop] at h
  | succ fuel ih =>
    intro ok rs k r h hd hok hk
    obtain ⟨f, i, rfl, h1, h2, h3⟩ := hd
    have hmem : 46 ∈ f ++ 46 :: i := by simp
    cases f with
    | nil =>
      simp only [List.nil_append] at h
      simp only [minifyLoop] at h
      rw [if_pos (by simp), if_pos trivial] at h
      simp only [List.length_nil] at h1
      have hok' := hok (by rcases hk with hk | hk; exact hk; omega)
      simp only [Option.some.injEq] at h
      cases keep with
      | true => subst h; exact ⟨hok', Or.inl ⟨0, [], i, rfl, rfl, by simp, h3⟩⟩
      | false =>
        subst h
        refine ⟨?_, Or.inr h3⟩
        rw [← hok']
        simp only [Bool.false_eq_true, if_false, List.nil_append, List.reverse_cons]
        exact (hp.point i.reverse (by simpa using h3)).symm
    | cons c f =>
      have hc := h2 c (by simp)
      have hf : ∀ x ∈ f, 48 ≤ x ∧ x ≤ 57 := fun x hx => h2 x (List.mem_cons_of_mem _ hx)
      simp only [List.cons_append] at h
      simp only [minifyLoop] at h
      rw [if_pos (by simp), if_neg (by omega)] at h
      have hr : DecR (f ++ 46 :: i) f.length := ⟨f, i, rfl, rfl, hf, h3⟩
      split at h
      · next hz =>
        refine ih _ _ _ _ h hr ?_ (Or.inl hz.2)
        intro ho
        rw [← hok ho, hz.1, List.cons_append, List.reverse_cons]
        exact (hp.zero _ _ (decR_iff.mp hr)).symm
      · split at h
        · next hq => exact ih _ _ _ _ h hr (fun _ => hq) (Or.inl rfl)
        · split at h
          · next hq => exact ih _ _ _ _ h (add1R_dec hf h3).1 (fun _ => hq) (Or.inl rfl)
          · split at h
            · next ho =>
              simp only [Option.some.injEq] at h
              subst h
              exact ⟨hok ho, Or.inl ⟨_, c :: f, i, rfl, rfl, h2, h3⟩⟩
            · cases h

/-- **C20.** For any sensible reader and any target, a decimal text (with digits after the point, or right to begin with) is shortened to
a text that is read as the target, or an error is reported. -/
theorem C20_shorten {parse : List Nat → α} {target : α} {keep : Bool} (hp : SensibleParse parse) {s t : List Nat} {k : Nat}
    (hs : DecText s k) (hk : parse s = target ∨ 0 < k) (h : floatStrMinify parse target keep s = some t) : parse t = target := by
  unfold floatStrMinify at h
  simp only [Option.map_eq_some_iff] at h
  obtain ⟨r, h1, h2⟩ := h
  have hd : DecR s.reverse k := by rw [decR_iff]; simpa using hs
  obtain ⟨h3, h4⟩ := minifyLoop_spec hp _ _ _ _ _ h1 hd (by intro h; simpa using h) (by simpa using hk)
  rw [← h2, ← h3]
  unfold stripZero
  split
  · next hz =>
    have e : r.reverse = 48 :: 46 :: (r.reverse.drop 2) := by
      have := List.take_append_drop 2 r.reverse
      rw [hz.1] at this; exact this.symm
    have hne : r.reverse.drop 2 ≠ [] := by intro hn; rw [hn] at e; exact hz.2 e
    rw [e]
    simp only [List.drop_succ_cons, List.drop_zero]
    refine (hp.lead _ ?_ hne).symm
    intro c hc
    rcases h4 with ⟨k', hk'⟩ | h4
    · obtain ⟨ip, fp, e2, _, h5, h6⟩ := decR_iff.mp hk'
      rw [e2] at e
      cases ip with
      | nil => simp at e
      | cons a ip =>
        simp only [List.cons_append, List.cons.injEq] at e
        cases ip with
        | nil =>
          simp only [List.nil_append, List.cons.injEq, true_and] at e
          exact h6 c (by rw [e2] at hc; simpa using hc)
        | cons b ip =>
          simp only [List.cons_append, List.cons.injEq] at e
          have := h5 b (by simp); omega
    · exact h4 c (List.mem_reverse.mp (List.mem_of_mem_drop hc))
  · rfl

theorem minifyLoop_isSome {parse : List Nat → α} {target : α} {keep : Bool} :
    ∀ fuel rs k, DecR rs k → k < fuel → (minifyLoop parse target keep fuel true rs).isSome = true := by
  intro fuel
  induction fuel with
  | zero => intro rs k _ h; omega
  | succ fuel ih =>
    intro rs k hd hk
    obtain ⟨f, i, rfl, h1, h2, h3⟩ := hd
    cases f with
    | nil => simp [minifyLoop]
    | cons c f =>
      have hc := h2 c (by simp)
      have hf : ∀ x ∈ f, 48 ≤ x ∧ x ≤ 57 := fun x hx => h2 x (List.mem_cons_of_mem _ hx)
      simp only [List.length_cons] at h1
      rw [List.cons_append]
      simp only [minifyLoop]
      rw [if_pos (by simp), if_neg (by omega)]
      have hr : DecR (f ++ 46 :: i) f.length := ⟨f, i, rfl, rfl, hf, h3⟩
      split
      · exact ih _ _ hr (by omega)
      · split
        · exact ih _ _ hr (by omega)
        · split
          · exact ih _ _ (add1R_dec hf h3).1 (by omega)
          · simp

/-- **C20.** No error is reported if the text was right to begin with. -/
theorem C20_no_error {parse : List Nat → α} {target : α} {keep : Bool} {s : List Nat} {k : Nat} (hs : DecText s k)
    (hk : parse s = target) : (floatStrMinify parse target keep s).isSome = true := by
  unfold floatStrMinify
  rw [Option.isSome_map, decide_eq_true hk]
  refine minifyLoop_isSome _ _ k (by rw [decR_iff]; simpa using hs) ?_
  obtain ⟨ip, fp, rfl, h, _⟩ := hs
  simp; omega

/-! ### C18 -/

theorem DecText.numChar {s : List Nat} {k : Nat} (h : DecText s k) : ∀ c ∈ s, NumChar c := by
  obtain ⟨ip, fp, rfl, _, h1, h2⟩ := h
  intro c hc
  simp only [List.mem_append, List.mem_cons] at hc
  rcases hc with hc | hc | hc
  · exact Or.inl (isBaseDigit_ten.mpr (h1 c hc))
  · exact Or.inr (Or.inr hc)
  · exact Or.inl (isBaseDigit_ten.mpr (h2 c hc))

/-- The value of a decimal text. -/
theorem parseFixnum_dec {s : List Nat} {k : Nat} (h : DecText s k) : parseFixnum s = some (valR s.reverse * 65536 / 10 ^ k % 2 ^ 32) := by
  rw [parseFixnum_plain h.numChar]
  have h' : DecR s.reverse k := by rw [decR_iff]; simpa using h
  have := parseFixAbs_dec h'
  simpa using this

theorem parseFixnum_int {s : List Nat} (h : ∀ c ∈ s, 48 ≤ c ∧ c ≤ 57) : parseFixnum s = some (digitsVal 10 s * 65536 % 2 ^ 32) := by
  rw [parseFixnum_plain fun c hc => Or.inl (isBaseDigit_ten.mpr (h c hc))]
  have hpre : ∀ x, x = 120 ∨ x = 98 → s.take 2 ≠ [48, x] := by
    intro x hx hh
    have hm : x ∈ s := List.mem_of_mem_take (i := 2) (by rw [hh]; simp : x ∈ _)
    have := h x hm; omega
  unfold parseFixAbs
  rw [if_neg (hpre 120 (by simp)), if_neg (hpre 98 (by simp))]
  obtain ⟨t3, t4⟩ := takeWhile_eq_all (p := isBaseDigit 10) (l := s) (r := []) (fun c hc => isBaseDigit_ten.mpr (h c hc)) (by simp)
  rw [List.append_nil] at t3 t4
  simp only [t3, t4]

/-- The PICO-8 number reader is sensible. -/
theorem parseFixnum_sensible : SensibleParse parseFixnum where
  zero := by
    intro s k h
    have h' : DecText (s ++ [48]) (k + 1) := by
      obtain ⟨ip, fp, rfl, h1, h2, h3⟩ := h
      refine ⟨ip, fp ++ [48], by simp, by simp [h1], h2, ?_⟩
      intro c hc
      rcases List.mem_append.mp hc with hc | hc
      · exact h3 c hc
      · simp at hc; omega
    rw [parseFixnum_dec h, parseFixnum_dec h']
    have e : valR (s ++ [48]).reverse = 10 * valR s.reverse := by simp [valR]
    rw [e, Nat.pow_succ, Nat.mul_comm (10 ^ k), Nat.mul_assoc, Nat.mul_div_mul_left _ _ (by decide)]
  point := by
    intro s h
    rw [parseFixnum_int h, parseFixnum_dec (k := 0) ⟨s, [], rfl, rfl, h, by simp⟩]
    have : valR (s ++ [46]).reverse = digitsVal 10 s := by
      have := valR_digits (l := s.reverse) (by simpa using h)
      rw [List.reverse_reverse] at this
      simp [valR, this]
    rw [this]; simp
  lead := by
    intro s h _
    rw [parseFixnum_dec (s := 48 :: 46 :: s) (k := s.length) ⟨[48], s, rfl, rfl, by simp, h⟩,
      parseFixnum_dec (s := 46 :: s) (k := s.length) ⟨[], s, rfl, rfl, by simp, h⟩]
    have hs : ∀ c ∈ s.reverse, 48 ≤ c ∧ c ≤ 57 := by simpa using h
    have e1 : (48 :: 46 :: s).reverse = s.reverse ++ 46 :: [48] := by simp
    have e2 : (46 :: s).reverse = s.reverse ++ 46 :: [] := by simp
    rw [e1, e2, valR_append hs, valR_append hs]
    simp [valR]

theorem roundHalfEven_near (a : Nat) : 2 * (roundHalfEven a 65536 * 65536) ≤ 2 * a + 65536 ∧ 2 * a ≤ 2 * (roundHalfEven a 65536 * 65536) + 65536 := by
  unfold roundHalfEven
  simp only
  split
  · omega
  · split
    · omega
    · split <;> omega

theorem dec6_text (v : Nat) : DecText (dec6 v) 6 ∧ valR (dec6 v).reverse = roundHalfEven (v * 10 ^ 6) 65536 := by
  unfold dec6
  generalize roundHalfEven (v * 10 ^ 6) 65536 = d
  have hp : ∀ c ∈ padDigits 10 6 (d % 10 ^ 6), 48 ≤ c ∧ c ≤ 57 :=
    fun c hc => isBaseDigit_ten.mp (padDigits_digit (by decide) (by decide) _ _ c hc)
  refine ⟨⟨_, _, rfl, padDigits_length _ _ _, natDigits_digit _, hp⟩, ?_⟩
  have e : (natDigits (d / 10 ^ 6) ++ 46 :: padDigits 10 6 (d % 10 ^ 6)).reverse =
      (padDigits 10 6 (d % 10 ^ 6)).reverse ++ 46 :: (natDigits (d / 10 ^ 6)).reverse := by simp
  have v1 := valR_digits (l := (padDigits 10 6 (d % 10 ^ 6)).reverse) (by simpa using hp)
  have v2 := valR_digits (l := (natDigits (d / 10 ^ 6)).reverse) (by simpa using natDigits_digit (d / 10 ^ 6))
  rw [List.reverse_reverse] at v1 v2
  simp only
  rw [e, valR_append (by simpa using hp), ← v1, ← v2, padDigits_val (by decide) (by decide), natDigits_val, List.length_reverse,
    padDigits_length]
  omega

theorem fixDec_arith1 {N v : Nat} (h1 : 2 * (N * 65536) ≤ 2 * (v * 10 ^ 6) + 65536) (h : v * 10 ^ 6 ≤ N * 65536) : N * 65536 / 10 ^ 6 = v := by
  omega

theorem fixDec_arith2 {N M c v : Nat} (h1 : 2 * (v * 10 ^ 6) ≤ 2 * (N * 65536) + 65536) (h : N * 65536 < v * 10 ^ 6)
    (hN : c - 48 + 10 * M = N) (hc : 48 ≤ c ∧ c ≤ 57) : (M + 1) * 65536 / 10 ^ 5 = v := by
  omega

theorem fixDec_core {v N : Nat} {s : List Nat} (hv : v < 2 ^ 32) (hd : DecText s 6) (hval : valR s.reverse = N)
    (hnear1 : 2 * (N * 65536) ≤ 2 * (v * 10 ^ 6) + 65536) (hnear2 : 2 * (v * 10 ^ 6) ≤ 2 * (N * 65536) + 65536) :
    ∃ t, floatStrMinify parseFixnum (some v) false s = some t ∧ parseFixnum t = some v := by
  have hsome : (floatStrMinify parseFixnum (some v) false s).isSome = true := by
    by_cases hok : parseFixnum s = some v
    · exact C20_no_error hd hok
    · unfold floatStrMinify
      rw [Option.isSome_map, decide_eq_false hok]
      have hpv := parseFixnum_dec hd
      rw [hval] at hpv
      rw [hpv] at hok
      have hlow : N * 65536 < v * 10 ^ 6 := by
        rcases Nat.lt_or_ge (N * 65536) (v * 10 ^ 6) with h | h
        · exact h
        · exfalso
          apply hok
          congr 1
          rw [fixDec_arith1 hnear1 h, Nat.mod_eq_of_lt hv]
      have hd' : DecR s.reverse 6 := by rw [decR_iff]; simpa using hd
      obtain ⟨f, i, e, h1, h2, h3⟩ := hd'
      have hlen : s.length = f.length + i.length + 1 := by
        have := congrArg List.length e; simp at this; omega
      rw [e] at hval
      rw [e]
      cases f with
      | nil => simp at h1
      | cons c f =>
        have hc := h2 c (by simp)
        have hf : ∀ x ∈ f, 48 ≤ x ∧ x ≤ 57 := fun x hx => h2 x (List.mem_cons_of_mem _ hx)
        simp only [List.length_cons] at h1 hlen
        simp only [List.cons_append] at hval ⊢
        simp only [minifyLoop]
        rw [if_pos (by simp), if_neg (by omega), if_neg (by simp)]
        have hr : DecR (f ++ 46 :: i) f.length := ⟨f, i, rfl, rfl, hf, h3⟩
        split
        · exact minifyLoop_isSome _ _ _ hr (by omega)
        · obtain ⟨a1, a2⟩ := add1R_dec hf h3
          rw [if_pos]
          · exact minifyLoop_isSome _ _ _ a1 (by omega)
          · have := parseFixnum_dec (decR_iff.mp a1)
            rw [this, List.reverse_reverse, a2]
            congr 1
            rw [valR, if_neg (by omega)] at hval
            have h5 : f.length = 5 := by omega
            rw [h5]
            rw [fixDec_arith2 hnear2 hlow hval hc, Nat.mod_eq_of_lt hv]
  obtain ⟨t, ht⟩ := Option.isSome_iff_exists.mp hsome
  exact ⟨t, ht, C20_shorten parseFixnum_sensible hd (Or.inr (by decide)) ht⟩

/-- The decimal form exists (the internal check never fails) and denotes the value. -/
theorem fixDec_spec {v : Nat} (hv : v < 2 ^ 32) : ∃ t, fixDec v = some t ∧ parseFixnum t = some v := by
  obtain ⟨hd, hval⟩ := dec6_text v
  have hnear := roundHalfEven_near (v * 10 ^ 6)
  unfold fixDec
  obtain ⟨s, hs⟩ : ∃ s, s = dec6 v := ⟨_, rfl⟩
  obtain ⟨N, hN⟩ : ∃ N, N = roundHalfEven (v * 10 ^ 6) 65536 := ⟨_, rfl⟩
  rw [← hs] at hd hval ⊢
  rw [← hN] at hval hnear
  exact fixDec_core hv hd hval hnear.1 hnear.2

theorem fixDec_chars {v : Nat} {t : List Nat} (h : fixDec v = some t) : ∀ c ∈ t, NumChar c := by
  unfold fixDec floatStrMinify at h
  simp only [Option.map_eq_some_iff] at h
  obtain ⟨r, h1, h2⟩ := h
  have hd : DecR (dec6 v).reverse 6 := by rw [decR_iff]; simpa using (dec6_text v).1
  obtain ⟨_, h4⟩ := minifyLoop_spec parseFixnum_sensible _ _ _ _ _ h1 hd (by intro h; simpa using h) (Or.inr (by decide))
  have hr : ∀ c ∈ r.reverse, NumChar c := by
    rcases h4 with ⟨k, hk⟩ | h4
    · exact (decR_iff.mp hk).numChar
    · intro c hc; exact Or.inl (isBaseDigit_ten.mpr (h4 c (List.mem_reverse.mp hc)))
  intro c hc
  rw [← h2] at hc
  unfold stripZero at hc
  split at hc
  · exact hr c (List.mem_of_mem_drop hc)
  · exact hr c hc

theorem rstrip0_split (s : List Nat) : ∃ j, s = rstrip0 s ++ List.replicate j 48 := by
  unfold rstrip0
  obtain ⟨w, e, hw⟩ := dropWhile_split (p := (· == 48)) s.reverse
  refine ⟨w.length, ?_⟩
  have : w = List.replicate w.length 48 := List.eq_replicate_iff.mpr ⟨rfl, fun b hb => by simpa using hw b hb⟩
  rw [← this]
  have e' := congrArg List.reverse e
  rw [List.reverse_reverse, List.reverse_append] at e'
  have hr : w.reverse = w := by rw [this]; simp
  rw [hr] at e'
  exact e'

theorem digitsVal_zeros (b j : Nat) : digitsVal b (List.replicate j 48) = 0 := by
  induction j with
  | zero => rfl
  | succ j ih => rw [List.replicate_succ', digitsVal_concat, ih]; simp [hexVal]

theorem hexChar_num {c : Nat} (h : isBaseDigit 16 c = true) (hl : ¬ (65 ≤ c ∧ c ≤ 70)) : NumChar c := by
  unfold isBaseDigit hexVal at h
  by_cases h1 : 48 ≤ c ∧ c ≤ 57
  · exact Or.inl (isBaseDigit_ten.mpr h1)
  · by_cases h2 : 97 ≤ c ∧ c ≤ 102
    · exact Or.inr (Or.inl (by omega))
    · simp [h1, h2, hl] at h

theorem hexDigit_not_upper {n : Nat} (h : n < 16) : ¬ (65 ≤ hexDigit n ∧ hexDigit n ≤ 70) := by unfold hexDigit; split <;> omega

theorem natHex_lower (n : Nat) : ∀ c ∈ natHex n, ¬ (65 ≤ c ∧ c ≤ 70) := by
  induction n using natHex.induct with
  | case1 n h => unfold natHex; intro c hc; simp [h] at hc; rw [hc]; exact hexDigit_not_upper h
  | case2 n h ih =>
    unfold natHex
    rw [dif_neg h]
    intro c hc
    rcases List.mem_append.mp hc with h1 | h1
    · exact ih c h1
    · simp at h1; rw [h1]; exact hexDigit_not_upper (by omega)

theorem padDigits_lower {b : Nat} (hb : b ≤ 16) (h0 : 0 < b) : ∀ k n, ∀ c ∈ padDigits b k n, ¬ (65 ≤ c ∧ c ≤ 70)
  | 0, _, c, h => by simp [padDigits] at h
  | k + 1, n, c, h => by
    simp only [padDigits, List.mem_append, List.mem_singleton] at h
    rcases h with h | rfl
    · exact padDigits_lower hb h0 k _ c h
    · exact hexDigit_not_upper (Nat.lt_of_lt_of_le (Nat.mod_lt _ h0) hb)

/-- The hexadecimal form denotes the value. -/
theorem fixHex_spec {v : Nat} (hv : v < 2 ^ 32) : parseFixAbs (fixHex v) = some v ∧ ∀ c ∈ fixHex v, NumChar c := by
  have hnum : ∀ n, ∀ c ∈ natHex n, NumChar c := fun n c hc => hexChar_num (natHex_digit n c hc) (natHex_lower n c hc)
  have pre : ∀ c ∈ [48, 120], NumChar c := by
    intro c hc; simp at hc; rcases hc with rfl | rfl
    · exact Or.inl (by decide)
    · exact Or.inr (Or.inl (by decide))
  unfold fixHex
  simp only
  split
  · next hf =>
    obtain ⟨j, hj⟩ := rstrip0_split (padDigits 16 4 (v % 65536))
    generalize hfp : rstrip0 (padDigits 16 4 (v % 65536)) = fp at hj
    obtain ⟨ip, hip, hip1, hip2, hip3⟩ : ∃ ip, ip = (if v / 65536 = 0 then [] else natHex (v / 65536)) ∧
        (∀ c ∈ ip, isBaseDigit 16 c = true) ∧ digitsVal 16 ip = v / 65536 ∧ ∀ c ∈ ip, NumChar c := by
      refine ⟨_, rfl, ?_⟩
      split
      · next h => simp [digitsVal, h]
      · exact ⟨natHex_digit _, natHex_val _, hnum _⟩
    rw [← hip]
    have hfp1 : ∀ c ∈ fp, isBaseDigit 16 c = true := fun c hc =>
      padDigits_digit (by decide) (by decide) 4 (v % 65536) c (by rw [hj]; exact List.mem_append_left _ hc)
    have hlen : fp.length + j = 4 := by
      have := congrArg List.length hj; simp [padDigits_length] at this; omega
    have hval : digitsVal 16 fp * 16 ^ j = v % 65536 := by
      have h1 := padDigits_val (b := 16) (by decide) (by decide) 4 (v % 65536)
      rw [hj, digitsVal_append, digitsVal_zeros, List.length_replicate] at h1
      omega
    constructor
    · unfold parseFixAbs
      simp only [List.cons_append, List.nil_append, List.take_succ_cons, List.take_zero, if_true, List.drop_succ_cons, List.drop_zero]
      obtain ⟨t1, t2⟩ := takeWhile_eq_all (p := isBaseDigit 16) (r := 46 :: fp) hip1 (by simp; decide)
      obtain ⟨t3, t4⟩ := takeWhile_eq_all (p := isBaseDigit 16) (r := []) hfp1 (by simp)
      rw [List.append_nil] at t3 t4
      simp only [t1, t2, t3, t4, and_self, if_true, hip2]
      congr 1
      have hp : 65536 = 16 ^ fp.length * 16 ^ j := by rw [← Nat.pow_add, hlen]
      have : (v / 65536 * 16 ^ fp.length + digitsVal 16 fp) * 65536 / 16 ^ fp.length = v := by
        rw [show (v / 65536 * 16 ^ fp.length + digitsVal 16 fp) * 65536 =
          16 ^ fp.length * (v / 65536 * 65536 + digitsVal 16 fp * 16 ^ j) by
            rw [Nat.mul_add, Nat.add_mul, Nat.mul_comm (v / 65536) (16 ^ fp.length), Nat.mul_assoc]
            congr 1
            conv => lhs; rw [hp]
            rw [← Nat.mul_assoc, Nat.mul_comm (digitsVal 16 fp), Nat.mul_assoc]]
        rw [Nat.mul_div_cancel_left _ (Nat.pow_pos (by decide)), hval]; omega
      rw [this, Nat.mod_eq_of_lt hv]
    · intro c hc
      rw [List.append_assoc, List.mem_append, List.mem_append, List.mem_cons (b := 46)] at hc
      rcases hc with hc | hc | hc | hc
      · exact pre c hc
      · exact hip3 c hc
      · exact Or.inr (Or.inr hc)
      · exact hexChar_num (hfp1 c hc) (padDigits_lower (b := 16) (by decide) (by decide) 4 (v % 65536) c (by rw [hj]; exact List.mem_append_left _ hc))
  · next hf =>
    constructor
    · unfold parseFixAbs
      simp only [List.cons_append, List.nil_append, List.take_succ_cons, List.take_zero, if_true, List.drop_succ_cons, List.drop_zero]
      obtain ⟨t3, t4⟩ := takeWhile_eq_all (p := isBaseDigit 16) (r := []) (natHex_digit (v / 65536)) (by simp)
      rw [List.append_nil] at t3 t4
      simp only [t3, t4, natHex_val]
      congr 1; omega
    · intro c hc
      simp only [List.mem_append] at hc
      rcases hc with hc | hc
      · exact pre c hc
      · exact hnum _ c hc

/-- Bases a caller may ask for. -/
def BaseOk (base : Option Nat) : Prop := base = none ∨ base = some 10 ∨ base = some 16

theorem fixBody_spec {base : Option Nat} (hb : BaseOk base) {v : Nat} (hv : v < 2 ^ 32) :
    ∃ t, fixBody base v = some t ∧ parseFixAbs t = some v ∧ ∀ c ∈ t, NumChar c := by
  obtain ⟨d, hd1, hd2⟩ := fixDec_spec hv
  have hdc := fixDec_chars hd1
  rw [parseFixnum_plain hdc] at hd2
  obtain ⟨hx1, hx2⟩ := fixHex_spec hv
  unfold fixBody
  rcases hb with rfl | rfl | rfl
  · simp only [hd1, Option.map_some]
    refine ⟨_, rfl, ?_⟩
    split
    · exact ⟨hx1, hx2⟩
    · exact ⟨hd2, hdc⟩
  · simp [hd1]; exact ⟨hd2, hdc⟩
  · simp; exact ⟨hx1, hx2⟩

theorem fixSigned_spec {base : Option Nat} (hb : BaseOk base) {v : Nat} (hv : v < 2 ^ 32) (sign : SignOpt) :
    ∃ t, fixSigned base v sign = some t ∧ parseFixnum t = some v := by
  unfold fixSigned
  cases sign with
  | neg =>
    obtain ⟨t, h1, h2, h3⟩ := fixBody_spec hb (v := (2 ^ 32 - v) % 2 ^ 32) (Nat.mod_lt _ (by decide))
    refine ⟨45 :: t, by simp [h1], ?_⟩
    rw [parseFixnum_neg h3, h2, Option.map_some]
    congr 1; omega
  | bnot =>
    obtain ⟨t, h1, h2, h3⟩ := fixBody_spec hb (v := 2 ^ 32 - 1 - v) (by omega)
    refine ⟨126 :: t, by simp [h1], ?_⟩
    rw [parseFixnum_bnot h3, h2, Option.map_some]
    congr 1; omega
  | auto =>
    obtain ⟨t, h1, h2, h3⟩ := fixBody_spec hb hv
    exact ⟨t, by simpa using h1, by rw [parseFixnum_plain h3]; exact h2⟩
  | plain =>
    obtain ⟨t, h1, h2, h3⟩ := fixBody_spec hb hv
    exact ⟨t, by simpa using h1, by rw [parseFixnum_plain h3]; exact h2⟩

/-- **C18.** Every 32-bit fixed point value, with any sign and base option, is written as a text that denotes it. -/
theorem C18_roundtrip {base : Option Nat} (hb : BaseOk base) {v : Nat} (hv : v < 2 ^ 32) (sign : SignOpt) :
    ∃ t, formatFixnum base v sign = some t ∧ parseFixnum t = some v := by
  obtain ⟨t, h1, h2⟩ := fixSigned_spec hb hv .auto
  obtain ⟨n, n1, n2⟩ := fixSigned_spec hb hv .neg
  obtain ⟨b, b1, b2⟩ := fixSigned_spec hb hv .bnot
  cases sign with
  | auto =>
    simp only [fixSigned] at h1
    simp only [formatFixnum, h1, n1, b1]
    by_cases hneg : v ≥ 2 ^ 31 ∧ v ≠ 2 ^ 31
    · rw [if_pos hneg]
      refine ⟨_, rfl, ?_⟩
      have hm : parseFixnum (if n.length < t.length then n else t) = some v := by split <;> assumption
      generalize (if n.length < t.length then n else t) = m at hm
      split
      · exact b2
      · exact hm
    · rw [if_neg hneg]; exact ⟨t, rfl, h2⟩
  | plain => exact fixSigned_spec hb hv .plain
  | neg => exact ⟨n, n1, n2⟩
  | bnot => exact ⟨b, b1, b2⟩

theorem length_ite_le' (n m : List Nat) : (if n.length < m.length then n else m).length ≤ m.length := by split <;> omega

theorem length_ite_le (b m' m : List Nat) (h : m'.length ≤ m.length) : (if b.length < m'.length then b else m').length ≤ m.length := by
  split <;> omega

/-- `formatFixnum` once the three candidates are known (stated for any base to keep the kernel from evaluating them). -/
theorem formatFixnum_auto {base : Option Nat} {v : Nat} {m n b : List Nat} (hbody : fixBody base v = some m)
    (n1 : fixSigned base v .neg = some n) (b1 : fixSigned base v .bnot = some b) :
    formatFixnum base v .auto = if v ≥ 2 ^ 31 ∧ v ≠ 2 ^ 31 then
      some (if b.length < (if n.length < m.length then n else m).length then b else (if n.length < m.length then n else m))
      else some m := by
  simp only [formatFixnum, hbody, n1, b1]

/-- **C18.** Left to itself, the formatter writes nothing longer than the plain forms in either base. -/
theorem C18_shortest {v : Nat} (hv : v < 2 ^ 32) {t d x : List Nat} (h : formatFixnum none v .auto = some t)
    (hd : formatFixnum (some 10) v .plain = some d) (hx : formatFixnum (some 16) v .plain = some x) :
    t.length ≤ d.length ∧ t.length ≤ x.length := by
  obtain ⟨n, n1, _⟩ := fixSigned_spec (Or.inl rfl) hv .neg
  obtain ⟨b, b1, _⟩ := fixSigned_spec (Or.inl rfl) hv .bnot
  have hd' : fixDec v = some d := by
    simpa only [formatFixnum, fixSigned, fixBody, if_true, show ¬ (10 : Nat) = 16 by decide, if_false] using hd
  have hx' : fixHex v = x := by simpa only [formatFixnum, fixSigned, fixBody, if_true, Option.some.injEq] using hx
  have hbody : fixBody none v = some (if x.length < d.length then x else d) := by
    unfold fixBody; rw [hd', hx']; rfl
  have hm : ∀ m : List Nat, m = (if x.length < d.length then x else d) → m.length ≤ d.length ∧ m.length ≤ x.length := by
    intro m hm; subst hm; split <;> omega
  obtain ⟨m, hm1⟩ : ∃ m, m = (if x.length < d.length then x else d) := ⟨_, rfl⟩
  have hm := hm m hm1
  rw [← hm1] at hbody
  have hk : ∃ m' : List Nat, formatFixnum none v .auto = some m' ∧ m'.length ≤ m.length := by
    rw [formatFixnum_auto hbody n1 b1]
    by_cases hneg : v ≥ 2 ^ 31 ∧ v ≠ 2 ^ 31
    · rw [if_pos hneg]
      refine ⟨_, rfl, ?_⟩
      exact length_ite_le _ _ _ (length_ite_le' _ _)
    · rw [if_neg hneg]; exact ⟨m, rfl, Nat.le_refl _⟩
  obtain ⟨m', h1, h2⟩ := hk
  rw [h1, Option.some.injEq] at h
  subst h
  exact ⟨Nat.le_trans h2 hm.1, Nat.le_trans h2 hm.2⟩

/-- 1/65536 (where rounding to six places is wrong at first), -0.5, and the largest positive value. -/
example : formatFixnum none 1 .auto = some [46, 48, 48, 48, 48, 50] ∧ formatFixnum none 0xffff8000 .auto = some [45, 46, 53] ∧
    formatFixnum none 0x7fffffff .auto = some [51, 50, 55, 54, 55, 46, 57, 57, 57, 57, 57] := by
  decide +kernel

/-- Why exact arithmetic may stand for the doubles of `parse_fixnum` in decimal literals of at most six places: let `p / Q` be the
double obtained for `N / 10^k`, exact where possible (a multiple of 1/65536 below 65536 is a double) and otherwise off by at most 2^-37
(half a unit in the last place below 65536, plus the tiny error of the quotient).  Then truncating `65536 * p / Q` gives the same
integer as exact arithmetic. -/
theorem fix_float_exact {N k p Q : Nat} (hk : k ≤ 6) (hQ : 0 < Q) (hexact : N * 65536 % 10 ^ k = 0 → p * 10 ^ k = N * Q)
    (h1 : p * 10 ^ k * 2 ^ 37 ≤ N * Q * 2 ^ 37 + Q * 10 ^ k) (h2 : N * Q * 2 ^ 37 ≤ p * 10 ^ k * 2 ^ 37 + Q * 10 ^ k) :
    p * 65536 / Q = N * 65536 / 10 ^ k := by
  have hT0 : 0 < 10 ^ k := Nat.pow_pos (by decide)
  have hT : 10 ^ k ≤ 10 ^ 6 := Nat.pow_le_pow_right (by decide) hk
  obtain ⟨T, hTd⟩ : ∃ T, T = 10 ^ k := ⟨_, rfl⟩
  rw [← hTd] at hT0 hT hexact h1 h2 ⊢
  have hdm := Nat.div_add_mod (N * 65536) T
  have hr := Nat.mod_lt (N * 65536) hT0
  obtain ⟨m, hm⟩ : ∃ m, m = N * 65536 / T := ⟨_, rfl⟩
  obtain ⟨r, hrr⟩ : ∃ r, r = N * 65536 % T := ⟨_, rfl⟩
  rw [← hm] at hdm ⊢
  rw [← hrr] at hdm hr hexact
  have hB : 65536 * (N * Q) = m * (Q * T) + r * Q := by
    have := congrArg (· * Q) hdm
    simp only [Nat.add_mul] at this
    calc 65536 * (N * Q) = N * 65536 * Q := by rw [← Nat.mul_assoc, Nat.mul_comm 65536 N]
      _ = T * m * Q + r * Q := this.symm
      _ = m * (Q * T) + r * Q := by rw [Nat.mul_comm T m, Nat.mul_assoc, Nat.mul_comm T Q]
  have key : m * (Q * T) ≤ 65536 * (p * T) ∧ 65536 * (p * T) < m * (Q * T) + Q * T := by
    by_cases hz : r = 0
    · have := hexact hz
      subst hz
      have hC : 0 < Q * T := Nat.mul_pos hQ hT0
      rw [this]; omega
    · have r1 : Q ≤ r * Q := Nat.le_mul_of_pos_left Q (Nat.pos_of_ne_zero hz)
      have r2 : r * Q + Q ≤ Q * T := by
        rw [← Nat.succ_mul, Nat.mul_comm Q T]; exact Nat.mul_le_mul_right Q hr
      have r3 : Q * T ≤ Q * 10 ^ 6 := Nat.mul_le_mul_left Q hT
      clear hexact hm hrr hdm hT hr
      generalize r * Q = R at r1 r2 hB
      generalize m * (Q * T) = M at hB ⊢
      generalize Q * T = C at r2 r3 h1 h2 ⊢
      generalize p * T = A at h1 h2 ⊢
      generalize N * Q = B at h1 h2 hB
      omega
  have k1 : m * Q ≤ p * 65536 := by
    apply Nat.le_of_mul_le_mul_right (c := T) _ hT0
    rw [Nat.mul_assoc, Nat.mul_comm p 65536, Nat.mul_assoc]; exact key.1
  have k2 : p * 65536 < (m + 1) * Q := by
    apply Nat.lt_of_mul_lt_mul_right (a := T)
    rw [Nat.mul_comm p 65536, Nat.mul_assoc 65536, Nat.mul_assoc (m + 1), Nat.succ_mul m]; exact key.2
  exact Nat.div_eq_of_lt_le k1 k2

/-! ### C19 -/

theorem toLuaInt_id {v : Int} (h1 : -2 ^ 63 ≤ v) (h2 : v < 2 ^ 63) : toLuaInt v = v := by
  unfold toLuaInt; simp only; split <;> omega

theorem toLuaInt_congr {a b : Int} (h : a % 2 ^ 64 = b % 2 ^ 64) : toLuaInt a = toLuaInt b := by
  unfold toLuaInt; rw [h]

theorem luaHex_spec (v : Nat) : parseLuaAbs ([48, 120] ++ natHex v) = .int (toLuaInt v) := by
  unfold parseLuaAbs
  have hm : ∀ c ∈ [48, 120] ++ natHex v, c ≠ 46 ∧ c ≠ 112 := by
    intro c hc
    rcases List.mem_append.mp hc with hc | hc
    · simp at hc; omega
    · have := natHex_digit v c hc
      have hd : isBaseDigit 16 46 = false ∧ isBaseDigit 16 112 = false := by decide
      constructor <;> intro he <;> subst he <;> rw [this] at hd <;> simp at hd
  rw [if_pos (by simp), if_neg (by
    rintro (h | h)
    · exact (hm _ h).1 rfl
    · exact (hm _ h).2 rfl)]
  have hdrop : ([48, 120] ++ natHex v).drop 2 = natHex v := rfl
  rw [hdrop, if_pos ⟨natHex_ne_nil v, List.all_eq_true.mpr (natHex_digit v)⟩, natHex_val]

theorem luaDec_spec (v : Nat) : parseLuaAbs (natDigits v) = if v < 2 ^ 63 then .int (toLuaInt v) else .float := by
  have hd := natDigits_digit v
  have hpre : ∀ x, x = 120 ∨ x = 98 → (natDigits v).take 2 ≠ [48, x] := by
    intro x hx hh
    have hm : x ∈ natDigits v := List.mem_of_mem_take (i := 2) (by rw [hh]; simp : x ∈ _)
    have := hd x hm; omega
  unfold parseLuaAbs
  rw [if_neg (hpre 120 (by simp)), if_neg (hpre 98 (by simp)), if_neg (by
    rintro (h | h) <;> have := hd _ h <;> omega)]
  rw [if_pos ⟨natDigits_ne_nil v, List.all_eq_true.mpr fun c hc => isBaseDigit_ten.mpr (hd c hc)⟩, natDigits_val]

/-- A body is read as an integer, except decimals that do not fit. -/
theorem luaBody_spec {base : Option Nat} (hb : BaseOk base) {v : Nat} (h10 : base = some 10 → v < 2 ^ 63) :
    ∃ t, luaBody base v = some t ∧ parseLuaAbs t = .int (toLuaInt v) := by
  unfold luaBody
  rcases hb with rfl | rfl | rfl
  · refine ⟨_, rfl, ?_⟩
    split
    · exact luaHex_spec v
    · next h =>
      split
      · exact luaHex_spec v
      · rw [luaDec_spec, if_pos (by omega)]
  · refine ⟨_, rfl, ?_⟩
    rw [luaDec_spec, if_pos (h10 rfl)]
  · exact ⟨_, rfl, luaHex_spec v⟩

theorem luaDenotes_plain {t : List Nat} {v : Int} (h : parseLuaAbs t = .int v) : luaDenotes t = .int v := by
  unfold luaDenotes
  split
  · next r => exfalso; revert h; unfold parseLuaAbs; simp [isBaseDigit, hexVal]; repeat' (split <;> simp)
  · next r => exfalso; revert h; unfold parseLuaAbs; simp [isBaseDigit, hexVal]; repeat' (split <;> simp)
  · exact h

/-- The unsigned number written for `v` under a sign option. -/
def luaMag (v : Int) : SignOpt → Nat
  | .neg => ((-v) % 2 ^ 64).toNat
  | .bnot => ((-v - 1) % 2 ^ 64).toNat
  | _ => (v % 2 ^ 64).toNat

theorem luaSigned_spec {base : Option Nat} (hb : BaseOk base) {v : Int} (h1 : -2 ^ 63 ≤ v) (h2 : v < 2 ^ 63)
    (sign : SignOpt) (h10 : base = some 10 → luaMag v sign < 2 ^ 63) : ∃ t, luaSigned base v sign = some t ∧ luaDenotes t = .int v := by
  have hid := toLuaInt_id h1 h2
  obtain ⟨t, e1, e2⟩ := luaBody_spec hb h10
  cases sign with
  | neg =>
    simp only [luaMag] at e1 e2
    refine ⟨45 :: t, by simp only [luaSigned, e1, Option.map_some], ?_⟩
    simp only [luaDenotes, e2]
    congr 1
    unfold toLuaInt; simp only; split <;> split <;> omega
  | bnot =>
    simp only [luaMag] at e1 e2
    refine ⟨126 :: t, by simp only [luaSigned, e1, Option.map_some], ?_⟩
    simp only [luaDenotes, e2]
    congr 1
    unfold toLuaInt; simp only; split <;> split <;> omega
  | auto =>
    simp only [luaMag] at e1 e2
    refine ⟨t, by simp only [luaSigned, e1], ?_⟩
    rw [luaDenotes_plain e2]
    congr 1
    unfold toLuaInt; simp only; split <;> omega
  | plain =>
    simp only [luaMag] at e1 e2
    refine ⟨t, by simp only [luaSigned, e1], ?_⟩
    rw [luaDenotes_plain e2]
    congr 1
    unfold toLuaInt; simp only; split <;> omega

/-- **C19.** Every 64-bit integer, with any sign option, is written as a text (hexadecimal or whichever base is shorter) that denotes it
as an integer. -/
theorem C19_roundtrip {base : Option Nat} (hb : base = none ∨ base = some 16) {v : Int} (h1 : -2 ^ 63 ≤ v) (h2 : v < 2 ^ 63)
    (allowNot : Bool) (sign : SignOpt) : ∃ t, formatLuaInt base allowNot v sign = some t ∧ luaDenotes t = .int v := by
  have hb' : BaseOk base := by rcases hb with rfl | rfl <;> simp [BaseOk]
  have hb10 : base ≠ some 10 := by rcases hb with rfl | rfl <;> simp
  have hs := fun s => luaSigned_spec hb' h1 h2 s (fun h => absurd h hb10)
  obtain ⟨t, t1, t2⟩ := hs .auto
  obtain ⟨n, n1, n2⟩ := hs .neg
  obtain ⟨b, b1, b2⟩ := hs .bnot
  cases sign with
  | auto =>
    simp only [luaSigned] at t1
    simp only [formatLuaInt, t1, n1, b1]
    split
    · refine ⟨_, rfl, ?_⟩
      have hm : luaDenotes (if n.length < t.length then n else t) = .int v := by split <;> assumption
      generalize (if n.length < t.length then n else t) = m at hm
      split
      · exact b2
      · exact hm
    · exact ⟨t, rfl, t2⟩
  | plain => exact hs .plain
  | neg => exact hs .neg
  | bnot => exact hs .bnot

theorem natDigits_length_le : ∀ (k n : Nat), n < 10 ^ (k + 1) → (natDigits n).length ≤ k + 1 := by
  intro k
  induction k with
  | zero => intro n h; unfold natDigits; rw [dif_pos (by omega)]; simp
  | succ k ih =>
    intro n h
    unfold natDigits
    split
    · simp
    · have := ih (n / 10) (by rw [Nat.pow_succ] at h; omega)
      simp; omega

theorem natDigits_length_ge : ∀ (k n : Nat), 10 ^ k ≤ n → k + 1 ≤ (natDigits n).length := by
  intro k
  induction k with
  | zero => intro n _; have := natDigits_ne_nil n; cases h : natDigits n with | nil => contradiction | cons => simp
  | succ k ih =>
    intro n h
    have hk : 0 < 10 ^ k := Nat.pow_pos (by decide)
    rw [Nat.pow_succ] at h
    unfold natDigits
    rw [dif_neg (by omega)]
    have := ih (n / 10) (by omega)
    simp; omega

/-- **C19**, decimal text: holds above -10^18.  The full statement (every 64-bit integer) is false, see below. -/
theorem C19_decimal_partial {v : Int} (h1 : -10 ^ 18 < v) (h2 : v < 2 ^ 63) (allowNot : Bool) :
    ∃ t, formatLuaInt (some 10) allowNot v .auto = some t ∧ luaDenotes t = .int v := by
  have hb : BaseOk (some 10) := Or.inr (Or.inl rfl)
  by_cases hv : 0 ≤ v
  · obtain ⟨t, t1, t2⟩ := luaSigned_spec hb (by omega) h2 .auto (by intro _; simp only [luaMag]; omega)
    simp only [luaSigned] at t1
    simp only [formatLuaInt, t1]
    rw [if_neg (by omega)]
    exact ⟨t, rfl, t2⟩
  · obtain ⟨n, n1, n2⟩ := luaSigned_spec hb (by omega) h2 .neg (by intro _; simp only [luaMag]; omega)
    obtain ⟨b, b1, b2⟩ := luaSigned_spec hb (by omega) h2 .bnot (by intro _; simp only [luaMag]; omega)
    have hbody : luaBody (some 10) (v % 2 ^ 64).toNat = some (natDigits (v % 2 ^ 64).toNat) := rfl
    have hlong : 20 ≤ (natDigits (v % 2 ^ 64).toNat).length := natDigits_length_ge 19 _ (by omega)
    have hn : n.length ≤ 19 := by
      have e : luaSigned (some 10) v .neg = some (45 :: natDigits ((-v) % 2 ^ 64).toNat) := rfl
      rw [e] at n1
      have := natDigits_length_le 17 ((-v) % 2 ^ 64).toNat (by omega)
      rw [← Option.some.inj n1, List.length_cons]; omega
    simp only [formatLuaInt, hbody, n1, b1]
    rw [if_pos (by omega)]
    have hlt : n.length < (natDigits (v % 2 ^ 64).toNat).length := by omega
    rw [if_pos hlt]
    refine ⟨_, rfl, ?_⟩
    split
    · exact b2
    · exact n2

/-- **C19** fails in decimal from -10^18 down (POD text uses this form): the text is that of the unsigned 64-bit number, which is read as
a float. -/
theorem C19_decimal_counterexample : ∃ t, formatLuaInt (some 10) false (-10 ^ 18) .auto = some t ∧ luaDenotes t = .float :=
  ⟨natDigits 17446744073709551616, by decide +kernel, by decide +kernel⟩

example : formatLuaInt none true (-1) .auto = some [45, 49] ∧ formatLuaInt none true (-2 ^ 63) .auto =
    some [48, 120, 56, 48, 48, 48, 48, 48, 48, 48, 48, 48, 48, 48, 48, 48, 48, 48] := by decide +kernel

end Verif
