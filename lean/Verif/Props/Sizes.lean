import Verif.Sizes
import Verif.Spec.Percent
import Verif.TextLemmas
/-!
C95: the report of sizes.
-/
namespace Verif.Sizes
open Report

theorem foldl_natDigits (n : Nat) : (natDigits n).foldl (fun a c => a * 10 + (c - 48)) 0 = n := by
  induction n using natDigits.induct with
  | case1 n h => unfold natDigits; simp [h]
  | case2 n h ih =>
    unfold natDigits
    rw [dif_neg h, List.foldl_append, ih]
    simp; omega

theorem number_natDigits (n : Nat) : number (natDigits n) = some n := by
  unfold number
  rw [if_neg (natDigits_ne_nil n), if_pos, foldl_natDigits]
  rw [List.all_eq_true]
  intro c hc
  simpa using natDigits_digit n c hc

theorem dropWhile_digits (n c : Nat) (t : List Nat) (hc : ¬ (48 ≤ c ∧ c ≤ 57)) :
    (natDigits n ++ c :: t).dropWhile (fun c => decide (48 ≤ c ∧ c ≤ 57)) = c :: t := by
  rw [List.dropWhile_append_of_pos (fun a ha => by simpa using natDigits_digit n a ha), List.dropWhile_cons_of_neg (by simpa using hc)]

theorem takeWhile_digits (n c : Nat) (t : List Nat) (hc : ¬ (48 ≤ c ∧ c ≤ 57)) :
    (natDigits n ++ c :: t).takeWhile (fun c => decide (48 ≤ c ∧ c ≤ 57)) = natDigits n := by
  rw [List.takeWhile_append_of_pos (fun a ha => by simpa using natDigits_digit n a ha), List.takeWhile_cons_of_neg (by simpa using hc),
    List.append_nil]

theorem hundredths_fmt0 (s l : Nat) : hundredths (fmt0 s l) = some (nearest (100 * s) l * 100) := by
  unfold hundredths fmt0
  rw [dropWhile_digits _ _ _ (by omega), takeWhile_digits _ _ _ (by omega), number_natDigits]
  rfl

theorem number_two {a b : Nat} (ha : a < 10) (hb : b < 10) : number [48 + a, 48 + b] = some (a * 10 + b) := by
  have : ∀ a b : Fin 10, number [48 + a.1, 48 + b.1] = some (a.1 * 10 + b.1) := by decide
  exact this ⟨a, ha⟩ ⟨b, hb⟩

theorem hundredths_fmt2 (s l : Nat) : hundredths (fmt2 s l) = some (nearest (10000 * s) l) := by
  unfold hundredths fmt2
  dsimp only
  generalize nearest (10000 * s) l = h
  rw [dropWhile_digits _ _ _ (by omega), takeWhile_digits _ _ _ (by omega), number_natDigits]
  show (some (h / 100)).bind (fun w => (number [48 + h % 100 / 10, 48 + h % 10]).map (w * 100 + ·)) = some h
  rw [number_two (by omega) (by omega)]
  simp only [Option.bind_some, Option.map_some]
  congr 1; omega

/-- Rounding is off by at most a half. -/
theorem nearest_close (a : Nat) {b : Nat} (hb : 0 < b) :
    2 * a ≤ 2 * (nearest a b * b) + b ∧ 2 * (nearest a b * b) ≤ 2 * a + b := by
  have h1 := Nat.div_add_mod a b
  have h2 := Nat.mod_lt a hb
  rw [Nat.mul_comm] at h1
  unfold nearest
  generalize hq : a / b = q at *
  generalize a % b = r at *
  have h3 : (q + 1) * b = q * b + b := by rw [Nat.add_mul, Nat.one_mul]
  split
  · omega
  · split
    · omega
    · rcases Nat.mod_two_eq_zero_or_one q with h | h <;> rw [h]
      · simp only [Nat.add_zero]; omega
      · omega

/-- What the line says, before any claim about the percentage. -/
theorem report (name pre : List Nat) (size limit : Nat) : ∃ h,
    Reports (printSize name size limit pre) (if pre = [] then name else pre ++ 32 :: name) size h ∧
    ((95 * limit ≤ 100 * size ∧ h = nearest (10000 * size) limit) ∨ (100 * size < 95 * limit ∧ h = nearest (100 * size) limit * 100)) := by
  by_cases hc : 95 * limit ≤ 100 * size
  · refine ⟨nearest (10000 * size) limit, ⟨natDigits size, percent size limit, rfl, number_natDigits size, ?_⟩, .inl ⟨hc, rfl⟩⟩
    rw [percent, if_pos hc, hundredths_fmt2]
  · refine ⟨nearest (100 * size) limit * 100, ⟨natDigits size, percent size limit, rfl, number_natDigits size, ?_⟩, .inr ⟨by omega, rfl⟩⟩
    rw [percent, if_neg hc, hundredths_fmt0]

/-- C95: the line has the label, the size, and the percentage of the limit rounded to the nearest percent, and from 95 percent on to
the nearest hundredth of one. -/
theorem C95_report (name pre : List Nat) (size : Nat) {limit : Nat} (hl : 0 < limit) : ∃ h,
    Reports (printSize name size limit pre) (if pre = [] then name else pre ++ 32 :: name) size h ∧
    (100 * size < 95 * limit → 2 * (10000 * size) ≤ 2 * (h * limit) + 100 * limit ∧ 2 * (h * limit) ≤ 2 * (10000 * size) + 100 * limit) ∧
    (95 * limit ≤ 100 * size → 2 * (10000 * size) ≤ 2 * (h * limit) + limit ∧ 2 * (h * limit) ≤ 2 * (10000 * size) + limit) := by
  obtain ⟨h, hr, hh⟩ := report name pre size limit
  refine ⟨h, hr, ?_, ?_⟩
  · intro hc
    rcases hh with ⟨h1, _⟩ | ⟨_, rfl⟩
    · omega
    · have := nearest_close (100 * size) hl
      rw [Nat.mul_right_comm]
      omega
  · intro hc
    rcases hh with ⟨_, rfl⟩ | ⟨h1, _⟩
    · exact nearest_close (10000 * size) hl
    · omega

example : Reports (printSize [120] 8190 8192 [105]) [105, 32, 120] 8190 9998 :=
  ⟨natDigits 8190, [57, 57, 46, 57, 56, 37], by decide +kernel, by decide +kernel, by decide⟩
example : percent 4000 8192 = [52, 57, 37] := by decide +kernel

/-- A number consists of digits. -/
theorem number_of_digits {s : List Nat} {n : Nat} (h : number s = some n) : ∀ c ∈ s, 48 ≤ c ∧ c ≤ 57 := by
  unfold number at h
  split at h
  · cases h
  · split at h
    · rename_i h1
      intro c hc
      simpa using List.all_eq_true.mp h1 c hc
    · cases h

/-- A line reports one size and one percentage only. -/
theorem reports_unique {line label : List Nat} {n n' h h' : Nat} (a : Reports line label n h) (b : Reports line label n' h') :
    n = n' ∧ h = h' := by
  obtain ⟨u, p, e1, hn, hp⟩ := a
  obtain ⟨u', p', e2, hn', hp'⟩ := b
  rw [e1] at e2
  simp only [List.append_assoc, List.append_cancel_left_eq] at e2
  have tw : ∀ (u p : List Nat), (∀ c ∈ u, 48 ≤ c ∧ c ≤ 57) →
      (u ++ ([32] ++ (p ++ [10]))).takeWhile (fun c => decide (48 ≤ c ∧ c ≤ 57)) = u := by
    intro u p hu
    rw [List.takeWhile_append_of_pos (fun c hc => by simpa using hu c hc)]
    simp
  have h1 : u = u' := by rw [← tw u p (number_of_digits hn), e2, tw u' p' (number_of_digits hn')]
  subst h1
  simp at e2
  subst e2
  rw [hn] at hn'; rw [hp] at hp'
  exact ⟨Option.some.inj hn', Option.some.inj hp'⟩

/-- C95: for limits below 20000 (tokens, compressed size), more than 100 percent is shown exactly if the size is over the limit. -/
theorem C95_limit_partial (name pre : List Nat) {size limit n h : Nat} (hl : 0 < limit) (hs : limit < 20000)
    (hr : Reports (printSize name size limit pre) (if pre = [] then name else pre ++ 32 :: name) n h) :
    10000 < h ↔ limit < size := by
  obtain ⟨h', hr', h1, h2⟩ := C95_report name pre size hl
  obtain ⟨-, rfl⟩ := reports_unique hr hr'
  constructor
  · intro hh
    apply Nat.lt_of_not_le
    intro hle
    have h3 : 10001 * limit ≤ h * limit := Nat.mul_le_mul_right limit hh
    by_cases hc : 95 * limit ≤ 100 * size
    · have := h2 hc; omega
    · have := h1 (by omega); omega
  · intro hlt
    apply Nat.lt_of_not_le
    intro hle
    have h3 : h * limit ≤ 10000 * limit := Nat.mul_le_mul_right limit hle
    have := h2 (by omega)
    omega

/-- C95: for any limit, a size within the limit is never shown as more than 100 percent. -/
theorem C95_within (name pre : List Nat) {size limit n h : Nat} (hl : 0 < limit) (hs : size ≤ limit)
    (hr : Reports (printSize name size limit pre) (if pre = [] then name else pre ++ 32 :: name) n h) : n = size ∧ h ≤ 10000 := by
  obtain ⟨h', hr', h1, h2⟩ := C95_report name pre size hl
  obtain ⟨rfl, rfl⟩ := reports_unique hr hr'
  refine ⟨rfl, Nat.le_of_not_lt fun hh => ?_⟩
  have h3 : 10001 * limit ≤ h * limit := Nat.mul_le_mul_right limit hh
  by_cases hc : 95 * limit ≤ 100 * n
  · have := h2 hc; omega
  · have := h1 (by omega); omega

/-- C95, for the token count and the compressed size as printed. -/
theorem C95_tokens {k n h : Nat} (pre : List Nat)
    (hr : Reports (printTokens k pre) (if pre = [] then [116, 111, 107, 101, 110, 115] else pre ++ 32 :: [116, 111, 107, 101, 110, 115]) n h) :
    10000 < h ↔ 8192 < k := C95_limit_partial _ pre (by decide) (by decide) hr

theorem C95_compressed {k n h : Nat} (pre : List Nat)
    (hr : Reports (printCompressed k pre) (if pre = [] then [99, 111, 109, 112, 114, 101, 115, 115, 101, 100]
      else pre ++ 32 :: [99, 111, 109, 112, 114, 101, 115, 115, 101, 100]) n h) :
    10000 < h ↔ 15616 < k := C95_limit_partial _ pre (by decide) (by decide) hr

/-- C95, for URLs: over 100 percent is shown exactly for those that are too long to be written (pico_cart.py 640). -/
theorem C95_url {k n h : Nat} (pre : List Nat)
    (hr : Reports (printUrl k pre) (if pre = [] then [117, 114, 108] else pre ++ 32 :: [117, 114, 108]) n h) :
    n = k - 4 ∧ (10000 < h ↔ 2040 < k - 4) := by
  obtain ⟨h', hr', -, -⟩ := C95_report [117, 114, 108] pre (k - 4) (limit := 2040) (by decide)
  exact ⟨(reports_unique hr hr').1, C95_limit_partial _ pre (by decide) (by decide) hr⟩

/-- C95, for Picotron carts: over 100 percent is shown only from 14 bytes over the limit on. -/
theorem C95_tron_partial {k n h : Nat} (pre : List Nat)
    (hr : Reports (printTron k pre) (if pre = [] then [99, 111, 109, 112, 114, 101, 115, 115, 101, 100]
      else pre ++ 32 :: [99, 111, 109, 112, 114, 101, 115, 115, 101, 100]) n h) :
    n = k ∧ (10000 < h ↔ 262144 + 13 < k) := by
  obtain ⟨h', hr', h1, h2⟩ := C95_report [99, 111, 109, 112, 114, 101, 115, 115, 101, 100] pre k (limit := 262144) (by decide)
  obtain ⟨rfl, rfl⟩ := reports_unique hr hr'
  refine ⟨rfl, ?_⟩
  by_cases hc : 95 * 262144 ≤ 100 * n
  · have := h2 hc; omega
  · have := h1 (by omega); omega

example : Reports (printUrl 2045 []) [117, 114, 108] 2041 10005 :=
  ⟨natDigits 2041, percent 2041 2040, rfl, number_natDigits _, by decide +kernel⟩
example : Reports (printTron 262145 []) [99, 111, 109, 112, 114, 101, 115, 115, 101, 100] 262145 10000 :=
  ⟨natDigits 262145, percent 262145 262144, rfl, number_natDigits _, by decide +kernel⟩

example : Reports (printTokens 8193 []) [116, 111, 107, 101, 110, 115] 8193 10001 :=
  ⟨natDigits 8193, percent 8193 8192, rfl, number_natDigits _, by decide +kernel⟩

/-- C95, for the number of characters: over 100 percent is shown from 65539 characters on, four more than are allowed. -/
theorem C95_chars_partial {k n h : Nat} (pre : List Nat)
    (hr : Reports (printChars k pre) (if pre = [] then [99, 104, 97, 114, 115] else pre ++ 32 :: [99, 104, 97, 114, 115]) n h) :
    n = k ∧ (10000 < h ↔ 65535 + 3 < k) := by
  obtain ⟨h', hr', h1, h2⟩ := C95_report [99, 104, 97, 114, 115] pre k (limit := 65535) (by decide)
  obtain ⟨rfl, rfl⟩ := reports_unique hr hr'
  refine ⟨rfl, ?_⟩
  by_cases hc : 95 * 65535 ≤ 100 * n
  · have := h2 hc; omega
  · have := h1 (by omega); omega

example : Reports (printChars 65539 []) [99, 104, 97, 114, 115] 65539 10001 :=
  ⟨natDigits 65539, percent 65539 65535, rfl, number_natDigits _, by decide +kernel⟩

/-- C95 fails for characters: one character too many is shown as `chars: 65536 100.00%`, like the limit itself. -/
theorem C95_chars_counterexample :
    Reports (printChars 65536 []) [99, 104, 97, 114, 115] 65536 10000 ∧ Reports (printChars 65535 []) [99, 104, 97, 114, 115] 65535 10000 :=
  ⟨⟨natDigits 65536, percent 65536 65535, rfl, number_natDigits _, by decide +kernel⟩,
    ⟨natDigits 65535, percent 65535 65535, rfl, number_natDigits _, by decide +kernel⟩⟩

end Verif.Sizes
