import Verif.Binary
/-! C52: binary primitives. -/
namespace Verif

theorem leBytes_spec : ∀ (n v : Nat), (leBytes n v).length = n ∧ (∀ b ∈ leBytes n v, b < 256) ∧ leValue (leBytes n v) = v % 256 ^ n
  | 0, v => by simp [leBytes, leValue, Nat.mod_one]
  | n + 1, v => by
    obtain ⟨h1, h2, h3⟩ := leBytes_spec n (v / 256)
    refine ⟨by simp [leBytes, h1], ?_, ?_⟩
    · intro b hb
      rcases List.mem_cons.mp hb with rfl | hb
      · omega
      · exact h2 b hb
    · rw [leBytes, leValue, h3, Nat.pow_succ, Nat.mul_comm (256 ^ n) 256, Nat.mod_mul]

theorem leValue_lt : ∀ (l : List Nat), (∀ b ∈ l, b < 256) → leValue l < 256 ^ l.length ∧ leBytes l.length (leValue l) = l
  | [], _ => by simp [leValue, leBytes]
  | b :: l, h => by
    obtain ⟨h1, h2⟩ := leValue_lt l fun x hx => h x (List.mem_cons_of_mem _ hx)
    have hb := h b (by simp)
    rw [leValue, List.length_cons, leBytes, Nat.pow_succ]
    refine ⟨by omega, ?_⟩
    have e1 : (b + 256 * leValue l) % 256 = b := by omega
    have e2 : (b + 256 * leValue l) / 256 = leValue l := by omega
    rw [e1, e2, h2]

/-- **C52 (unsigned).** A value of `n` bytes can be written exactly if it is in range; it is read back from the front of any stream, for
either byte order, using up exactly the `n` bytes. -/
theorem C52_unsigned (big : Bool) (n : Nat) (v : Int) :
    ((packU big n v).isSome ↔ 0 ≤ v ∧ v < ((256 ^ n : Nat) : Int)) ∧
    ∀ b, packU big n v = some b → b.length = n ∧ (∀ x ∈ b, x < 256) ∧ ∀ rest, unpackU big n (b ++ rest) = some (v, rest) := by
  unfold packU
  constructor
  · split <;> simp_all
  · intro b h
    split at h
    · rename_i hv
      obtain ⟨h1, h2, h3⟩ := leBytes_spec n v.toNat
      simp only [Option.some.injEq] at h
      have hval : leValue (leBytes n v.toNat) = v.toNat := by rw [h3]; exact Nat.mod_eq_of_lt (by omega)
      have hlen : b.length = n := by rw [← h]; split <;> simp [h1]
      refine ⟨hlen, fun x hx => ?_, fun rest => ?_⟩
      · rw [← h] at hx
        split at hx
        · exact h2 x (List.mem_reverse.mp hx)
        · exact h2 x hx
      · unfold unpackU
        rw [if_neg (by rw [List.length_append]; omega), List.take_left' hlen, List.drop_left' hlen]
        have : leValue (if big = true then b.reverse else b) = v.toNat := by
          rw [← h]
          cases big
          · simpa using hval
          · simpa using hval
        rw [this]
        simp only [Option.some.injEq, Prod.mk.injEq, and_true]
        omega
    · simp at h

/-- **C52 (signed).** Likewise for signed values, in two's complement. -/
theorem C52_signed (big : Bool) {n : Nat} (hn : 0 < n) (v : Int) :
    ((packS big n v).isSome ↔ -((256 ^ n / 2 : Nat) : Int) ≤ v ∧ v < ((256 ^ n / 2 : Nat) : Int)) ∧
    ∀ b, packS big n v = some b → b.length = n ∧ (∀ x ∈ b, x < 256) ∧ ∀ rest, unpackS big n (b ++ rest) = some (v, rest) := by
  obtain ⟨m, rfl⟩ : ∃ m, n = m + 1 := ⟨n - 1, by omega⟩
  have heven : (256 ^ (m + 1) / 2 : Nat) * 2 = 256 ^ (m + 1) := by rw [Nat.pow_succ]; omega
  have hpos : 0 < 256 ^ (m + 1) := Nat.pos_of_ne_zero (by simp)
  unfold packS
  have hr0 := Int.emod_nonneg v (by omega : ((256 ^ (m + 1) : Nat) : Int) ≠ 0)
  have hr1 := Int.emod_lt_of_pos v (by omega : (0 : Int) < ((256 ^ (m + 1) : Nat) : Int))
  have hU := C52_unsigned big (m + 1) (v % ((256 ^ (m + 1) : Nat) : Int))
  unfold unpackS
  generalize hA : (256 ^ (m + 1) : Nat) = A at *
  by_cases hv : -((A / 2 : Nat) : Int) ≤ v ∧ v < ((A / 2 : Nat) : Int)
  · rw [if_pos hv]
    refine ⟨by rw [hU.1]; exact ⟨fun _ => hv, fun _ => ⟨hr0, hr1⟩⟩, fun b hb => ?_⟩
    obtain ⟨h1, h2, h3⟩ := hU.2 b hb
    refine ⟨h1, h2, fun rest => ?_⟩
    rw [h3 rest]
    simp only [Option.map_some, Option.some.injEq, Prod.mk.injEq, and_true]
    by_cases h0 : 0 ≤ v
    · rw [Int.emod_eq_of_lt h0 (by omega), if_pos hv.2]
    · have e : v % (A : Int) = v + A := by
        rw [← Int.add_emod_right, Int.emod_eq_of_lt (by omega) (by omega)]
      rw [e, if_neg (by omega)]
      omega
  · rw [if_neg hv]
    exact ⟨⟨by simp, fun h => absurd h hv⟩, by simp⟩

/-- **C52 (every encoding is meant).** Reading a value and writing it again gives the same bytes. -/
theorem C52_unsigned_inverse (big : Bool) (n : Nat) (s : List Nat) (hs : ∀ b ∈ s, b < 256) {v : Int} {rest : List Nat}
    (h : unpackU big n s = some (v, rest)) : ∃ b, packU big n v = some b ∧ s = b ++ rest := by
  unfold unpackU at h
  split at h
  · simp at h
  · rename_i hl
    simp only [Option.some.injEq, Prod.mk.injEq] at h
    obtain ⟨h1, h2⟩ := h
    have hlen : (s.take n).length = n := by simp; omega
    have hb : ∀ b ∈ (if big = true then (s.take n).reverse else s.take n), b < 256 := by
      intro b hb
      apply hs b
      split at hb
      · exact List.mem_of_mem_take (List.mem_reverse.mp hb)
      · exact List.mem_of_mem_take hb
    obtain ⟨g1, g2⟩ := leValue_lt _ hb
    have hl2 : (if big = true then (s.take n).reverse else s.take n).length = n := by split <;> simp <;> omega
    rw [hl2] at g1 g2
    refine ⟨s.take n, ?_, by rw [← h2, List.take_append_drop]⟩
    unfold packU
    rw [if_pos ⟨by omega, by omega⟩, ← h1, Int.toNat_natCast, g2]
    cases big <;> simp

/-- **C52 (variable-length).** Any natural number is read back from the front of any stream. -/
theorem C52_nat (v : Nat) (rest : List Nat) : readNat (writeNat v ++ rest) = some (v, rest) ∧ ∀ b ∈ writeNat v, b < 256 := by
  have key : ∀ acc shift, acc < 2 ^ shift → readNatLoop acc shift (writeNat v ++ rest) = some (acc + v * 2 ^ shift, rest) := by
    fun_induction writeNat v with
    | case1 v hv =>
      intro acc shift hacc
      rw [List.cons_append, readNatLoop]
      have e1 : v % 128 &&& 0x7f = v := by
        rw [show (0x7f : Nat) = 2 ^ 7 - 1 from rfl, Nat.and_two_pow_sub_one_eq_mod]; omega
      have e2 : (v % 128) >>> 7 = 0 := by rw [Nat.shiftRight_eq_div_pow]; omega
      simp only [e1, e2, if_true, List.nil_append]
      rw [Nat.or_comm, Nat.shiftLeft_eq, Nat.mul_comm, ← Nat.two_pow_add_eq_or_of_lt hacc]
      simp only [Option.some.injEq, Prod.mk.injEq, and_true]
      rw [Nat.mul_comm]; omega
    | case2 v hv ih =>
      intro acc shift hacc
      rw [List.cons_append, readNatLoop]
      have e1 : (v % 128 + 128) &&& 0x7f = v % 128 := by
        rw [show (0x7f : Nat) = 2 ^ 7 - 1 from rfl, Nat.and_two_pow_sub_one_eq_mod]; omega
      have e2 : ¬ (v % 128 + 128) >>> 7 = 0 := by rw [Nat.shiftRight_eq_div_pow]; omega
      simp only [e1, if_neg e2]
      have e3 : acc ||| (v % 128) <<< shift = acc + v % 128 * 2 ^ shift := by
        rw [Nat.or_comm, Nat.shiftLeft_eq, Nat.mul_comm, ← Nat.two_pow_add_eq_or_of_lt hacc, Nat.mul_comm]; omega
      have e4 : 2 ^ (shift + 7) = 128 * 2 ^ shift := by rw [Nat.pow_add, Nat.mul_comm]
      have e5 : v % 128 * 2 ^ shift + v / 128 * (128 * 2 ^ shift) = v * 2 ^ shift := by
        rw [← Nat.mul_assoc, ← Nat.add_mul]; congr 1; omega
      have hlt : acc + v % 128 * 2 ^ shift < 2 ^ (shift + 7) := by
        rw [e4]
        have : v % 128 * 2 ^ shift ≤ 127 * 2 ^ shift := Nat.mul_le_mul_right _ (by omega)
        omega
      rw [e3, ih _ _ hlt, e4, Nat.add_assoc, e5]
  refine ⟨?_, ?_⟩
  · have := key 0 0 (by simp)
    rw [readNat, this]; simp
  · clear key
    fun_induction writeNat v with
    | case1 v hv => intro b hb; simp at hb; omega
    | case2 v hv ih =>
      intro b hb
      rcases List.mem_cons.mp hb with rfl | hb
      · omega
      · exact ih b hb

/-- **C52 (variable-length, signed).** -/
theorem C52_int (v : Int) (rest : List Nat) : readInt (writeInt v ++ rest) = some (v, rest) := by
  unfold readInt writeInt
  have e : ∀ n : Nat, n &&& 1 = n % 2 := fun n => Nat.and_two_pow_sub_one_eq_mod n 1
  by_cases h : 0 ≤ v
  · rw [if_pos h, (C52_nat _ rest).1]
    simp only [Option.map_some, e]
    rw [if_neg (by omega)]
    simp only [Option.some.injEq, Prod.mk.injEq, and_true]
    omega
  · rw [if_neg h, (C52_nat _ rest).1]
    simp only [Option.map_some, e]
    rw [if_pos (by omega)]
    simp only [Option.some.injEq, Prod.mk.injEq, and_true]
    omega

/-- **C52 (booleans, counted bytes).** -/
theorem C52_bool (v : Bool) (rest : List Nat) : readBool (writeBool v ++ rest) = some (v, rest) := by cases v <;> rfl

theorem C52_nbytes (v rest : List Nat) : readNBytes (writeNBytes v ++ rest) = some (v, rest) := by
  unfold readNBytes writeNBytes
  rw [List.append_assoc, (C52_nat _ _).1]
  simp [readBytes]

/-- A unit of zeros at a position that is a multiple of the unit size. -/
def ZeroUnit (count : Nat) (v : List Nat) (i : Nat) : Prop := List.replicate count 0 <+: v.drop (i * count)

/-- **C52 (zero-terminated).** Text without a zero character (of `count` bytes) is read back up to its terminator. -/
theorem C52_zero_terminated {count : Nat} (hc : 0 < count) {v b : List Nat} (h : writeZ v none count = some b)
    (hz : ∀ i, ¬ ZeroUnit count v i) (allowEof : Bool) (rest : List Nat) : readZ none count allowEof (b ++ rest) = some (v, rest) := by
  have hd : v.length % count = 0 := by
    unfold writeZ at h
    split at h
    · simp at h
    · rename_i hn
      by_cases h1 : count = 1
      · subst h1; omega
      · false_or_by_contra
        exact hn ⟨by omega, by assumption⟩
  have hb : b = v ++ List.replicate count 0 := by
    unfold writeZ at h
    split at h
    · simp at h
    · simpa using h.symm
  subst hb
  unfold readZ
  have key : ∀ (n : Nat) (v : List Nat), v.length = n * count → (∀ i, ¬ ZeroUnit count v i) → ∀ fuel, n < fuel →
      readZLoop count allowEof fuel (v ++ List.replicate count 0 ++ rest) = some (v, rest) := by
    intro n
    induction n with
    | zero =>
      intro v hv _ fuel hf
      have : v = [] := List.length_eq_zero_iff.mp (by simpa using hv)
      subst this
      obtain ⟨fuel, rfl⟩ : ∃ f, fuel = f + 1 := ⟨fuel - 1, by omega⟩
      have e1 : (List.replicate count 0 ++ rest).take count = List.replicate count 0 := List.take_left' (by simp)
      have e2 : (List.replicate count 0 ++ rest).drop count = rest := List.drop_left' (by simp)
      simp [readZLoop, readBytes, e1, e2]
    | succ n ih =>
      intro v hv hz fuel hf
      obtain ⟨fuel, rfl⟩ : ∃ f, fuel = f + 1 := ⟨fuel - 1, by omega⟩
      have hlen : (v.take count).length = count := by rw [List.length_take, hv, Nat.succ_mul]; omega
      have hle : count ≤ v.length := by rw [hv, Nat.succ_mul]; omega
      have e1 : (v ++ List.replicate count 0 ++ rest).take count = v.take count := by
        rw [List.append_assoc, List.take_append_of_le_length hle]
      have e2 : (v ++ List.replicate count 0 ++ rest).drop count = v.drop count ++ List.replicate count 0 ++ rest := by
        rw [List.append_assoc, List.drop_append_of_le_length hle, List.append_assoc]
      have hne : v.take count ≠ List.replicate count 0 := by
        intro e
        apply hz 0
        unfold ZeroUnit
        rw [Nat.zero_mul, List.drop_zero, ← e]
        exact List.take_prefix _ _
      have hz' : ∀ i, ¬ ZeroUnit count (v.drop count) i := by
        intro i hi
        apply hz (i + 1)
        unfold ZeroUnit at hi ⊢
        rw [List.drop_drop] at hi
        rwa [Nat.succ_mul, Nat.add_comm]
      have := ih (v.drop count) (by rw [List.length_drop, hv, Nat.succ_mul]; omega) hz' fuel (by omega)
      unfold readZLoop readBytes
      rw [e1, e2]
      simp only [hlen, ne_eq, not_true_eq_false, false_and, if_false, Nat.lt_irrefl, if_neg hne, this, Option.map_some,
        List.take_append_drop]
  have hn : v.length = v.length / count * count := by
    have := Nat.div_add_mod v.length count
    rw [hd, Nat.add_zero, Nat.mul_comm] at this
    exact this.symm
  apply key (v.length / count) v hn hz
  have : v.length / count ≤ v.length := Nat.div_le_self _ _
  simp only [List.length_append]
  omega

theorem zCut_spec {count : Nat} (hc : 0 < count) (result : List Nat) : ∀ (fuel offset : Nat), result.length < offset + fuel →
    (∀ i, i * count < offset → ¬ ZeroUnit count result i) →
    ((∀ i, ¬ ZeroUnit count result i) → zCut count result fuel offset = result) ∧
    ∀ i, ZeroUnit count result i → (∀ j, j < i → ¬ ZeroUnit count result j) → zCut count result fuel offset = result.take (i * count) := by
  have hne : List.replicate count 0 ≠ [] := by
    intro e
    have := congrArg List.length e
    simp at this; omega
  intro fuel
  induction fuel with
  | zero =>
    intro offset hf hb
    refine ⟨fun _ => rfl, fun i hi _ => ?_⟩
    exfalso
    have := prefix_drop_len hi hne
    rw [List.length_replicate] at this
    exact hb i (by omega) hi
  | succ fuel ih =>
    intro offset hf hb
    unfold zCut
    cases hff : findFrom (List.replicate count 0) result offset with
    | none =>
      have := findFrom_none hff
      refine ⟨fun _ => rfl, fun i hi _ => ?_⟩
      exfalso
      by_cases ho : i * count < offset
      · exact hb i ho hi
      · exact this (i * count) (by omega) hi
    | some p =>
      obtain ⟨h1, h2, h3⟩ := findFrom_some hff
      simp only
      by_cases hp : p % count = 0
      · rw [if_pos hp]
        have hpe : p = p / count * count := by
          have := Nat.div_add_mod p count
          rw [hp, Nat.add_zero, Nat.mul_comm] at this
          exact this.symm
        have hzu : ZeroUnit count result (p / count) := by unfold ZeroUnit; rw [← hpe]; exact h2
        refine ⟨fun h => absurd hzu (h _), fun i hi hj => ?_⟩
        have : i = p / count := by
          rcases Nat.lt_trichotomy i (p / count) with hlt | he | hgt
          · exfalso
            have hlt2 : i * count < p := by
              rw [hpe]; exact Nat.mul_lt_mul_of_pos_right hlt hc
            by_cases ho : i * count < offset
            · exact hb i ho hi
            · exact h3 _ (by omega) hlt2 hi
          · exact he
          · exact absurd hzu (hj _ hgt)
        rw [this, ← hpe]
      · rw [if_neg hp]
        apply ih (p + 1) (by omega)
        intro i hi hzu
        by_cases ho : i * count < offset
        · exact hb i ho hzu
        · by_cases hip : i * count = p
          · rw [← hip, Nat.mul_mod_left] at hp; exact hp rfl
          · exact h3 (i * count) (by omega) (by omega) hzu

/-- **C52 (fixed-size text).** Text without a zero character, no longer than the field, is read back from a field of fixed size, which is used
up as a whole; longer text is rejected. -/
theorem C52_fixed_text {count : Nat} (hc : 0 < count) {v : List Nat} (size : Nat) (hv : v.length % count = 0) (hz : ∀ i, ¬ ZeroUnit count v i) :
    (v.length ≤ size * count ↔ (writeZ v (some size) count).isSome) ∧
    ∀ b, writeZ v (some size) count = some b → b.length = size * count ∧
      ∀ allowEof rest, readZ (some size) count allowEof (b ++ rest) = some (v, rest) := by
  have hn : v.length = v.length / count * count := by
    have := Nat.div_add_mod v.length count
    rw [hv, Nat.add_zero, Nat.mul_comm] at this
    exact this.symm
  unfold writeZ
  rw [if_neg (by omega)]
  simp only
  by_cases hl : v.length > size * count
  · rw [if_pos hl]
    exact ⟨⟨fun h => by omega, by simp⟩, by simp⟩
  · rw [if_neg hl]
    refine ⟨⟨fun _ => rfl, fun _ => by omega⟩, fun b hb => ?_⟩
    simp only [Option.some.injEq] at hb
    obtain ⟨k, hk⟩ : ∃ k, k = v.length / count := ⟨_, rfl⟩
    rw [← hk] at hb hn
    have hks : k ≤ size := by
      false_or_by_contra
      rename_i h
      exact hl (by rw [hn]; exact Nat.mul_lt_mul_of_pos_right (by omega) hc)
    have hlen : b.length = size * count := by
      rw [← hb, List.length_append, List.length_replicate, hn, ← Nat.add_mul]; congr 1; omega
    refine ⟨hlen, fun allowEof rest => ?_⟩
    unfold readZ readBytes
    simp only
    rw [List.take_left' hlen, List.drop_left' hlen]
    simp only [hlen, ne_eq, not_true_eq_false, false_and, if_false, Nat.mul_mod_left, and_false]
    simp only [Option.some.injEq, Prod.mk.injEq, and_true]
    have hpre : ∀ i, i < k → ¬ ZeroUnit count b i := by
      intro i hi hzu
      apply hz i
      unfold ZeroUnit at hzu ⊢
      have hle : i * count + count ≤ v.length := by
        rw [hn, ← Nat.succ_mul]; exact Nat.mul_le_mul_right _ hi
      rw [← hb, List.drop_append_of_le_length (by omega)] at hzu
      obtain ⟨t, ht⟩ := hzu
      have := congrArg (List.take count) ht
      rw [List.take_left' (by simp), List.take_append_of_le_length (by simp; omega)] at this
      rw [this]; exact List.take_prefix _ _
    have hspec := zCut_spec hc b (size * count + 1) 0 (by omega) (by intro i hi; omega)
    by_cases hfull : k = size
    · have e : b = v := by rw [← hb, hfull]; simp
      rw [hspec.1]
      · exact e
      · rw [e]; exact hz
    · have hzu : ZeroUnit count b k := by
        unfold ZeroUnit
        rw [← hb, List.drop_left' hn]
        obtain ⟨d, hd⟩ : ∃ d, size - k = d + 1 := ⟨size - k - 1, by omega⟩
        rw [hd, Nat.succ_mul, Nat.add_comm, ← List.replicate_append_replicate]
        exact List.prefix_append _ _
      rw [hspec.2 k hzu hpre, ← hb, List.take_left' hn]

/-- **C52 (alignment).** The padding brings the position to the next multiple of the size from the start, and no further; the reader skips
exactly what the writer pads. -/
theorem C52_align {size : Nat} (hs : 0 < size) (pos start value : Nat) :
    alignPos pos size start = pos + (alignPad pos size start value).length ∧ (alignPad pos size start value).length < size ∧
    ((alignPos pos size start : Int) - start) % size = 0 := by
  unfold alignPos alignPad
  have h0 := Int.emod_nonneg ((pos : Int) - start) (by omega : (size : Int) ≠ 0)
  have h1 := Int.emod_lt_of_pos ((pos : Int) - start) (by omega : (0 : Int) < size)
  obtain ⟨q, hq⟩ : ∃ q, q = ((pos : Int) - start) / size := ⟨_, rfl⟩
  have h2 := Int.mul_ediv_add_emod ((pos : Int) - start) size
  rw [← hq] at h2
  obtain ⟨r, hr⟩ : ∃ r, r = ((pos : Int) - start) % size := ⟨_, rfl⟩
  rw [← hr] at h0 h1 h2 ⊢
  simp only
  by_cases hm : r = 0
  · simp [hm]
    rw [← hr]; exact ⟨hs, hm⟩
  · rw [if_pos hm, if_pos hm, List.length_replicate]
    refine ⟨rfl, by omega, ?_⟩
    have : (((pos + ((size : Int) - r).toNat : Nat) : Int) - start) = (size : Int) * (q + 1) := by
      rw [Int.mul_add, Int.mul_one]; omega
    rw [this]
    exact Int.mul_emod_right _ _

/-- Concrete uses. -/
example : packU true 2 0x1234 = some [0x12, 0x34] ∧ packU false 4 0x100000000 = none ∧ packS false 2 (-2) = some [0xfe, 0xff] ∧
    unpackS true 2 [0x80, 0, 7] = some (-0x8000, [7]) ∧ readNat [0xac, 2, 9] = some (300, [9]) := by decide
example : writeNat 300 = [0xac, 2] ∧ writeInt (-3) = [7] := by
  constructor
  · simp [writeNat]
  · simp [writeInt, writeNat]
example : readZ (some 3) 2 false [0, 1, 1, 0, 0, 0, 5] = some ([0, 1, 1, 0], [5]) ∧ readZ none 2 false [0, 1, 1, 0, 0, 0, 5] = some ([0, 1, 1, 0], [5]) ∧
    alignPad 13 8 1 0 = [0, 0, 0, 0] := by decide
/-- In `00 01 01 00` no two-byte character is zero, although after padding two zero bytes meet inside. -/
example : writeZ [0, 1, 1, 0] (some 3) 2 = some [0, 1, 1, 0, 0, 0] ∧ ∀ i, ¬ ZeroUnit 2 [0, 1, 1, 0] i := by
  refine ⟨by decide, fun i => ?_⟩
  match i with
  | 0 => simp [ZeroUnit, List.replicate]
  | 1 => simp [ZeroUnit, List.replicate]
  | i + 2 => simp [ZeroUnit, List.replicate, Nat.add_mul]

end Verif
