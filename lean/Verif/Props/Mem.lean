import Verif.Mem
/-! C12: laws of `Memory`. -/
namespace Verif

theorem get8_set8 {m m' : List Nat} {i v : Nat} (h : set8 m i v = some m') (k : Nat) :
    get8 m' k = if k = i then some v else get8 m k := by
  unfold set8 at h
  split at h
  · rename_i hc
    simp only [Option.some.injEq] at h; subst h
    simp only [get8]
    by_cases hk : k = i
    · subst hk; rw [if_pos rfl, List.getElem?_set_self hc.1]
    · simp [hk, List.getElem?_set_ne (by omega : i ≠ k)]
  · simp at h

theorem set8_length {m m' : List Nat} {i v : Nat} (h : set8 m i v = some m') : m'.length = m.length := by
  unfold set8 at h
  split at h
  · simp only [Option.some.injEq] at h; subst h; simp
  · simp at h

theorem set8_isMem {m m' : List Nat} {i v : Nat} (hm : IsMem m) (h : set8 m i v = some m') : IsMem m' := by
  unfold set8 at h
  split at h
  · simp only [Option.some.injEq] at h; subst h
    intro b hb
    rcases List.mem_or_eq_of_mem_set hb with h1 | h1
    · exact hm b h1
    · omega
  · simp at h

theorem lowBits_lt (n : Nat) (v : Int) : lowBits n v < 2 ^ n := by
  unfold lowBits
  have h1 : (0 : Int) < 2 ^ n := by exact_mod_cast Nat.two_pow_pos n
  have h2 := Int.emod_nonneg v (by omega : (2 ^ n : Int) ≠ 0)
  have h3 := Int.emod_lt_of_pos v h1
  have h4 : ((v % 2 ^ n).toNat : Int) < ((2 ^ n : Nat) : Int) := by
    rw [Int.toNat_of_nonneg h2]; push_cast; exact h3
  exact_mod_cast h4

/-- **C12 (8 bit).** A byte write succeeds exactly for addresses in range and byte values; it is read back; every other
byte and the size are unchanged. -/
theorem C12_set8 (m : List Nat) (i v : Nat) :
    ((set8 m i v).isSome ↔ i < m.length ∧ v < 256) ∧
    ∀ m', set8 m i v = some m' → m'.length = m.length ∧ (IsMem m → IsMem m') ∧
      ∀ k, get8 m' k = if k = i then some v else get8 m k := by
  refine ⟨?_, fun m' h => ⟨set8_length h, fun hm => set8_isMem hm h, get8_set8 h⟩⟩
  unfold set8; split <;> simp_all

theorem or_shift_lt {a b : Nat} (n : Nat) (ha : a < 2 ^ n) : a ||| (b <<< n) = a + b * 2 ^ n := by
  rw [Nat.shiftLeft_eq, Nat.mul_comm, Nat.or_comm, ← Nat.two_pow_add_eq_or_of_lt ha, Nat.add_comm]

/-- **C12 (16 bit).** A 16-bit write of any integer is read back modulo 65536, little-endian; only its two bytes change. -/
theorem C12_set16 (m : List Nat) (i : Nat) (v : Int) :
    ((set16 m i v).isSome ↔ i + 1 < m.length) ∧
    ∀ m', set16 m i v = some m' → m'.length = m.length ∧ (IsMem m → IsMem m') ∧
      get16 m' i = some (v % 65536).toNat ∧ ∀ k, k ≠ i → k ≠ i + 1 → get8 m' k = get8 m k := by
  have b1 := lowBits_lt 8 v
  have b2 := lowBits_lt 8 (v / 256)
  constructor
  · unfold set16
    cases h : set8 m i (lowBits 8 v) with
    | none =>
      have := (C12_set8 m i (lowBits 8 v)).1
      simp [h] at this
      simp; omega
    | some m1 =>
      have := (C12_set8 m1 (i + 1) (lowBits 8 (v / 256))).1
      simp only
      rw [this, set8_length h]; omega
  · intro m' h
    unfold set16 at h
    cases h1 : set8 m i (lowBits 8 v) with
    | none => simp [h1] at h
    | some m1 =>
      simp only [h1] at h
      have g1 := get8_set8 h1
      have g2 := get8_set8 h
      refine ⟨by rw [set8_length h, set8_length h1], fun hm => set8_isMem (set8_isMem hm h1) h, ?_, ?_⟩
      · unfold get16
        rw [g2 i, g2 (i + 1), g1 i]
        simp only [if_neg (by omega : ¬ i = i + 1), if_pos]
        rw [or_shift_lt 8 (by omega)]
        simp only [lowBits, Option.some.injEq]
        omega
      · intro k hk1 hk2
        rw [g2 k, g1 k, if_neg hk2, if_neg hk1]

/-- **C12 (32 bit).** Likewise for 32 bits, modulo 2^32. -/
theorem C12_set32 (m : List Nat) (i : Nat) (v : Int) :
    ((set32 m i v).isSome ↔ i + 3 < m.length) ∧
    ∀ m', set32 m i v = some m' → m'.length = m.length ∧ (IsMem m → IsMem m') ∧
      get32 m' i = some (v % 4294967296).toNat ∧ ∀ k, (k < i ∨ i + 3 < k) → get8 m' k = get8 m k := by
  constructor
  · unfold set32
    cases h : set16 m i (lowBits 16 v) with
    | none =>
      have := (C12_set16 m i (lowBits 16 v)).1
      simp [h] at this
      simp; omega
    | some m1 =>
      have := (C12_set16 m1 (i + 2) (lowBits 16 (v / 65536))).1
      simp only
      rw [this, ((C12_set16 m i _).2 m1 h).1]
  · intro m' h
    unfold set32 at h
    cases h1 : set16 m i (lowBits 16 v) with
    | none => simp [h1] at h
    | some m1 =>
      simp only [h1] at h
      obtain ⟨a1, a2, a3, a4⟩ := (C12_set16 m i _).2 m1 h1
      obtain ⟨b1, b2, b3, b4⟩ := (C12_set16 m1 (i + 2) _).2 m' h
      refine ⟨by rw [b1, a1], fun hm => b2 (a2 hm), ?_, ?_⟩
      · have e : get16 m' i = get16 m1 i := by
          unfold get16; rw [b4 i (by omega) (by omega), b4 (i + 1) (by omega) (by omega)]
        unfold get32
        rw [e, a3, b3]
        simp only
        have l1 : (((lowBits 16 v : Nat) : Int) % 65536).toNat < 2 ^ 16 := by omega
        rw [or_shift_lt 16 l1]
        simp only [lowBits, Option.some.injEq]
        omega
      · intro k hk
        rw [b4 k (by omega) (by omega), a4 k (by omega) (by omega)]

theorem setBits_testBit (b shift mask v k : Nat) :
    ((b ^^^ (b &&& (mask <<< shift))) ||| ((v &&& mask) <<< shift)).testBit k =
      if (mask <<< shift).testBit k then (v <<< shift).testBit k else b.testBit k := by
  simp only [Nat.testBit_or, Nat.testBit_xor, Nat.testBit_and, Nat.testBit_shiftLeft]
  cases b.testBit k <;> by_cases h : shift ≤ k <;> simp [h]
  · cases mask.testBit (k - shift) <;> cases v.testBit (k - shift) <;> rfl
  · cases mask.testBit (k - shift) <;> cases v.testBit (k - shift) <;> rfl

/-- **C12 (bit fields).** Writing a bit field of a byte: it is read back masked, every other bit of the byte keeps its value,
and every other byte and the size are unchanged.  It succeeds whenever the field lies inside the byte. -/
theorem C12_set8_bits (m : List Nat) (i shift mask v : Nat) (hf : mask <<< shift < 256) (hm : IsMem m) :
    ((set8Bits m i shift mask v).isSome ↔ i < m.length) ∧
    ∀ m', set8Bits m i shift mask v = some m' → m'.length = m.length ∧ IsMem m' ∧
      get8Bits m' i shift mask = some (v &&& mask) ∧
      (∀ b b', get8 m i = some b → get8 m' i = some b' →
        ∀ k, (mask <<< shift).testBit k = false → b'.testBit k = b.testBit k) ∧
      ∀ k, k ≠ i → get8 m' k = get8 m k := by
  have hlt : ∀ b, b < 256 → ((b ^^^ (b &&& (mask <<< shift))) ||| ((v &&& mask) <<< shift)) < 256 := by
    intro b hb
    have h8 : ∀ x, x < 256 → ∀ k, 8 ≤ k → x.testBit k = false := fun x hx k hk =>
      Nat.testBit_lt_two_pow (Nat.lt_of_lt_of_le hx (by
        have := Nat.pow_le_pow_right (by omega : 0 < 2) hk; simpa using this))
    apply Nat.lt_pow_two_of_testBit (n := 8)
    intro k hk
    rw [setBits_testBit, h8 _ hf k hk, h8 b hb k hk]
    rfl
  constructor
  · unfold set8Bits
    cases h : get8 m i with
    | none => simp [get8] at h; simp; omega
    | some b =>
      have hi : i < m.length := by
        simp only [get8] at h
        exact (List.getElem?_eq_some_iff.mp h).1
      have hb : b < 256 := hm b (List.mem_of_getElem? h)
      simp only
      rw [(C12_set8 _ _ _).1]
      simp [hi, hlt b hb]
  · intro m' h
    unfold set8Bits at h
    cases h1 : get8 m i with
    | none => simp [h1] at h
    | some b =>
      simp only [h1] at h
      have g := get8_set8 h
      refine ⟨set8_length h, set8_isMem hm h, ?_, ?_, fun k hk => by rw [g k, if_neg hk]⟩
      · unfold get8Bits
        rw [g i, if_pos rfl]
        simp only [Option.map_some, Option.some.injEq]
        apply Nat.eq_of_testBit_eq
        intro k
        rw [Nat.testBit_and, Nat.testBit_shiftRight, setBits_testBit]
        simp only [Nat.testBit_shiftLeft, Nat.testBit_and]
        have : shift + k - shift = k := by omega
        simp only [this]
        cases mask.testBit k <;> simp
      · intro b0 b' hb0 hb' k hk
        rw [g i, if_pos rfl] at hb'
        simp at hb0 hb'
        subst hb0; subst hb'
        rw [setBits_testBit, hk]; simp

/-- **C12 (4 bit).** A nybble write is read back modulo 16 and changes nothing else: not the other nybble of the same byte,
nor any nybble of another byte. -/
theorem C12_set4 (m : List Nat) (hm : IsMem m) (i : Nat) (high : Bool) (v : Nat) :
    ((set4 m (i, high) v).isSome ↔ i < m.length) ∧
    ∀ m', set4 m (i, high) v = some m' → m'.length = m.length ∧ IsMem m' ∧ get4 m' (i, high) = some (v % 16) ∧
      ∀ ix, ix ≠ (i, high) → get4 m' ix = get4 m ix := by
  have hf : ∀ h : Bool, (0xf : Nat) <<< (if h then 4 else 0) < 256 := by decide
  have H := C12_set8_bits m i (if high then 4 else 0) 0xf v (hf high) hm
  refine ⟨H.1, fun m' h => ?_⟩
  obtain ⟨h1, h2, h3, h4, h5⟩ := H.2 m' h
  have hv : v &&& 15 = v % 16 := Nat.and_two_pow_sub_one_eq_mod v 4
  refine ⟨h1, h2, by rw [← hv]; exact h3, ?_⟩
  rintro ⟨k, kh⟩ hne
  by_cases hk : k = i
  · subst hk
    have hkh : kh ≠ high := by intro e; subst e; exact hne rfl
    unfold get4 get8Bits
    cases hg : get8 m k with
    | none =>
      simp [get8] at hg
      have : get8 m' k = none := by simp [get8]; omega
      rw [this]
    | some b =>
      cases hg' : get8 m' k with
      | none =>
        simp [get8] at hg' hg
        have := (List.getElem?_eq_some_iff.mp hg).1
        omega
      | some b' =>
        simp only [Option.map_some, Option.some.injEq]
        apply Nat.eq_of_testBit_eq
        intro n
        rw [Nat.testBit_and, Nat.testBit_and, Nat.testBit_shiftRight, Nat.testBit_shiftRight]
        by_cases hn : n < 4
        · rw [h4 b b' hg hg' _ ?_]
          have : ∀ (kh high : Bool), kh ≠ high → ∀ n, n < 4 →
              Nat.testBit (0xf <<< (if high then 4 else 0)) ((if kh then 4 else 0) + n) = false := by decide
          exact this kh high hkh n hn
        · have : Nat.testBit 0xf n = false := Nat.testBit_lt_two_pow (Nat.lt_of_lt_of_le (by omega : 0xf < 2 ^ 4)
            (Nat.pow_le_pow_right (by omega) (by omega)))
          rw [this]; simp
  · unfold get4 get8Bits
    rw [h5 k hk]

/-- **C12 (blocks).** Storing a block that fits changes exactly its range and not the size. -/
theorem C12_set_block (m src : List Nat) (start : Nat) (h : start + src.length ≤ m.length) :
    (setBlock m start src).length = m.length ∧ getBlock (setBlock m start src) start src.length = src ∧
    ∀ k, get8 (setBlock m start src) k =
      if start ≤ k ∧ k < start + src.length then src[k - start]? else get8 m k := by
  have hl : (m.take start).length = start := by simp; omega
  refine ⟨by simp [setBlock]; omega, ?_, ?_⟩
  · unfold getBlock setBlock
    rw [List.append_assoc, List.drop_left' hl]; simp
  · intro k
    unfold get8 setBlock
    by_cases h1 : k < start
    · rw [if_neg (by omega), List.append_assoc, List.getElem?_append_left (by omega), List.getElem?_take_of_lt h1]
    · by_cases h2 : k < start + src.length
      · rw [if_pos ⟨by omega, h2⟩, List.append_assoc, List.getElem?_append_right (by omega), hl,
          List.getElem?_append_left (by omega)]
      · rw [if_neg (by omega), List.getElem?_append_right (by simp; omega), List.getElem?_drop]
        congr 1
        simp; omega

/-- **C12 (copy).** A block copy between ranges that exist changes exactly the destination range, to the bytes the source
had before the copy – also when source and destination overlap in the same memory (`srcMem = []`). -/
theorem C12_copy8 (m srcMem : List Nat) (dest src size : Nat) (hd : dest + size ≤ m.length)
    (hs : src + size ≤ (if srcMem.isEmpty then m else srcMem).length) :
    (copy8 m dest src size srcMem).length = m.length ∧
    ∀ k, get8 (copy8 m dest src size srcMem) k =
      if dest ≤ k ∧ k < dest + size then get8 (if srcMem.isEmpty then m else srcMem) (src + (k - dest)) else get8 m k := by
  unfold copy8
  generalize (if srcMem.isEmpty then m else srcMem) = s at hs ⊢
  have hl : (getBlock s src size).length = size := by simp [getBlock]; omega
  have := C12_set_block m (getBlock s src size) dest (by omega)
  refine ⟨this.1, fun k => ?_⟩
  rw [this.2.2 k, hl]
  by_cases h : dest ≤ k ∧ k < dest + size
  · rw [if_pos h, if_pos h]
    unfold getBlock get8
    rw [List.getElem?_take_of_lt (by omega), List.getElem?_drop]
  · rw [if_neg h, if_neg h]

/-- **C12 (fill, clear).** -/
theorem C12_fill8 (m : List Nat) (dest value size : Nat) (hd : dest + size ≤ m.length) :
    ((fill8 m dest value size).isSome ↔ value < 256) ∧
    ∀ m', fill8 m dest value size = some m' → m'.length = m.length ∧
      ∀ k, get8 m' k = if dest ≤ k ∧ k < dest + size then some value else get8 m k := by
  unfold fill8
  split
  · rename_i hv
    refine ⟨by simp [hv], fun m' h => ?_⟩
    simp only [Option.some.injEq] at h; subst h
    have := C12_set_block m (List.replicate size value) dest (by simpa using hd)
    refine ⟨this.1, fun k => ?_⟩
    rw [this.2.2 k]
    simp only [List.length_replicate]
    split
    · rw [List.getElem?_replicate_of_lt (by omega)]
    · rfl
  · rename_i hv; simp [hv]

theorem C12_clear (m : List Nat) : memClear m = some (List.replicate m.length 0) := by
  simp [memClear, fill8, setBlock]

/-- **C12 (compare).** Comparing two ranges is true exactly when they agree byte for byte (and in where the memory ends). -/
theorem C12_cmpeq8 (m other : List Nat) (src1 src2 size : Nat) :
    cmpeq8 m src1 src2 size other = true ↔
      ∀ k, k < size → get8 m (src1 + k) = get8 (if other.isEmpty then m else other) (src2 + k) := by
  unfold cmpeq8
  generalize (if other.isEmpty then m else other) = s
  rw [beq_iff_eq]
  constructor
  · intro h k hk
    have := congrArg (·[k]?) h
    simp only [getBlock, List.getElem?_take_of_lt hk, List.getElem?_drop] at this
    exact this
  · intro h
    apply List.ext_getElem?
    intro k
    by_cases hk : k < size
    · simp only [getBlock, List.getElem?_take_of_lt hk, List.getElem?_drop]
      exact h k hk
    · rw [List.getElem?_eq_none (by simp [getBlock]; omega), List.getElem?_eq_none (by simp [getBlock]; omega)]

/-- A store past the end extends the memory: the guard of `C12_set_block` is needed. -/
theorem C12_set_block_extends : ∃ m start src, (setBlock m start src).length ≠ m.length := ⟨[1], 1, [2], by decide⟩

/-- Concrete uses. -/
example : IsMem [1, 2, 0xab, 4] ∧ set4 [1, 2, 0xab, 4] (2, true) 0x35 = some [1, 2, 0x5b, 4] ∧
    set16 [1, 2, 3, 4] 1 (-2) = some [1, 0xfe, 0xff, 4] ∧
    set32 [9, 1, 2, 3, 4, 9] 1 0x123456789 = some [9, 0x89, 0x67, 0x45, 0x23, 9] ∧
    copy8 [1, 2, 3, 4, 5] 1 0 3 [] = [1, 1, 2, 3, 5] := by
  refine ⟨by simp [IsMem], ?_, ?_, ?_, ?_⟩ <;> decide

/-- **C12 (addresses).** Distinct pixels of the sprite sheet (128×128), distinct map cells, flags, music channels and sfx
bytes have distinct addresses. -/
theorem C12_sprite_addr_inj {x y x' y' : Nat} (hx : x < 128) (hx' : x' < 128)
    (h : memSpriteAddr x y = memSpriteAddr x' y') : x = x' ∧ y = y' := by
  simp only [memSpriteAddr, Prod.mk.injEq, Nat.shiftRight_eq_div_pow, Nat.pow_one] at h
  have e : ∀ n : Nat, n &&& 1 = n % 2 := fun n => Nat.and_two_pow_sub_one_eq_mod n 1
  rw [e, e] at h
  have h2 : x % 2 = x' % 2 := by
    have := h.2
    rcases Nat.mod_two_eq_zero_or_one x with a | a <;> rcases Nat.mod_two_eq_zero_or_one x' with b | b <;>
      simp [a, b] at this ⊢
  omega

theorem C12_map_addr_inj {x y x' y' : Nat} (hx : x < 128) (hx' : x' < 128) (hy : y < 64) (hy' : y' < 64)
    (h : memMapAddr x y = memMapAddr x' y') : x = x' ∧ y = y' := by
  unfold memMapAddr at h
  split at h <;> split at h <;> omega

end Verif
