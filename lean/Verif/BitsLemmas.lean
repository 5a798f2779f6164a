import Verif.Bits
/-! Abstraction of bit streams to lists of booleans. -/
namespace Verif

/-- The `n` low bits of `v`, least significant first. -/
def fieldBits : Nat → Nat → List Bool
  | 0, _ => []
  | n + 1, v => (v % 2 == 1) :: fieldBits n (v / 2)

/-- A byte string as a list of bits. -/
def bytesBits : List Nat → List Bool
  | [] => []
  | b :: bs => fieldBits 8 b ++ bytesBits bs

@[simp] theorem fieldBits_length (n v : Nat) : (fieldBits n v).length = n := by
  induction n generalizing v with
  | zero => rfl
  | succ n ih => simp [fieldBits, ih]

@[simp] theorem bytesBits_length (bs : List Nat) : (bytesBits bs).length = 8 * bs.length := by
  induction bs with
  | nil => rfl
  | cons b bs ih => simp [bytesBits, ih]; omega

theorem bytesBits_append (a b : List Nat) : bytesBits (a ++ b) = bytesBits a ++ bytesBits b := by
  induction a with
  | nil => rfl
  | cons x a ih => simp [bytesBits, ih]

theorem fieldBits_add (a b v : Nat) : fieldBits (a + b) v = fieldBits a v ++ fieldBits b (v / 2 ^ a) := by
  induction a generalizing v with
  | zero => simp [fieldBits]
  | succ a ih =>
    rw [show a + 1 + b = (a + b) + 1 by omega]
    simp only [fieldBits, ih, List.cons_append]
    rw [Nat.div_div_eq_div_mul, Nat.pow_succ, Nat.mul_comm]

theorem fieldBits_mod (n v : Nat) : fieldBits n (v % 2 ^ n) = fieldBits n v := by
  induction n generalizing v with
  | zero => rfl
  | succ n ih =>
    simp only [fieldBits]
    congr 1
    · rw [Nat.pow_succ, Nat.mod_mul_left_mod]
    · rw [← ih (v / 2), Nat.pow_succ, Nat.mul_comm, Nat.mod_mul_right_div_self]

theorem fieldBits_inj {n a b : Nat} (ha : a < 2 ^ n) (hb : b < 2 ^ n)
    (h : fieldBits n a = fieldBits n b) : a = b := by
  induction n generalizing a b with
  | zero => simp at ha hb; omega
  | succ n ih =>
    simp only [fieldBits, List.cons.injEq] at h
    have h2 := ih (by rw [Nat.pow_succ] at ha; omega) (by rw [Nat.pow_succ] at hb; omega) h.2
    have h1 : a % 2 = b % 2 := by
      have := h.1
      have h3 := Nat.mod_two_eq_zero_or_one a
      have h4 := Nat.mod_two_eq_zero_or_one b
      rcases h3 with h3 | h3 <;> rcases h4 with h4 | h4 <;> simp_all
    omega

/-- Or-ing in a value above the pending bits is addition. -/
theorem or_shift_eq_add {b k : Nat} (v : Nat) (h : b < 2 ^ k) : b ||| (v <<< k) = b + v * 2 ^ k := by
  rw [Nat.or_comm, Nat.shiftLeft_eq, Nat.mul_comm, ← Nat.two_pow_add_eq_or_of_lt h, Nat.add_comm]

theorem fieldBits_combine {b k : Nat} (n v : Nat) (h : b < 2 ^ k) :
    fieldBits (k + n) (b + v * 2 ^ k) = fieldBits k b ++ fieldBits n v := by
  rw [fieldBits_add]
  congr 1
  · rw [← fieldBits_mod k (b + v * 2 ^ k), Nat.add_mul_mod_self_right, fieldBits_mod]
  · rw [Nat.add_mul_div_right _ _ (Nat.two_pow_pos k), Nat.div_eq_of_lt h]; simp

theorem combine_lt {b k n v : Nat} (h : b < 2 ^ k) (hv : v < 2 ^ n) : b + v * 2 ^ k < 2 ^ (k + n) := by
  rw [Nat.pow_add]
  calc b + v * 2 ^ k < 2 ^ k + v * 2 ^ k := by omega
    _ = (v + 1) * 2 ^ k := by rw [Nat.add_mul]; omega
    _ ≤ 2 ^ n * 2 ^ k := Nat.mul_le_mul_right _ hv
    _ = 2 ^ k * 2 ^ n := Nat.mul_comm _ _

/-! ### Writer -/

/-- Bits written so far. -/
def BitWriter.abs (w : BitWriter) : List Bool := bytesBits w.out ++ fieldBits w.nbits w.bits

structure BitWriter.WF (w : BitWriter) : Prop where
  lt : w.bits < 2 ^ w.nbits
  small : w.nbits < 8
  bytes : ∀ b ∈ w.out, b < 256

theorem BitWriter.drain_spec (w : BitWriter) (h : w.bits < 2 ^ w.nbits) (hb : ∀ b ∈ w.out, b < 256) :
    w.drain.abs = w.abs ∧ w.drain.WF := by
  fun_induction BitWriter.drain w with
  | case1 w hn ih =>
    have e255 : w.bits &&& 0xff = w.bits % 256 := Nat.and_two_pow_sub_one_eq_mod w.bits 8
    have e8 : w.bits >>> 8 = w.bits / 2 ^ 8 := Nat.shiftRight_eq_div_pow _ _
    have hlt : w.bits >>> 8 < 2 ^ (w.nbits - 8) := by
      rw [e8]
      apply Nat.div_lt_of_lt_mul
      rw [← Nat.pow_add]
      rwa [show 8 + (w.nbits - 8) = w.nbits by omega]
    have := ih hlt (by
      intro b hb'
      simp at hb'
      rcases hb' with h1 | h1
      · exact hb b h1
      · rw [h1, e255]; omega)
    refine ⟨?_, this.2⟩
    rw [this.1]
    unfold BitWriter.abs
    simp only [bytesBits_append, bytesBits, List.append_nil, List.append_assoc]
    congr 1
    rw [e255, e8]
    conv => rhs; rw [show w.nbits = 8 + (w.nbits - 8) by omega, fieldBits_add]
    congr 1
    exact fieldBits_mod 8 w.bits
  | case2 w hn => exact ⟨rfl, h, by omega, hb⟩

theorem BitWriter.writeBits_spec {w : BitWriter} (hw : w.WF) {n v : Nat} (hv : v < 2 ^ n) :
    (w.writeBits n v).abs = w.abs ++ fieldBits n v ∧ (w.writeBits n v).WF := by
  unfold BitWriter.writeBits
  have e := or_shift_eq_add v hw.lt
  have := BitWriter.drain_spec ⟨w.out, w.bits ||| (v <<< w.nbits), w.nbits + n⟩
    (by simp only [e]; exact combine_lt hw.lt hv) hw.bytes
  refine ⟨?_, this.2⟩
  rw [this.1]
  unfold BitWriter.abs
  simp only [e, fieldBits_combine n v hw.lt, List.append_assoc]

theorem BitWriter.writeBit_spec {w : BitWriter} (hw : w.WF) (b : Bool) :
    (w.writeBit b).abs = w.abs ++ [b] ∧ (w.writeBit b).WF := by
  have := BitWriter.writeBits_spec hw (n := 1) (v := b.toNat) (by cases b <;> simp)
  unfold BitWriter.writeBit
  refine ⟨?_, this.2⟩
  rw [this.1]
  cases b <;> rfl

theorem BitWriter.init_wf : BitWriter.init.WF := ⟨by simp [BitWriter.init], by simp [BitWriter.init], by simp [BitWriter.init]⟩

/-- After flushing, the file holds the written bits padded with fewer than 8 zero bits. -/
theorem BitWriter.flush_spec {w : BitWriter} (hw : w.WF) :
    ∃ pad, pad < 8 ∧ bytesBits w.flush = w.abs ++ List.replicate pad false ∧ ∀ b ∈ w.flush, b < 256 := by
  unfold BitWriter.flush
  by_cases h : w.nbits = 0
  · refine ⟨0, by omega, ?_, ?_⟩
    · simp [h, BitWriter.abs, fieldBits]
    · simp [h]; exact hw.bytes
  · have hlt : w.bits < 2 ^ w.nbits := hw.lt
    have hs := hw.small
    have h256 : w.bits < 256 := Nat.lt_of_lt_of_le hlt (by
      have : 2 ^ w.nbits ≤ 2 ^ 8 := Nat.pow_le_pow_right (by omega) (by omega)
      simpa using this)
    refine ⟨8 - w.nbits, by omega, ?_, ?_⟩
    · simp only [h, ne_eq, not_false_eq_true, if_true, bytesBits_append, bytesBits, List.append_nil,
        BitWriter.abs, List.append_assoc]
      congr 1
      have e255 : w.bits &&& 0xff = w.bits := by
        rw [show (0xff : Nat) = 2 ^ 8 - 1 by rfl, Nat.and_two_pow_sub_one_eq_mod]; exact Nat.mod_eq_of_lt h256
      rw [e255]
      have := fieldBits_combine (8 - w.nbits) 0 hlt
      rw [show w.nbits + (8 - w.nbits) = 8 by omega] at this
      simp only [Nat.zero_mul, Nat.add_zero] at this
      rw [this]
      congr 1
      generalize 8 - w.nbits = k
      induction k with
      | zero => rfl
      | succ k ih => simp [fieldBits, List.replicate_succ, ih]
    · simp only [h, ne_eq, not_false_eq_true, if_true, List.mem_append, List.mem_singleton]
      rintro b (hb | hb)
      · exact hw.bytes b hb
      · rw [hb]
        have : w.bits &&& 0xff ≤ 0xff := Nat.and_le_right
        omega

/-! ### Reader -/

/-- Bits still to be read. -/
def BitReader.abs (r : BitReader) : List Bool := fieldBits r.nbits r.bits ++ bytesBits r.src

structure BitReader.WF (r : BitReader) : Prop where
  lt : r.bits < 2 ^ r.nbits
  small : r.nbits < 8
  bytes : ∀ b ∈ r.src, b < 256

theorem BitReader.fill_spec (r : BitReader) (n : Nat) (hlt : r.bits < 2 ^ r.nbits)
    (hb : ∀ b ∈ r.src, b < 256) (hlen : n ≤ r.abs.length) (hs : r.nbits < n + 8) :
    ∃ r', r.fill n = some r' ∧ r'.abs = r.abs ∧ r'.bits < 2 ^ r'.nbits ∧ n ≤ r'.nbits ∧
      r'.nbits < n + 8 ∧ ∀ b ∈ r'.src, b < 256 := by
  fun_induction BitReader.fill r n with
  | case1 r h hnil =>
    simp [BitReader.abs, hnil] at hlen; omega
  | case2 r h b rest hsrc ih =>
    have e := or_shift_eq_add b hlt
    have hb' : b < 256 := hb b (by simp [hsrc])
    have habs : (BitReader.mk rest (r.bits ||| (b <<< r.nbits)) (r.nbits + 8)).abs = r.abs := by
      unfold BitReader.abs
      simp only [e, hsrc, bytesBits]
      rw [fieldBits_combine 8 b hlt, List.append_assoc]
    obtain ⟨r', h1, h2, h3, h4, h5, h6⟩ := ih (by simp only [e]; exact combine_lt hlt (by simpa using hb'))
      (by intro x hx; exact hb x (by simp [hsrc]; right; exact hx)) (by rw [habs]; exact hlen) (by simp; omega)
    exact ⟨r', h1, by rw [h2, habs], h3, h4, h5, h6⟩
  | case3 r h => exact ⟨r, rfl, rfl, hlt, by omega, hs, hb⟩

/-- Reading consumes exactly the next bits. -/
theorem BitReader.readBits_spec {r : BitReader} (hr : r.WF) {n v : Nat} {rest : List Bool} (hv : v < 2 ^ n)
    (habs : r.abs = fieldBits n v ++ rest) :
    ∃ r', r.readBits n = some (v, r') ∧ r'.abs = rest ∧ r'.WF := by
  obtain ⟨r1, h1, h2, h3, h4, h5, h6⟩ := r.fill_spec n hr.lt hr.bytes (by rw [habs]; simp)
    (by have := hr.small; omega)
  unfold BitReader.readBits
  rw [h1]
  simp only [Option.some.injEq, Prod.mk.injEq]
  have hm : r1.bits &&& ((1 <<< n) - 1) = r1.bits % 2 ^ n := by
    rw [Nat.shiftLeft_eq, Nat.one_mul, Nat.and_two_pow_sub_one_eq_mod]
  have h7 : fieldBits r1.nbits r1.bits = fieldBits n r1.bits ++ fieldBits (r1.nbits - n) (r1.bits / 2 ^ n) := by
    rw [← fieldBits_add]; congr 1; omega
  have h8 : fieldBits n r1.bits ++ (fieldBits (r1.nbits - n) (r1.bits / 2 ^ n) ++ bytesBits r1.src) =
      fieldBits n v ++ rest := by
    rw [← habs, ← h2]
    unfold BitReader.abs
    rw [h7, List.append_assoc]
  have h9 := List.append_inj h8 (by simp)
  refine ⟨_, ⟨?_, rfl⟩, ?_, ?_⟩
  · rw [hm]
    apply fieldBits_inj (Nat.mod_lt _ (Nat.two_pow_pos n)) hv
    rw [fieldBits_mod]; exact h9.1
  · unfold BitReader.abs
    simp only [Nat.shiftRight_eq_div_pow]
    exact h9.2
  · constructor
    · simp only [Nat.shiftRight_eq_div_pow]
      apply Nat.div_lt_of_lt_mul
      rw [← Nat.pow_add, show n + (r1.nbits - n) = r1.nbits by omega]
      exact h3
    · simp; omega
    · exact h6

theorem BitReader.readBit_spec {r : BitReader} (hr : r.WF) {b : Bool} {rest : List Bool}
    (habs : r.abs = b :: rest) : ∃ r', r.readBit = some (b, r') ∧ r'.abs = rest ∧ r'.WF := by
  obtain ⟨r', h1, h2, h3⟩ := BitReader.readBits_spec hr (n := 1) (v := b.toNat) (rest := rest)
    (by cases b <;> simp) (by rw [habs]; cases b <;> rfl)
  refine ⟨r', ?_, h2, h3⟩
  unfold BitReader.readBit
  rw [h1]
  cases b <;> rfl

theorem BitReader.init_wf {src : List Nat} (h : ∀ b ∈ src, b < 256) : (BitReader.init src).WF :=
  ⟨by simp [BitReader.init], by simp [BitReader.init], h⟩

@[simp] theorem BitReader.init_abs (src : List Nat) : (BitReader.init src).abs = bytesBits src := by
  simp [BitReader.init, BitReader.abs, fieldBits]

end Verif
