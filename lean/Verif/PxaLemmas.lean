import Verif.Pxa
import Verif.BitsLemmas
import Verif.Spec.Cover
/-! Helper lemmas for the PXA codec. -/
namespace Verif

/-! ### move-to-front -/

theorem updateMtfLoop_length (idx : Nat) (m : List Nat) : (updateMtfLoop idx m).length = m.length := by
  induction idx generalizing m with
  | zero => rfl
  | succ n ih => simp [updateMtfLoop, ih]

theorem updateMtfLoop_get (idx : Nat) (m : List Nat) (hidx : idx < m.length) (k : Nat) :
    (updateMtfLoop idx m)[k]? = if 1 ≤ k ∧ k ≤ idx then m[k - 1]? else m[k]? := by
  induction idx generalizing m with
  | zero => simp [updateMtfLoop]; intro h1 h2; omega
  | succ n ih =>
    simp only [updateMtfLoop]
    rw [ih _ (by simp; omega)]
    by_cases h : 1 ≤ k ∧ k ≤ n
    · rw [if_pos h, if_pos (by omega)]
      rw [List.getElem?_set_ne (by omega)]
    · rw [if_neg h]
      by_cases h2 : k = n + 1
      · subst h2
        rw [if_pos (by omega), List.getElem?_set_self (by omega)]
        simp [List.getD_eq_getElem?_getD, List.getElem?_eq_getElem (show n < m.length by omega)]
      · rw [if_neg (by omega), List.getElem?_set_ne (by omega)]

/-- `update_mtf` moves the element at `idx` to the front (stated with core list operations). -/
theorem updateMtf_eq (m : List Nat) (idx ch : Nat) (hidx : idx < m.length) :
    updateMtf m idx ch = ch :: m.eraseIdx idx := by
  apply List.ext_getElem?
  intro k
  unfold updateMtf
  cases k with
  | zero =>
    rw [List.getElem?_set_self (by rw [updateMtfLoop_length]; omega)]; simp
  | succ k =>
    rw [List.getElem?_set_ne (by omega), updateMtfLoop_get _ _ hidx, List.getElem?_cons_succ,
      List.getElem?_eraseIdx]
    by_cases h : k + 1 ≤ idx
    · rw [if_pos (by omega), if_pos (by omega)]; simp
    · rw [if_neg (by omega), if_neg (by omega)]

theorem updateMtf_perm (m : List Nat) (idx ch : Nat) (h : m[idx]? = some ch) :
    (updateMtf m idx ch).Perm m := by
  have hidx : idx < m.length := by
    rcases Nat.lt_or_ge idx m.length with h1 | h1
    · exact h1
    · rw [List.getElem?_eq_none h1] at h; simp at h
  rw [updateMtf_eq m idx ch hidx]
  have : m[idx] = ch := by
    rw [List.getElem?_eq_getElem hidx] at h; simpa using h
  rw [← this]
  rw [List.eraseIdx_eq_take_drop_succ]
  have h3 : m = m.take idx ++ m[idx] :: m.drop (idx + 1) := by
    rw [List.getElem_cons_drop, List.take_append_drop]
  conv => rhs; rw [h3]
  exact List.perm_middle.symm

theorem initMtf_mem {c : Nat} (h : c < 256) : c ∈ initMtf := by simp [initMtf, h]

theorem idxOf?_some {m : List Nat} {c : Nat} (h : c ∈ m) :
    ∃ i, m.idxOf? c = some i ∧ i < m.length ∧ m[i]? = some c := by
  have h1 := List.isSome_idxOf?.mpr h
  obtain ⟨i, hi⟩ := Option.isSome_iff_exists.mp h1
  obtain ⟨hlt, he, _⟩ := List.idxOf?_eq_some_iff.mp hi
  exact ⟨i, hi, hlt, by rw [List.getElem?_eq_getElem hlt, he]⟩

/-! ### number fields -/

theorem bitLength_spec {a n : Nat} (h : a < 2 ^ n) : bitLength a ≤ n := by
  unfold bitLength
  split
  · omega
  · rename_i h0
    have := (Nat.log2_lt h0).mpr h
    omega

theorem lt_two_pow_bitLength (a : Nat) : a < 2 ^ bitLength a := by
  unfold bitLength
  split
  · rename_i h; subst h; simp
  · exact Nat.lt_log2_self

/-- The offset field is wide enough, has one of the three widths, and a zero offset value always uses the 5-bit
form. -/
theorem offsetBits_spec {a : Nat} (h : a < 0x8000) :
    (offsetBits a = 5 ∨ offsetBits a = 10 ∨ offsetBits a = 15) ∧ a < 2 ^ offsetBits a ∧
      (a = 0 → offsetBits a = 5) := by
  have h1 : bitLength a ≤ 15 := bitLength_spec (by simpa using h)
  have h2 := lt_two_pow_bitLength a
  have h3 : bitLength a ≤ offsetBits a := by
    unfold offsetBits roundUp; split <;> omega
  have h4 : offsetBits a = 5 ∨ offsetBits a = 10 ∨ offsetBits a = 15 := by
    unfold offsetBits roundUp
    generalize bitLength a = b at *
    split <;> omega
  refine ⟨h4, Nat.lt_of_lt_of_le h2 (Nat.pow_le_pow_right (by omega) h3), ?_⟩
  intro h5; subst h5; rfl

/-- Bits of the count field. -/
def countBits (n : Nat) : List Bool :=
  if n ≥ 7 then [true, true, true] ++ countBits (n - 7) else fieldBits 3 n
termination_by n

theorem writeCount_spec (w : BitWriter) (n : Nat) (hw : w.WF) :
    (writeCount w n).abs = w.abs ++ countBits n ∧ (writeCount w n).WF := by
  fun_induction writeCount w n with
  | case1 w n h ih =>
    have h1 := BitWriter.writeBits_spec hw (n := 3) (v := 7) (by omega)
    have h2 := ih h1.2
    refine ⟨?_, h2.2⟩
    rw [h2.1, h1.1]
    conv => rhs; rw [countBits]
    simp [h, fieldBits]
  | case2 w n h =>
    have h1 := BitWriter.writeBits_spec hw (n := 3) (v := n) (by omega)
    refine ⟨?_, h1.2⟩
    rw [h1.1, countBits, if_neg h]

theorem readCount_spec (n : Nat) {r : BitReader} (hr : r.WF) (c : Nat) {rest : List Bool}
    (habs : r.abs = countBits n ++ rest) :
    ∃ r', readCount r c = some (c + n, r') ∧ r'.abs = rest ∧ r'.WF := by
  induction n using Nat.strongRecOn generalizing r c with
  | _ n ih =>
    rw [countBits] at habs
    by_cases h : n ≥ 7
    · rw [if_pos h, List.append_assoc] at habs
      obtain ⟨r1, h1, h2, h3⟩ := BitReader.readBits_spec hr (n := 3) (v := 7) (by omega)
        (show r.abs = fieldBits 3 7 ++ (countBits (n - 7) ++ rest) by rw [habs]; rfl)
      obtain ⟨r2, h4, h5, h6⟩ := ih (n - 7) (by omega) h3 (c + 7) h2
      refine ⟨r2, ?_, h5, h6⟩
      rw [readCount]
      split
      · rename_i h7; rw [h1] at h7; simp at h7
      · rename_i part r' h7
        rw [h1] at h7
        simp only [Option.some.injEq, Prod.mk.injEq] at h7
        obtain ⟨rfl, rfl⟩ := h7
        simp only [ne_eq, not_true_eq_false, if_false]
        rw [h4, show c + 7 + (n - 7) = c + n by omega]
    · rw [if_neg h] at habs
      obtain ⟨r1, h1, h2, h3⟩ := BitReader.readBits_spec hr (n := 3) (v := n) (by omega) habs
      refine ⟨r1, ?_, h2, h3⟩
      rw [readCount]
      split
      · rename_i h7; rw [h1] at h7; simp at h7
      · rename_i part r' h7
        rw [h1] at h7
        simp only [Option.some.injEq, Prod.mk.injEq] at h7
        obtain ⟨rfl, rfl⟩ := h7
        rw [if_pos (by omega)]

theorem writeIdx_spec (w : BitWriter) (iVal iBits : Nat) (hw : w.WF) :
    ∃ k v, (writeIdx w iVal iBits).abs =
        w.abs ++ (List.replicate k true ++ (false :: fieldBits (iBits + k) v)) ∧
      v < 2 ^ (iBits + k) ∧ iVal = v + (2 ^ k - 1) * 2 ^ iBits ∧ (writeIdx w iVal iBits).WF := by
  fun_induction writeIdx w iVal iBits with
  | case1 w iVal iBits h ih =>
    rw [Nat.shiftLeft_eq, Nat.one_mul] at *
    have h1 := BitWriter.writeBit_spec hw true
    obtain ⟨k, v, h2, h3, h4, h5⟩ := ih h1.2
    refine ⟨k + 1, v, ?_, ?_, ?_, h5⟩
    · rw [h2, h1.1, show iBits + 1 + k = iBits + (k + 1) by omega]
      simp [List.replicate_succ]
    · rw [show iBits + (k + 1) = iBits + 1 + k by omega]; exact h3
    · have hp : 2 ^ k ≥ 1 := Nat.two_pow_pos k
      have e1 : (2 ^ k - 1) * 2 ^ (iBits + 1) = 2 * ((2 ^ k - 1) * 2 ^ iBits) := by
        rw [Nat.pow_succ, ← Nat.mul_assoc, Nat.mul_comm]
      have e2 : (2 ^ (k + 1) - 1) * 2 ^ iBits = 2 * ((2 ^ k - 1) * 2 ^ iBits) + 2 ^ iBits := by
        rw [show 2 ^ (k + 1) - 1 = 2 * (2 ^ k - 1) + 1 by rw [Nat.pow_succ]; omega, Nat.add_mul, Nat.one_mul,
          Nat.mul_assoc]
      rw [e1] at h4
      rw [e2]
      omega
  | case2 w iVal iBits h =>
    rw [Nat.shiftLeft_eq, Nat.one_mul] at h
    have h1 := BitWriter.writeBit_spec hw false
    have h2 := BitWriter.writeBits_spec h1.2 (n := iBits) (v := iVal) (by omega)
    refine ⟨0, iVal, ?_, by simpa using h, by simp, h2.2⟩
    rw [h2.1, h1.1]; simp

theorem makeMask_eq (pos size : Nat) : makeMask pos size = (2 ^ size - 1) * 2 ^ pos := by
  simp [makeMask, Nat.shiftLeft_eq]

theorem readExtra_spec (k : Nat) {r : BitReader} (hr : r.WF) (e : Nat) {rest : List Bool}
    (habs : r.abs = List.replicate k true ++ (false :: rest)) :
    ∃ r', readExtra r e = some (e + k, r') ∧ r'.abs = rest ∧ r'.WF := by
  induction k generalizing r e with
  | zero =>
    obtain ⟨r1, h1, h2, h3⟩ := BitReader.readBit_spec hr (by simpa using habs)
    refine ⟨r1, ?_, h2, h3⟩
    rw [readExtra]
    split <;> rename_i h4 <;> rw [h1] at h4 <;> simp_all
  | succ k ih =>
    obtain ⟨r1, h1, h2, h3⟩ := BitReader.readBit_spec hr (by rw [habs, List.replicate_succ]; rfl)
    obtain ⟨r2, h4, h5, h6⟩ := ih h3 (e + 1) h2
    refine ⟨r2, ?_, h5, h6⟩
    rw [readExtra]
    split
    · rename_i h7; rw [h1] at h7; simp at h7
    · rename_i h7; rw [h1] at h7; simp at h7; subst h7; rw [h4]; congr 2; omega
    · rename_i h7; rw [h1] at h7; simp at h7

theorem writeChars_spec (w : BitWriter) (s : List Nat) (hw : w.WF) (hs : ∀ c ∈ s, c < 256) :
    (writeChars w s).abs = w.abs ++ bytesBits s ∧ (writeChars w s).WF := by
  induction s generalizing w with
  | nil => simp [writeChars, bytesBits, hw]
  | cons c s ih =>
    have h1 := BitWriter.writeBits_spec hw (n := 8) (v := c) (by simpa using hs c (by simp))
    have h2 := ih _ h1.2 (fun x hx => hs x (by simp [hx]))
    simp only [writeChars]
    refine ⟨?_, h2.2⟩
    rw [h2.1, h1.1]; simp [bytesBits]

theorem readBlock_spec (s : List Nat) {r : BitReader} (hr : r.WF) (code : List Nat) {rest : List Bool}
    (hs : ∀ c ∈ s, c < 256 ∧ c ≠ 0)
    (habs : r.abs = bytesBits s ++ (fieldBits 8 0 ++ rest)) :
    ∃ r', readBlock r code = some (code ++ s, r') ∧ r'.abs = rest ∧ r'.WF := by
  induction s generalizing r code with
  | nil =>
    obtain ⟨r1, h1, h2, h3⟩ := BitReader.readBits_spec hr (n := 8) (v := 0) (by omega)
      (by simpa [bytesBits] using habs)
    refine ⟨r1, ?_, h2, h3⟩
    rw [readBlock]
    split <;> rename_i h4 <;> rw [h1] at h4 <;> simp_all
  | cons c s ih =>
    obtain ⟨r1, h1, h2, h3⟩ := BitReader.readBits_spec hr (n := 8) (v := c)
      (by simpa using (hs c (by simp)).1)
      (show r.abs = fieldBits 8 c ++ (bytesBits s ++ (fieldBits 8 0 ++ rest)) by
        rw [habs]; simp [bytesBits])
    obtain ⟨r2, h4, h5, h6⟩ := ih h3 (code ++ [c]) (fun x hx => hs x (by simp [hx])) h2
    refine ⟨r2, ?_, h5, h6⟩
    rw [readBlock]
    split
    · rename_i h7; rw [h1] at h7; simp at h7
    · rename_i ch r' h7
      rw [h1] at h7
      simp only [Option.some.injEq, Prod.mk.injEq] at h7
      obtain ⟨rfl, rfl⟩ := h7
      rw [if_pos (hs c (by simp)).2, h4]
      simp

/-! ### items -/

theorem copyLoop_spec (code : List Nat) (o : Nat) (ho : 1 ≤ o) (i : Nat) (hi : o ≤ i) (c : Nat)
    (hlen : i + c ≤ code.length) (hcopy : ∀ k, k < c → code[i + k]? = code[i + k - o]?) :
    copyLoop (code.take i) o c = some (code.take (i + c)) := by
  induction c generalizing i with
  | zero => rfl
  | succ c ih =>
    have hlt : (code.take i).length = i := by simp; omega
    have h0 := hcopy 0 (by omega)
    have hget : (code.take i)[i - o]? = some (code[i]'(by omega)) := by
      rw [List.getElem?_take_of_lt (by omega)]
      have := h0
      simp only [Nat.add_zero] at this
      rw [← this, List.getElem?_eq_getElem]
    simp only [copyLoop, hlt, hi, if_true, hget]
    rw [List.take_append_getElem (by omega)]
    rw [ih (i + 1) (by omega) (by omega)]
    · congr 2; omega
    · intro k hk
      have := hcopy (k + 1) (by omega)
      rw [show i + 1 + k = i + (k + 1) by omega]; exact this

/-- Items within the limits of the PXA format. -/
def Item.PxaOk : Item → Prop
  | .str s => s ≠ [] ∧ (s.length ≠ 1 → 0 ∉ s)
  | .mat o c => o ≤ 0x8000 ∧ 3 ≤ c

theorem writeMatch_read {w : BitWriter} (hw : w.WF) {o c : Nat} (ho : 1 ≤ o) (ho2 : o ≤ 0x8000)
    (hc : 3 ≤ c) : ∃ w' bits, writeMatch w o c = some w' ∧ w'.WF ∧ w'.abs = w.abs ++ bits ∧
      ∀ (r : BitReader) (mtf code code' : List Nat) (rest : List Bool), r.WF → r.abs = bits ++ rest →
        copyLoop code o c = some code' →
        ∃ r', readItem r mtf code = some (r', mtf, code') ∧ r'.WF ∧ r'.abs = rest := by
  obtain ⟨hob, hlt, hz⟩ := offsetBits_spec (a := o - 1) (by omega)
  unfold writeMatch
  rw [if_neg (by omega)]
  simp only
  rw [if_pos hob]
  have h1 := BitWriter.writeBit_spec hw false
  rcases hob with hob | hob | hob
  · -- 5 bits
    rw [hob] at hlt ⊢
    have h2 := BitWriter.writeBit_spec h1.2 (decide (5 < 15))
    have h3 := BitWriter.writeBit_spec h2.2 (decide (5 < 10))
    have h4 := BitWriter.writeBits_spec h3.2 hlt
    have h5 := writeCount_spec _ (c - 3) h4.2
    rw [if_pos (by omega)]
    refine ⟨_, [false, true, true] ++ fieldBits 5 (o - 1) ++ countBits (c - 3), rfl, h5.2, ?_, ?_⟩
    · rw [h5.1, h4.1, h3.1, h2.1, h1.1]; simp
    · intro r mtf code code' rest hr habs hcopy
      simp only [List.append_assoc, List.cons_append, List.nil_append] at habs
      obtain ⟨r1, e1, a1, w1⟩ := BitReader.readBit_spec hr habs
      obtain ⟨r2, e2, a2, w2⟩ := BitReader.readBit_spec w1 a1
      obtain ⟨r3, e3, a3, w3⟩ := BitReader.readBit_spec w2 a2
      obtain ⟨r4, e4, a4, w4⟩ := BitReader.readBits_spec w3 hlt a3
      obtain ⟨r5, e5, a5, w5⟩ := readCount_spec _ w4 3 a4
      refine ⟨r5, ?_, w5, a5⟩
      simp only [readItem, readOfflen, e1, e2, e3, if_true, e4]
      rw [if_neg (by simp), e5, show 3 + (c - 3) = c by omega, show o - 1 + 1 = o by omega]
      simp only [hcopy]
  · rw [hob] at hlt ⊢
    have hne : o - 1 ≠ 0 := fun h => by have := hz h; omega
    have h2 := BitWriter.writeBit_spec h1.2 (decide (10 < 15))
    have h3 := BitWriter.writeBit_spec h2.2 (decide (10 < 10))
    have h4 := BitWriter.writeBits_spec h3.2 hlt
    have h5 := writeCount_spec _ (c - 3) h4.2
    rw [if_pos (by omega)]
    refine ⟨_, [false, true, false] ++ fieldBits 10 (o - 1) ++ countBits (c - 3), rfl, h5.2, ?_, ?_⟩
    · rw [h5.1, h4.1, h3.1, h2.1, h1.1]; simp
    · intro r mtf code code' rest hr habs hcopy
      simp only [List.append_assoc, List.cons_append, List.nil_append] at habs
      obtain ⟨r1, e1, a1, w1⟩ := BitReader.readBit_spec hr habs
      obtain ⟨r2, e2, a2, w2⟩ := BitReader.readBit_spec w1 a1
      obtain ⟨r3, e3, a3, w3⟩ := BitReader.readBit_spec w2 a2
      obtain ⟨r4, e4, a4, w4⟩ := BitReader.readBits_spec w3 hlt a3
      obtain ⟨r5, e5, a5, w5⟩ := readCount_spec _ w4 3 a4
      refine ⟨r5, ?_, w5, a5⟩
      simp only [readItem, readOfflen, e1, e2, e3, Bool.false_eq_true, if_false, e4]
      rw [if_neg (by omega), e5, show 3 + (c - 3) = c by omega, show o - 1 + 1 = o by omega]
      simp only [hcopy]
  · rw [hob] at hlt ⊢
    have hne : o - 1 ≠ 0 := fun h => by have := hz h; omega
    have h2 := BitWriter.writeBit_spec h1.2 (decide (15 < 15))
    have h4 := BitWriter.writeBits_spec h2.2 hlt
    have h5 := writeCount_spec _ (c - 3) h4.2
    rw [if_neg (by omega)]
    refine ⟨_, [false, false] ++ fieldBits 15 (o - 1) ++ countBits (c - 3), rfl, h5.2, ?_, ?_⟩
    · rw [h5.1, h4.1, h2.1, h1.1]; simp
    · intro r mtf code code' rest hr habs hcopy
      simp only [List.append_assoc, List.cons_append, List.nil_append] at habs
      obtain ⟨r1, e1, a1, w1⟩ := BitReader.readBit_spec hr habs
      obtain ⟨r2, e2, a2, w2⟩ := BitReader.readBit_spec w1 a1
      obtain ⟨r4, e4, a4, w4⟩ := BitReader.readBits_spec w2 hlt a2
      obtain ⟨r5, e5, a5, w5⟩ := readCount_spec _ w4 3 a4
      refine ⟨r5, ?_, w5, a5⟩
      simp only [readItem, readOfflen, e1, e2, e4]
      rw [if_neg (by omega), e5, show 3 + (c - 3) = c by omega, show o - 1 + 1 = o by omega]
      simp only [hcopy]

theorem writeLiteral_read {w : BitWriter} (hw : w.WF) {mtf : List Nat} {ch : Nat} (hm : ch ∈ mtf) :
    ∃ w' mtf' bits, writeLiteral w mtf ch = some (w', mtf') ∧ w'.WF ∧ mtf'.Perm mtf ∧ w'.abs = w.abs ++ bits ∧
      ∀ (r : BitReader) (code : List Nat) (rest : List Bool), r.WF → r.abs = bits ++ rest →
        ∃ r', readItem r mtf code = some (r', mtf', code ++ [ch]) ∧ r'.WF ∧ r'.abs = rest := by
  obtain ⟨i, hi, hlt, hget⟩ := idxOf?_some hm
  unfold writeLiteral
  simp only [hi]
  have h1 := BitWriter.writeBit_spec hw true
  obtain ⟨k, v, h2, h3, h4, h5⟩ := writeIdx_spec _ i 4 h1.2
  refine ⟨_, _, true :: (List.replicate k true ++ (false :: fieldBits (4 + k) v)), rfl, h5,
    updateMtf_perm _ _ _ hget, ?_, ?_⟩
  · rw [h2, h1.1]; simp
  · intro r code rest hr habs
    simp only [List.append_assoc, List.cons_append] at habs
    obtain ⟨r1, e1, a1, w1⟩ := BitReader.readBit_spec hr habs
    obtain ⟨r2, e2, a2, w2⟩ := readExtra_spec k w1 0 a1
    rw [Nat.zero_add] at e2
    obtain ⟨r3, e3, a3, w3⟩ := BitReader.readBits_spec w2 h3 a2
    refine ⟨r3, ?_, w3, a3⟩
    have : v + makeMask 4 k = i := by rw [makeMask_eq, ← h4]
    simp only [readItem, e1, e2, e3, this, hget]

theorem writeLitblock_read {w : BitWriter} (hw : w.WF) {s : List Nat} (hs : ∀ c ∈ s, c < 256 ∧ c ≠ 0) :
    ∃ bits, (writeLitblock w s).WF ∧ (writeLitblock w s).abs = w.abs ++ bits ∧
      ∀ (r : BitReader) (mtf code : List Nat) (rest : List Bool), r.WF → r.abs = bits ++ rest →
        ∃ r', readItem r mtf code = some (r', mtf, code ++ s) ∧ r'.WF ∧ r'.abs = rest := by
  unfold writeLitblock
  have h1 := BitWriter.writeBit_spec hw false
  have h2 := BitWriter.writeBit_spec h1.2 true
  have h3 := BitWriter.writeBit_spec h2.2 false
  have h4 := BitWriter.writeBits_spec h3.2 (n := 10) (v := 0) (by omega)
  have h5 := writeChars_spec _ s h4.2 (fun c hc => (hs c hc).1)
  have h6 := BitWriter.writeBits_spec h5.2 (n := 8) (v := 0) (by omega)
  refine ⟨[false, true, false] ++ (fieldBits 10 0 ++ (bytesBits s ++ fieldBits 8 0)), h6.2, ?_, ?_⟩
  · rw [h6.1, h5.1, h4.1, h3.1, h2.1, h1.1]; simp
  · intro r mtf code rest hr habs
    simp only [List.append_assoc, List.cons_append, List.nil_append] at habs
    obtain ⟨r1, e1, a1, w1⟩ := BitReader.readBit_spec hr habs
    obtain ⟨r2, e2, a2, w2⟩ := BitReader.readBit_spec w1 a1
    obtain ⟨r3, e3, a3, w3⟩ := BitReader.readBit_spec w2 a2
    obtain ⟨r4, e4, a4, w4⟩ := BitReader.readBits_spec w3 (n := 10) (v := 0) (by omega) a3
    obtain ⟨r5, e5, a5, w5⟩ := readBlock_spec s w4 code hs a4
    refine ⟨r5, ?_, w5, a5⟩
    simp only [readItem, readOfflen, e1, e2, e3, Bool.false_eq_true, if_false, e4]
    simp [e5]

/-- One item: writer and reader stay in step. -/
theorem writeItem_read {w : BitWriter} (hw : w.WF) {mtf : List Nat} (hm : mtf.Perm initMtf) {code : List Nat}
    (hcode : ∀ c ∈ code, c < 256) {i : Nat} {it : Item} (hok : it.PxaOk) (hat : ItemAt code i it) :
    ∃ w' mtf' bits, writeItem w mtf it = some (w', mtf') ∧ w'.WF ∧ mtf'.Perm initMtf ∧ w'.abs = w.abs ++ bits ∧
      ∀ (r : BitReader) (rest : List Bool), r.WF → r.abs = bits ++ rest →
        ∃ r', readItem r mtf (code.take i) = some (r', mtf', code.take (i + it.length)) ∧ r'.WF ∧
          r'.abs = rest := by
  cases it with
  | mat o c =>
    obtain ⟨ho, hoi, hlen, hcopy⟩ := hat
    obtain ⟨ho2, hc⟩ := hok
    obtain ⟨w', bits, e, hw', ha, hread⟩ := writeMatch_read hw ho ho2 hc
    refine ⟨w', mtf, bits, by simp [writeItem, e], hw', hm, ha, ?_⟩
    intro r rest hr habs
    exact hread r mtf _ _ rest hr habs (copyLoop_spec code o ho i hoi c hlen hcopy)
  | str s =>
    obtain ⟨hne, hz⟩ := hok
    have htake : code.take i ++ s = code.take (i + s.length) := by
      obtain ⟨t, ht⟩ := hat.2
      have hs : s = (code.drop i).take s.length := by rw [← ht]; simp
      conv => lhs; rw [hs]
      rw [List.take_add]
    have hmem : ∀ c ∈ s, c < 256 := by
      intro c hc
      apply hcode
      exact List.mem_of_mem_drop (hat.2.subset hc)
    by_cases h1 : s.length = 1
    · obtain ⟨c, rfl⟩ := List.length_eq_one_iff.mp h1
      obtain ⟨w', mtf', bits, e, hw', hp, ha, hread⟩ := writeLiteral_read hw (mtf := mtf) (ch := c)
        (hm.symm.subset (initMtf_mem (hmem c (by simp))))
      refine ⟨w', mtf', bits, by simp [writeItem, e], hw', hp.trans hm, ha, ?_⟩
      intro r rest hr habs
      obtain ⟨r', e1, e2, e3⟩ := hread r (code.take i) rest hr habs
      exact ⟨r', by rw [e1, htake]; rfl, e2, e3⟩
    · obtain ⟨bits, hw', ha, hread⟩ := writeLitblock_read hw (s := s)
        (fun c hc => ⟨hmem c hc, fun h0 => hz h1 (h0 ▸ hc)⟩)
      refine ⟨writeLitblock w s, mtf, bits, ?_, hw', hm, ha, ?_⟩
      · unfold writeItem
        split
        · rename_i h; simp at h
        · rename_i h; simp at h; subst h; simp at h1
        · rename_i h; simp at h; subst h; rfl
      · intro r rest hr habs
        obtain ⟨r', e1, e2, e3⟩ := hread r mtf (code.take i) rest hr habs
        exact ⟨r', by rw [e1, htake]; rfl, e2, e3⟩

theorem Item.PxaOk.length_pos {it : Item} (h : it.PxaOk) : 0 < it.length := by
  cases it with
  | str s => exact List.length_pos_iff.mpr h.1
  | mat o c => have := h.2; simp [Item.length]; omega

theorem covers_le {code : List Nat} {i : Nat} {items : List Item} (h : Covers code i items) : i ≤ code.length := by
  induction items generalizing i with
  | nil => simp [Covers] at h; omega
  | cons it its ih => have := ih h.2; omega

theorem writeItems_read {w : BitWriter} (hw : w.WF) {mtf : List Nat} (hm : mtf.Perm initMtf) {code : List Nat}
    (hcode : ∀ c ∈ code, c < 256) {i : Nat} {items : List Item} (hok : ∀ it ∈ items, it.PxaOk)
    (hcov : Covers code i items) :
    ∃ w' bits, writeItems w mtf items = some w' ∧ w'.WF ∧ w'.abs = w.abs ++ bits ∧
      ∀ (r : BitReader) (rest : List Bool), r.WF → r.abs = bits ++ rest →
        ∃ r', readItems r mtf (code.take i) code.length = some (code, r') ∧ r'.WF ∧ r'.abs = rest := by
  induction items generalizing w mtf i with
  | nil =>
    simp only [Covers] at hcov
    refine ⟨w, [], rfl, hw, by simp, ?_⟩
    intro r rest hr habs
    refine ⟨r, ?_, hr, by simpa using habs⟩
    rw [readItems, hcov, List.take_length, if_neg (by omega)]
  | cons it its ih =>
    obtain ⟨hat, hcov'⟩ := hcov
    have hok1 := hok it (by simp)
    obtain ⟨w1, mtf1, bits1, e1, hw1, hm1, ha1, hread1⟩ := writeItem_read hw hm hcode hok1 hat
    obtain ⟨w2, bits2, e2, hw2, ha2, hread2⟩ := ih hw1 hm1 (fun x hx => hok x (by simp [hx])) hcov'
    refine ⟨w2, bits1 ++ bits2, by simp [writeItems, e1, e2], hw2, by rw [ha2, ha1]; simp, ?_⟩
    intro r rest hr habs
    rw [List.append_assoc] at habs
    obtain ⟨r1, e3, hr1, ar1⟩ := hread1 r _ hr habs
    obtain ⟨r2, e4, hr2, ar2⟩ := hread2 r1 rest hr1 ar1
    refine ⟨r2, ?_, hr2, ar2⟩
    have hle := covers_le hcov'
    have hpos := hok1.length_pos
    rw [readItems, if_pos (by simp; omega)]
    split
    · rename_i h; rw [e3] at h; simp at h
    · rename_i h; rw [e3] at h
      simp only [Option.some.injEq, Prod.mk.injEq] at h
      obtain ⟨rfl, rfl, rfl⟩ := h
      exact e4

/-- The encoder succeeds on every valid cover and the decoder inverts it, whatever bytes follow. -/
theorem pxa_main {code : List Nat} (hcode : ∀ c ∈ code, c < 256) {items : List Item}
    (hok : ∀ it ∈ items, it.PxaOk) (hcov : Covers code 0 items) (hlen : code.length < 0x10000) :
    ∃ w, writeItems BitWriter.init initMtf items = some w ∧ (∀ b ∈ w.flush, b < 256) ∧
      (8 + w.flush.length < 0x10000 → ∀ tail, (∀ b ∈ tail, b < 256) →
        uncompressNew (be16 (code.length % 0x10000) ++ be16 ((8 + w.flush.length) % 0x10000) ++ w.flush ++ tail)
          = some (code, tail)) := by
  obtain ⟨w, bits, e, hw, ha, hread⟩ := writeItems_read BitWriter.init_wf (List.Perm.refl _) hcode hok hcov
  obtain ⟨pad, hpad, hfl, hb⟩ := BitWriter.flush_spec hw
  refine ⟨w, e, hb, ?_⟩
  intro hsz tail htail
  have habs0 : BitWriter.init.abs = [] := by simp [BitWriter.init, BitWriter.abs, fieldBits, bytesBits]
  rw [habs0, List.nil_append] at ha
  have hwf : (BitReader.init (w.flush ++ tail)).WF := BitReader.init_wf (by
    intro b hb'; rcases List.mem_append.mp hb' with h | h
    · exact hb b h
    · exact htail b h)
  obtain ⟨r', e1, hr', ar'⟩ := hread (BitReader.init (w.flush ++ tail))
    (List.replicate pad false ++ bytesBits tail) hwf (by
      rw [BitReader.init_abs, bytesBits_append, hfl, ha]; simp)
  have hl := congrArg List.length ar'
  simp only [BitReader.abs, List.length_append, fieldBits_length, bytesBits_length, List.length_replicate] at hl
  have hs := hr'.small
  have hlen' : r'.src.length = tail.length := by omega
  have hnb : r'.nbits = pad := by omega
  have hsrc : bytesBits r'.src = bytesBits tail := by
    have := ar'
    unfold BitReader.abs at this
    exact (List.append_inj this (by simp [hnb])).2
  have hsrc' : r'.src = tail := by
    have key : ∀ (a b : List Nat), (∀ x ∈ a, x < 256) → (∀ x ∈ b, x < 256) → bytesBits a = bytesBits b → a = b := by
      intro a
      induction a with
      | nil =>
        intro b _ _ h
        cases b with
        | nil => rfl
        | cons y b => have := congrArg List.length h; simp at this
      | cons x a ih =>
        intro b h1 h2 h
        cases b with
        | nil => have := congrArg List.length h; simp [bytesBits] at this
        | cons y b =>
          simp only [bytesBits] at h
          have h3 := List.append_inj h (by simp)
          have h4 : x = y := fieldBits_inj (n := 8) (by simpa using h1 x (by simp))
            (by simpa using h2 y (by simp)) h3.1
          rw [h4, ih b (fun z hz => h1 z (by simp [hz])) (fun z hz => h2 z (by simp [hz])) h3.2]
    exact key _ _ hr'.bytes htail hsrc
  have ebe : ∀ n, n < 0x10000 → ∀ l, readBe16 (be16 (n % 0x10000) ++ l) = some (n, l) := by
    intro n hn l
    simp only [be16, List.cons_append, List.nil_append, readBe16, Option.some.injEq, Prod.mk.injEq, and_true]
    omega
  simp only [uncompressNew, List.append_assoc]
  rw [ebe _ hlen]
  simp only
  rw [ebe _ hsz]
  simp only
  rw [List.take_zero] at e1
  rw [e1]
  simp only [hsrc', and_true]
  rw [if_pos]
  simp [be16]
  omega

end Verif
