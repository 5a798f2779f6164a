import Verif.CompressLemmas
import Verif.PxaLocal
import Verif.Spec.CodeFormat
/-! The reader accepts exactly the layouts of `Spec/CodeFormat.lean`. -/
namespace Verif
open CodeFormat

theorem fieldBits_eq_testBit (n v : Nat) : fieldBits n v = (List.range n).map v.testBit := by
  induction n generalizing v with
  | zero => rfl
  | succ n ih =>
    rw [fieldBits, ih, List.range_succ_eq_map, List.map_cons, List.map_map]
    congr 1
    · rw [Nat.testBit_zero]; rcases Nat.mod_two_eq_zero_or_one v with h | h <;> simp [h]
    · apply List.map_congr_left
      intro i _
      simp [Function.comp, Nat.testBit_succ]

theorem bytesBits_eq_bitsOf (bs : List Nat) : bytesBits bs = bitsOf bs := by
  induction bs with
  | nil => rfl
  | cons b bs ih => rw [bytesBits, fieldBits_eq_testBit, ih]; simp [bitsOf]

theorem val_lt (f : List Bool) : val f < 2 ^ f.length := by
  induction f with
  | nil => simp [val]
  | cons b f ih =>
    have : b.toNat ≤ 1 := by cases b <;> simp
    simp only [val, List.length_cons, Nat.pow_succ]; omega

theorem fieldBits_val (f : List Bool) : fieldBits f.length (val f) = f := by
  induction f with
  | nil => rfl
  | cons b f ih =>
    simp only [List.length_cons, fieldBits, val]
    have h : (b.toNat + 2 * val f) / 2 = val f := by cases b <;> simp <;> omega
    rw [h, ih]
    congr 1
    cases b <;> simp <;> omega

theorem val_fieldBits {n v : Nat} (h : v < 2 ^ n) : val (fieldBits n v) = v := by
  apply fieldBits_inj (n := n) ?_ h
  · have := fieldBits_val (fieldBits n v)
    simpa using this
  · have := val_lt (fieldBits n v)
    simpa using this

theorem BitReader.abs_length (r : BitReader) : r.abs.length = r.avail := by
  simp [BitReader.abs, BitReader.avail]

theorem BitReader.readBits_sound {r : BitReader} (hr : r.WF) {n v : Nat} {r' : BitReader}
    (h : r.readBits n = some (v, r')) : ∃ f, f.length = n ∧ val f = v ∧ r.abs = f ++ r'.abs ∧ r'.WF := by
  have ha := BitReader.readBits_avail h
  have hl : n ≤ r.abs.length := by rw [r.abs_length]; omega
  have e1 : (r.abs.take n).length = n := by simp; omega
  have e2 := fieldBits_val (r.abs.take n)
  rw [e1] at e2
  obtain ⟨r2, h2, h3, h4⟩ := BitReader.readBits_spec hr (n := n) (v := val (r.abs.take n)) (rest := r.abs.drop n)
    (by have := val_lt (r.abs.take n); rwa [e1] at this) (by rw [e2, List.take_append_drop])
  rw [h] at h2
  simp only [Option.some.injEq, Prod.mk.injEq] at h2
  obtain ⟨rfl, rfl⟩ := h2
  exact ⟨_, e1, rfl, by rw [h3, List.take_append_drop], h4⟩

theorem BitReader.readBits_complete {r : BitReader} (hr : r.WF) {f rest : List Bool}
    (h : r.abs = f ++ rest) : ∃ r', r.readBits f.length = some (val f, r') ∧ r'.abs = rest ∧ r'.WF :=
  BitReader.readBits_spec hr (val_lt f) (by rw [fieldBits_val, h])

theorem BitReader.readBit_sound {r : BitReader} (hr : r.WF) {b : Bool} {r' : BitReader}
    (h : r.readBit = some (b, r')) : r.abs = b :: r'.abs ∧ r'.WF := by
  have ha := BitReader.readBit_avail h
  have hl : 0 < r.abs.length := by rw [r.abs_length]; omega
  obtain ⟨b0, rest, hb⟩ := List.exists_cons_of_length_pos hl
  obtain ⟨r2, h2, h3, h4⟩ := BitReader.readBit_spec hr hb
  rw [h] at h2
  simp only [Option.some.injEq, Prod.mk.injEq] at h2
  obtain ⟨rfl, rfl⟩ := h2
  exact ⟨by rw [hb, h3], h4⟩

theorem readExtra_sound (r : BitReader) (e : Nat) {x : Nat} {r' : BitReader} (hr : r.WF) :
    readExtra r e = some (x, r') →
    ∃ k, x = e + k ∧ r.abs = List.replicate k true ++ false :: r'.abs ∧ r'.WF := by
  fun_induction readExtra r e with
  | case1 => simp
  | case2 r e r1 h ih =>
    obtain ⟨h1, h2⟩ := BitReader.readBit_sound hr h
    intro h3
    obtain ⟨k, h4, h5, h6⟩ := ih h2 h3
    exact ⟨k + 1, by omega, by rw [h1, h5]; rfl, h6⟩
  | case3 r e r1 h =>
    obtain ⟨h1, h2⟩ := BitReader.readBit_sound hr h
    intro h3
    simp only [Option.some.injEq, Prod.mk.injEq] at h3
    obtain ⟨rfl, rfl⟩ := h3
    exact ⟨0, rfl, h1, h2⟩

theorem readBlock_sound (r : BitReader) (c : List Nat) {x : List Nat} {r' : BitReader} (hr : r.WF) :
    readBlock r c = some (x, r') →
    ∃ s, x = c ++ s ∧ (∀ c ∈ s, c ≠ 0 ∧ c < 256) ∧ r.abs = bitsOf (s ++ [0]) ++ r'.abs ∧ r'.WF := by
  fun_induction readBlock r c with
  | case1 => simp
  | case2 r c ch r1 h hc ih =>
    obtain ⟨f, h0, h1, h2, h3⟩ := BitReader.readBits_sound hr h
    intro h4
    obtain ⟨s, h5, h6, h7, h8⟩ := ih h3 h4
    have hlt := val_lt f
    rw [h0, h1] at hlt
    have hb : fieldBits 8 ch = f := by rw [← h1, ← h0]; exact fieldBits_val f
    refine ⟨ch :: s, by simp [h5], ?_, ?_, h8⟩
    · intro c hcm
      rcases List.mem_cons.mp hcm with rfl | hcm
      · exact ⟨hc, by simpa using hlt⟩
      · exact h6 c hcm
    · rw [h2, h7, ← hb, ← bytesBits_eq_bitsOf, ← bytesBits_eq_bitsOf]
      simp [bytesBits]
  | case3 r c ch r1 h hc =>
    obtain ⟨f, h0, h1, h2, h3⟩ := BitReader.readBits_sound hr h
    intro h4
    simp only [Option.some.injEq, Prod.mk.injEq] at h4
    obtain ⟨rfl, rfl⟩ := h4
    have hz : ch = 0 := by simpa using hc
    have hb : fieldBits 8 ch = f := by rw [← h1, ← h0]; exact fieldBits_val f
    refine ⟨[], by simp, by simp, ?_, h3⟩
    rw [h2, ← hb, hz, ← bytesBits_eq_bitsOf]
    simp [bytesBits]

theorem eq_ones {f : List Bool} (h : val f = 2 ^ f.length - 1) : f = List.replicate f.length true := by
  induction f with
  | nil => rfl
  | cons b f ih =>
    have h1 := val_lt f
    have hp := Nat.two_pow_pos f.length
    simp only [val, List.length_cons, Nat.pow_succ] at h
    cases b
    · simp at h; omega
    · simp at h
      rw [List.length_cons, List.replicate_succ, ← ih (by omega)]

theorem val_ones (n : Nat) : val (List.replicate n true) = 2 ^ n - 1 := by
  induction n with
  | zero => rfl
  | succ n ih =>
    have hp := Nat.two_pow_pos n
    rw [List.replicate_succ, val, ih, Nat.pow_succ]; simp; omega

theorem readCount_sound (r : BitReader) (c : Nat) {x : Nat} {r' : BitReader} (hr : r.WF) :
    readCount r c = some (x, r') →
    ∃ n g, x = c + (7 * n + val g) ∧ g.length = 3 ∧ val g < 7 ∧
      r.abs = (List.replicate (3 * n) true ++ g) ++ r'.abs ∧ r'.WF := by
  fun_induction readCount r c with
  | case1 => simp
  | case2 r c p r1 h hc =>
    obtain ⟨f, h0, h1, h2, h3⟩ := BitReader.readBits_sound hr h
    intro h4
    simp only [Option.some.injEq, Prod.mk.injEq] at h4
    obtain ⟨rfl, rfl⟩ := h4
    have := val_lt f
    rw [h0] at this
    exact ⟨0, f, by omega, h0, by omega, by simpa using h2, h3⟩
  | case3 r c p r1 h hc ih =>
    obtain ⟨f, h0, h1, h2, h3⟩ := BitReader.readBits_sound hr h
    intro h4
    obtain ⟨n, g, h5, h6, h7, h8, h9⟩ := ih h3 h4
    have hp : p = 7 := by simpa using hc
    have hf := eq_ones (f := f) (by rw [h0, h1, hp])
    rw [h0] at hf
    refine ⟨n + 1, g, by omega, h6, h7, ?_, h9⟩
    rw [h2, h8, hf, show 3 * (n + 1) = 3 + 3 * n by omega, ← List.replicate_append_replicate]
    simp

theorem copyLoop_sound {code : List Nat} {o n : Nat} (ho : 1 ≤ o) (hn : 1 ≤ n) {code' : List Nat}
    (h : copyLoop code o n = some code') : Copied code o n code' := by
  have main : ∀ n (code code' : List Nat), copyLoop code o n = some code' →
      code <+: code' ∧ code'.length = code.length + n ∧ (1 ≤ n → o ≤ code.length) ∧
      ∀ k, code.length ≤ k → k < code'.length → code'[k]? = code'[k - o]? := by
    intro n
    induction n with
    | zero =>
      intro code code' h
      simp only [copyLoop, Option.some.injEq] at h
      subst h
      exact ⟨List.prefix_refl _, rfl, by omega, by intros; omega⟩
    | succ n ih =>
      intro code code' h
      rw [copyLoop] at h
      split at h
      · rename_i hle
        split at h
        · simp at h
        · rename_i c hc
          obtain ⟨h1, h2, h3, h4⟩ := ih _ _ h
          have hp : code <+: code' := (List.prefix_append code [c]).trans h1
          refine ⟨hp, by rw [h2]; simp; omega, fun _ => hle, ?_⟩
          intro k hk1 hk2
          by_cases hk : k = code.length
          · subst hk
            obtain ⟨t, ht⟩ := h1
            rw [← ht]
            have hlt : code.length - o < code.length := by omega
            have e1 : (code ++ [c] ++ t)[code.length]? = some c := by
              rw [List.append_assoc, List.getElem?_append_right (by omega)]; simp
            have e2 : (code ++ [c] ++ t)[code.length - o]? = some c := by
              rw [List.append_assoc, List.getElem?_append_left hlt, hc]
            rw [e1, e2]
          · exact h4 k (by simp; omega) hk2
      · simp at h
  obtain ⟨h1, h2, h3, h4⟩ := main n code code' h
  exact ⟨ho, h3 hn, h1, h2, h4⟩

theorem copyLoop_complete {code : List Nat} {o n : Nat} {code' : List Nat}
    (h : Copied code o n code') : copyLoop code o n = some code' := by
  obtain ⟨ho, hl, hp, hlen, hk⟩ := h
  have := copyLoop_spec code' o ho code.length hl n (by omega) (by
    intro k hk2
    have := hk (code.length + k) (by omega) (by omega)
    exact this)
  rw [← List.prefix_iff_eq_take.mp hp, ← hlen, List.take_length] at this
  exact this

theorem readItem_sound {r : BitReader} (hr : r.WF) {mtf code : List Nat} {r' : BitReader} {m' c' : List Nat}
    (h : readItem r mtf code = some (r', m', c')) :
    ∃ bits, r.abs = bits ++ r'.abs ∧ r'.WF ∧ PxaItem mtf code bits m' c' := by
  unfold readItem at h
  split at h
  · simp at h
  · rename_i r1 h1
    obtain ⟨a1, w1⟩ := BitReader.readBit_sound hr h1
    split at h
    · simp at h
    · rename_i extra r2 h2
      obtain ⟨k, rfl, a2, w2⟩ := readExtra_sound _ _ w1 h2
      split at h
      · simp at h
      · rename_i v r3 h3
        obtain ⟨f, hf, rfl, a3, w3⟩ := BitReader.readBits_sound w2 h3
        simp only at h
        split at h
        · simp at h
        · rename_i ch hch
          simp only [Option.some.injEq, Prod.mk.injEq] at h
          obtain ⟨rfl, rfl, rfl⟩ := h
          have em : makeMask 4 (0 + k) = 16 * (2 ^ k - 1) := by
            rw [makeMask_eq, Nat.zero_add, Nat.mul_comm]
          rw [em] at hch ⊢
          rw [updateMtf_eq _ _ _ (List.getElem?_eq_some_iff.mp hch).1]
          refine ⟨_, ?_, w3, PxaItem.char k f ch (by omega) hch⟩
          rw [a1, a2, a3]; simp
  · rename_i r1 h1
    obtain ⟨a1, w1⟩ := BitReader.readBit_sound hr h1
    split at h
    · simp at h
    · rename_i offlen r2 h2
      have hsel : ∃ sel, (sel, offlen) ∈ [([true, true], 5), ([true, false], 10), ([false], 15)] ∧
          r1.abs = sel ++ r2.abs ∧ r2.WF := by
        unfold readOfflen at h2
        split at h2
        · simp at h2
        · rename_i r3 h3
          obtain ⟨a3, w3⟩ := BitReader.readBit_sound w1 h3
          simp only [Option.some.injEq, Prod.mk.injEq] at h2
          obtain ⟨rfl, rfl⟩ := h2
          exact ⟨[false], by simp, by simpa using a3, w3⟩
        · rename_i r3 h3
          obtain ⟨a3, w3⟩ := BitReader.readBit_sound w1 h3
          split at h2
          · simp at h2
          · rename_i b r4 h4
            obtain ⟨a4, w4⟩ := BitReader.readBit_sound w3 h4
            simp only [Option.some.injEq, Prod.mk.injEq] at h2
            obtain ⟨rfl, rfl⟩ := h2
            exact ⟨[true, b], by cases b <;> simp, by simp [a3, a4], w4⟩
      obtain ⟨sel, hsel, a2, w2⟩ := hsel
      split at h
      · simp at h
      · rename_i v r3 h3
        obtain ⟨f, hf, rfl, a3, w3⟩ := BitReader.readBits_sound w2 h3
        simp only at h
        split at h
        · rename_i hz
          split at h
          · rename_i h10
            subst h10
            split at h
            · simp at h
            · rename_i c4 r4 h4
              obtain ⟨s, rfl, hs, a4, w4⟩ := readBlock_sound _ _ w3 h4
              simp only [Option.some.injEq, Prod.mk.injEq] at h
              obtain ⟨rfl, rfl, rfl⟩ := h
              have hsel2 : sel = [true, false] := by simpa using hsel
              have hf0 : f = List.replicate 10 false := by
                have := fieldBits_val f
                rw [hf, show val f = 0 by omega] at this
                rw [← this]; rfl
              refine ⟨_, ?_, w4, PxaItem.block s hs⟩
              rw [a1, a2, a3, a4, hsel2, hf0]; simp
          · simp at h
        · rename_i hz
          split at h
          · simp at h
          · rename_i cnt r4 h4
            obtain ⟨n, g, rfl, hg, hg7, a4, w4⟩ := readCount_sound _ _ w3 h4
            split at h
            · simp at h
            · rename_i c5 h5
              simp only [Option.some.injEq, Prod.mk.injEq] at h
              obtain ⟨rfl, rfl, rfl⟩ := h
              refine ⟨_, ?_, w4, PxaItem.copy sel f n g c5 (by rw [hf]; exact hsel) (by omega) hg hg7
                (copyLoop_sound (by omega) (by omega) h5)⟩
              rw [a1, a2, a3, a4]; simp

theorem countBits_groups (n : Nat) {g : List Bool} (hg : g.length = 3) (hg7 : val g < 7) :
    countBits (7 * n + val g) = List.replicate (3 * n) true ++ g := by
  induction n with
  | zero =>
    rw [countBits, if_neg (by omega)]
    have := fieldBits_val g
    rw [hg] at this
    simpa using this
  | succ n ih =>
    rw [countBits, if_pos (by omega), show 7 * (n + 1) + val g - 7 = 7 * n + val g by omega, ih,
      show 3 * (n + 1) = 3 + 3 * n by omega, ← List.replicate_append_replicate]
    simp

theorem readItem_complete {r : BitReader} (hr : r.WF) {mtf code m' c' : List Nat} {bits rest : List Bool}
    (h : PxaItem mtf code bits m' c') (ha : r.abs = bits ++ rest) :
    ∃ r', readItem r mtf code = some (r', m', c') ∧ r'.abs = rest ∧ r'.WF := by
  cases h with
  | char k f c hf hc =>
    simp only [List.append_assoc, List.cons_append] at ha
    obtain ⟨r1, e1, a1, w1⟩ := BitReader.readBit_spec hr ha
    obtain ⟨r2, e2, a2, w2⟩ := readExtra_spec k w1 0 a1
    rw [Nat.zero_add] at e2
    obtain ⟨r3, e3, a3, w3⟩ := BitReader.readBits_complete w2 a2
    rw [hf] at e3
    have em : makeMask 4 k = 16 * (2 ^ k - 1) := by rw [makeMask_eq, Nat.mul_comm]
    refine ⟨r3, ?_, a3, w3⟩
    simp only [readItem, e1, e2, e3, em, hc]
    rw [updateMtf_eq _ _ _ (List.getElem?_eq_some_iff.mp hc).1]
  | copy sel f n g _ hs hf hg hg7 ht =>
    have hcp := copyLoop_complete ht
    simp only [List.append_assoc, List.cons_append] at ha
    obtain ⟨r1, e1, a1, w1⟩ := BitReader.readBit_spec hr ha
    have hsel : ∃ r2, readOfflen r1 = some (f.length, r2) ∧
        r2.abs = f ++ (List.replicate (3 * n) true ++ (g ++ rest)) ∧ r2.WF := by
      simp only [List.mem_cons, Prod.mk.injEq, List.not_mem_nil, or_false] at hs
      rcases hs with ⟨rfl, h5⟩ | ⟨rfl, h5⟩ | ⟨rfl, h5⟩
      · simp only [List.cons_append, List.nil_append] at a1
        obtain ⟨r2, e2, a2, w2⟩ := BitReader.readBit_spec w1 a1
        obtain ⟨r3, e3, a3, w3⟩ := BitReader.readBit_spec w2 a2
        exact ⟨r3, by simp [readOfflen, e2, e3, h5], a3, w3⟩
      · simp only [List.cons_append, List.nil_append] at a1
        obtain ⟨r2, e2, a2, w2⟩ := BitReader.readBit_spec w1 a1
        obtain ⟨r3, e3, a3, w3⟩ := BitReader.readBit_spec w2 a2
        exact ⟨r3, by simp [readOfflen, e2, e3, h5], a3, w3⟩
      · simp only [List.cons_append, List.nil_append] at a1
        obtain ⟨r2, e2, a2, w2⟩ := BitReader.readBit_spec w1 a1
        exact ⟨r2, by simp [readOfflen, e2, h5], a2, w2⟩
    obtain ⟨r2, e2, a2, w2⟩ := hsel
    obtain ⟨r3, e3, a3, w3⟩ := BitReader.readBits_complete w2 a2
    obtain ⟨r4, e4, a4, w4⟩ := readCount_spec (7 * n + val g) w3 3 (rest := rest)
      (by rw [countBits_groups n hg hg7, a3]; simp)
    refine ⟨r4, ?_, a4, w4⟩
    simp only [readItem, e1, e2, e3]
    rw [if_neg (by omega), e4]
    simp only [hcp]
  | block s hs =>
    simp only [List.append_assoc, List.cons_append] at ha
    obtain ⟨r1, e1, a1, w1⟩ := BitReader.readBit_spec hr ha
    obtain ⟨r2, e2, a2, w2⟩ := BitReader.readBit_spec w1 a1
    obtain ⟨r3, e3, a3, w3⟩ := BitReader.readBit_spec w2 a2
    obtain ⟨r4, e4, a4, w4⟩ := BitReader.readBits_spec w3 (n := 10) (v := 0)
      (rest := bitsOf (s ++ [0]) ++ rest) (by omega) (by rw [a3]; rfl)
    obtain ⟨r5, e5, a5, w5⟩ := readBlock_spec s w4 code (rest := rest) (fun c hc => ⟨(hs c hc).2, (hs c hc).1⟩)
      (by rw [a4, ← bytesBits_eq_bitsOf, bytesBits_append]; simp [bytesBits])
    refine ⟨r5, ?_, a5, w5⟩
    simp only [readItem, readOfflen, e1, e2, e3, Bool.false_eq_true, if_false, e4]
    simp [e5]

theorem readItems_sound (r : BitReader) (mtf code : List Nat) (n : Nat) (hr : r.WF) {v : List Nat}
    {r' : BitReader} : readItems r mtf code n = some (v, r') → v.length = n →
    ∃ bits, r.abs = bits ++ r'.abs ∧ r'.WF ∧ PxaStream n mtf code bits v := by
  fun_induction readItems r mtf code n with
  | case1 => simp
  | case2 r mtf code hlt r1 m1 c1 h ih =>
    intro h2 hv
    obtain ⟨b1, a1, w1, i1⟩ := readItem_sound hr h
    obtain ⟨b2, a2, w2, i2⟩ := ih w1 h2 hv
    exact ⟨b1 ++ b2, by rw [a1, a2, List.append_assoc], w2, .item hlt i1 i2⟩
  | case3 r mtf code hlt =>
    intro h2 hv
    simp only [Option.some.injEq, Prod.mk.injEq] at h2
    obtain ⟨rfl, rfl⟩ := h2
    exact ⟨[], rfl, hr, .done hv⟩

theorem readItems_complete {n : Nat} {mtf code v : List Nat} {bits : List Bool}
    (h : PxaStream n mtf code bits v) : ∀ {r : BitReader} (_ : r.WF) {rest : List Bool},
    r.abs = bits ++ rest → v.length = n ∧
      ∃ r', readItems r mtf code n = some (v, r') ∧ r'.abs = rest ∧ r'.WF := by
  induction h with
  | done h =>
    intro r hr rest ha
    exact ⟨h, r, by rw [readItems, if_neg (by omega)], by simpa using ha, hr⟩
  | @item mtf text bits mtf' text' bits' code hlt hi hs ih =>
    intro r hr rest ha
    obtain ⟨r1, e1, a1, w1⟩ := readItem_complete hr hi (rest := bits' ++ rest) (by rw [ha]; simp)
    obtain ⟨hv, r2, e2, a2, w2⟩ := ih w1 a1
    refine ⟨hv, r2, ?_, a2, w2⟩
    rw [readItems, if_pos hlt]
    split
    · rename_i h3; rw [e1] at h3; simp at h3
    · rename_i h3; rw [e1] at h3; simp at h3; obtain ⟨rfl, rfl, rfl⟩ := h3; exact e2

theorem readBe16_inv {a b n : Nat} (_ : a < 256) (hb : b < 256) (h : a * 256 + b = n) :
    a = n / 256 ∧ b = n % 256 := by omega

/-- The reader accepts exactly the current layout. -/
theorem uncompressNew_iff {src code rest : List Nat} (hb : ∀ b ∈ src, b < 256) :
    uncompressNew src = some (code, rest) ↔ ∃ b, newHeader ++ src = b ++ rest ∧ IsPxa b code := by
  constructor
  · intro h
    match src, h with
    | [], h => simp [uncompressNew, readBe16] at h
    | [a], h => simp [uncompressNew, readBe16] at h
    | [a, b], h => simp [uncompressNew, readBe16] at h
    | [a, b, c], h => simp [uncompressNew, readBe16] at h
    | a :: b :: c :: d :: s, h =>
      simp only [uncompressNew, readBe16] at h
      split at h
      · simp at h
      · rename_i code' r hr
        split at h
        · rename_i hc
          simp only [Option.some.injEq, Prod.mk.injEq] at h
          obtain ⟨rfl, rfl⟩ := h
          have hs : ∀ b ∈ s, b < 256 := fun x hx => hb x (by simp [hx])
          obtain ⟨u, e, _⟩ := readItems_local _ _ _ _ hr
          have e' : s = u ++ r.src := by simpa [BitReader.init] using e
          obtain ⟨bits, ha, hw, hst⟩ := readItems_sound _ _ _ _ (BitReader.init_wf hs) hr hc.2
          have h1 := readBe16_inv (hb a (by simp)) (hb b (by simp)) hc.2.symm
          have h2 := hc.1
          rw [e'] at h2
          simp only [List.length_cons, List.length_append] at h2
          have h3 := readBe16_inv (n := 8 + u.length) (hb c (by simp)) (hb d (by simp)) (by omega)
          have hau := hb a (by simp)
          have hcu := hb c (by simp)
          refine ⟨newHeader ++ a :: b :: c :: d :: u, by simp [e'], u, bits, fieldBits r.nbits r.bits, ?_, ?_, ?_,
            ?_, ?_, ?_⟩
          · have hl : (newHeader ++ a :: b :: c :: d :: u).length = 8 + u.length := by
              simp [newHeader]; omega
            rw [hl, ← h1.1, ← h1.2, ← h3.1, ← h3.2]; simp [newHeader]
          · have := hb b (by simp); omega
          · have := hb d (by simp)
            simp [newHeader]; omega
          · rw [BitReader.init_abs, e', bytesBits_append] at ha
            unfold BitReader.abs at ha
            rw [← List.append_assoc] at ha
            rw [← bytesBits_eq_bitsOf]
            exact List.append_cancel_right ha
          · simpa using hw.small
          · rw [hc.2]; exact hst
        · simp at h
  · rintro ⟨b, hbe, body, bits, pad, hbb, hl1, hl2, hbits, hpad, hst⟩
    have hbl := congrArg List.length hbb
    simp only [List.length_append, List.length_cons, List.length_nil] at hbl
    generalize hN : b.length = N at *
    rw [hbb] at hbe
    simp only [newHeader, List.cons_append, List.nil_append, List.cons.injEq, true_and] at hbe
    subst hbe
    simp only [uncompressNew, readBe16]
    have hs : ∀ b ∈ body ++ rest, b < 256 := fun x hx => hb x (by simp at hx ⊢; simp [hx])
    have ewf := BitReader.init_wf hs
    obtain ⟨hv, r, er, ar, wr⟩ := readItems_complete hst ewf (rest := pad ++ bytesBits rest)
      (by rw [BitReader.init_abs, bytesBits_append, bytesBits_eq_bitsOf body, hbits, List.append_assoc])
    have e1 : code.length / 256 * 256 + code.length % 256 = code.length := by omega
    rw [e1]
    unfold initMtf
    rw [er]
    obtain ⟨u, e, _⟩ := readItems_local _ _ _ _ er
    have e' : body ++ rest = u ++ r.src := by simpa [BitReader.init] using e
    have hl := congrArg List.length ar
    simp only [BitReader.abs, List.length_append, fieldBits_length, bytesBits_length] at hl
    have hsm := wr.small
    have hsl : r.src.length = rest.length := by omega
    have hsr : r.src = rest := by
      have e2 : (body ++ rest).length - r.src.length = body.length := by simp; omega
      have hu : u.length = body.length := by
        have := congrArg List.length e'
        simp at this; omega
      exact ((List.append_inj e' hu.symm).2).symm
    simp only [hsr]
    rw [if_pos]
    refine ⟨?_, trivial⟩
    simp only [List.length_cons, List.length_append]
    omega

/-! ### The legacy layout -/

theorem oldTable_spec (k : Nat) : legacyChar k = (oldTable[k]?).join := by
  by_cases h : k < 60
  · have : ∀ k < 60, legacyChar k = (oldTable[k]?).join := by decide +kernel
    exact this k h
  · have h1 : oldTable[k]? = none := by
      rw [List.getElem?_eq_none_iff, oldTable_length]; omega
    rw [h1]
    simp only [legacyChar]
    rw [if_neg (by omega), if_neg (by omega), if_neg (by omega), if_neg (by omega), if_neg (by omega)]
    simp
    omega

theorem oldReadLoop_sound (src code : List Nat) {out rest : List Nat} :
    oldReadLoop src code = some (out, rest) →
    ∃ b, src = b ++ 0 :: 0 :: rest ∧ OldStream code b out := by
  fun_induction oldReadLoop src code with
  | case1 => simp
  | case2 => simp
  | case3 code rest' =>
    intro h
    simp only [Option.some.injEq, Prod.mk.injEq] at h
    obtain ⟨rfl, rfl⟩ := h
    exact ⟨[], rfl, .done⟩
  | case4 code ch2 rest' hne ih =>
    intro h
    obtain ⟨b, e, hs⟩ := ih h
    exact ⟨0 :: ch2 :: b, by simp [e], .item (.long ch2 (fun h0 => by subst h0; exact hne rfl)) hs⟩
  | case5 ch rest' code hz hle c hget ih =>
    intro h
    obtain ⟨b, e, hs⟩ := ih h
    exact ⟨ch :: b, by simp [e], .item (.short ch c (by rw [oldTable_spec, hget]; rfl)) hs⟩
  | case6 => simp
  | case7 => simp
  | case8 => simp
  | case9 ch code hz hle ch2 rest' count offset hco code' hcopy ih =>
    intro h
    obtain ⟨b, e, hs⟩ := ih h
    have e1 : count = ch2 / 16 + 2 := by simp [count, Nat.shiftRight_eq_div_pow]
    have e2 : offset = 16 * (ch - 60) + ch2 % 16 := by
      simp only [offset, and_f, Nat.shiftLeft_eq]; omega
    have hcp := copyLoop_sound (by omega) (by omega) hcopy
    rw [e1, e2] at hcp
    have key := OldItem.copy (text := code) (ch - 60) (ch2 / 16) (ch2 % 16) code' (by omega) (by omega) hcp
    rw [show 60 + (ch - 60) = ch by omega, show 16 * (ch2 / 16) + ch2 % 16 = ch2 by omega] at key
    exact ⟨ch :: ch2 :: b, by simp [e], .item key hs⟩
  | case10 => simp

theorem oldReadLoop_complete {code b out : List Nat} (h : OldStream code b out) (rest : List Nat) :
    oldReadLoop (b ++ 0 :: 0 :: rest) code = some (out, rest) := by
  induction h with
  | done => simp [oldReadLoop]
  | item hi hs ih =>
    rw [List.append_assoc]
    cases hi with
    | short k c h =>
      have h0 : k ≠ 0 := by rintro rfl; simp [legacyChar] at h
      have hk : k < 60 := by
        rcases Nat.lt_or_ge k 60 with h1 | h1
        · exact h1
        · rw [oldTable_spec, List.getElem?_eq_none_iff.mpr (by rw [oldTable_length]; omega)] at h
          simp at h
      rw [oldTable_spec] at h
      have hg : oldTable[k]? = some (some c) := by
        cases hx : oldTable[k]? with
        | none => rw [hx] at h; simp at h
        | some x => rw [hx] at h; simp at h; rw [h]
      simp only [List.cons_append, List.nil_append]
      rw [oldReadLoop_lit h0 (by omega) hg, ih]
    | long c h =>
      simp only [List.cons_append, List.nil_append]
      rw [oldReadLoop_zero_ne h, ih]
    | copy hi count lo _ hlo hc ht =>
      simp only [List.cons_append, List.nil_append]
      have f1 : (16 * count + lo) >>> 4 + 2 = count + 2 := by rw [Nat.shiftRight_eq_div_pow]; omega
      have f2 : ((60 + hi - 0x3c) <<< 4) + ((16 * count + lo) &&& 0xf) = 16 * hi + lo := by
        rw [Nat.shiftLeft_eq, and_f]; omega
      rw [oldReadLoop_mat (by omega) _ _ _ (by rw [f1, f2]; exact hc) (by rw [f1, f2]; exact copyLoop_complete ht), ih]

end Verif
