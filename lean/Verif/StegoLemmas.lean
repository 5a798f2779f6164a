import Verif.Spec.Stego
import Verif.CodeFormatLemmas
import Verif.Props.Ptron
import Verif.Props.Rom
/-!
Facts about the pixel arithmetic and the two loops.
-/
namespace Verif.Stego
open Verif.StegoSpec Verif.CodeFormat

theorem and3 (v : Nat) : v &&& 3 = v % 4 := Nat.and_two_pow_sub_one_eq_mod v 2
theorem and7 (v : Nat) : v &&& 7 = v % 8 := Nat.and_two_pow_sub_one_eq_mod v 3

theorem put2 (v w : Nat) : clear2 v ||| (w &&& 3) = v / 4 * 4 + w % 4 := by
  rw [and3, clear2, ← Nat.shiftLeft_add_eq_or_of_lt (by omega), Nat.shiftLeft_eq, Nat.shiftRight_eq_div_pow]

theorem put3 (v w : Nat) : clear3 v ||| (w &&& 7) = v / 8 * 8 + w % 8 := by
  rw [and7, clear3, ← Nat.shiftLeft_add_eq_or_of_lt (by omega), Nat.shiftLeft_eq, Nat.shiftRight_eq_div_pow]

theorem clear2_eq (v : Nat) : clear2 v = v / 4 * 4 := by
  rw [clear2, Nat.shiftLeft_eq, Nat.shiftRight_eq_div_pow]

theorem clear3_eq (v : Nat) : clear3 v = v / 8 * 8 := by
  rw [clear3, Nat.shiftLeft_eq, Nat.shiftRight_eq_div_pow]

theorem seekByte_eq (p : Px) : seekByte p = byteIn p := by
  unfold seekByte byteIn
  simp only [and3, Nat.shiftLeft_zero]
  rw [or_shift_eq_add _ (k := 2) (by omega), or_shift_eq_add _ (k := 4) (by omega), or_shift_eq_add _ (k := 6) (by omega)]
  omega

theorem seekWord_eq (p : Px) : seekWord p = wordIn p := by
  unfold seekWord wordIn
  simp only [and3, and7]
  rw [or_shift_eq_add _ (k := 3) (by omega), or_shift_eq_add _ (k := 6) (by omega), or_shift_eq_add _ (k := 9) (by omega)]
  omega

theorem byteIn_lt (p : Px) : byteIn p < 256 := by unfold byteIn; omega
theorem wordIn_lt (p : Px) : wordIn p < 2 ^ 11 := by unfold wordIn; omega

theorem byteIn_hideByte (p : Px) (byte : Nat) (h : byte < 256) : byteIn (hideByte p byte) = byte := by
  unfold byteIn hideByte
  simp only [put2, Nat.shiftRight_eq_div_pow]
  omega

theorem same2_hideByte (p : Px) (byte : Nat) : Same2 (hideByte p byte) p := by
  unfold Same2 hideByte
  simp only [put2]
  omega

theorem wordIn_hideWord (p : Px) (w : Nat) (h : w < 2 ^ 11) : wordIn (hideWord p w) = w := by
  unfold wordIn hideWord
  simp only [put2, put3, Nat.shiftRight_eq_div_pow]
  omega

theorem same3_hideWord (p : Px) (w : Nat) : Same3 (hideWord p w) p := by
  unfold Same3 hideWord
  simp only [put2, put3]
  omega

/-- What the PICO-8 loop gives. -/
theorem hide_eq (ps : List Px) (out : List Nat) :
    hide ps out = if ps.length ≤ out.length then some (ps.zipWith hideByte out) else none := by
  induction ps generalizing out with
  | nil => simp [hide]
  | cons p ps ih =>
    cases out with
    | nil => simp [hide]
    | cons b out =>
      simp only [hide, ih, List.length_cons, Nat.add_le_add_iff_right, List.zipWith_cons_cons]
      split <;> simp

theorem seek_zipWith {ps : List Px} {out : List Nat} (hl : ps.length ≤ out.length) (hb : ∀ c ∈ out, c < 256) :
    seek (ps.zipWith hideByte out) = out.take ps.length := by
  induction ps generalizing out with
  | nil => simp [seek]
  | cons p ps ih =>
    cases out with
    | nil => simp at hl
    | cons b out =>
      have h := ih (out := out) (by simpa using hl) (fun c hc => hb c (by simp [hc]))
      simp only [seek, List.zipWith_cons_cons, List.map_cons, List.length_cons, List.take_succ_cons] at h ⊢
      rw [h, seekByte_eq, byteIn_hideByte p b (hb b (by simp))]

theorem look_zipWith (ps : List Px) (out : List Nat) (hl : ps.length ≤ out.length) :
    Look Same2 (ps.zipWith hideByte out) ps := by
  refine ⟨by simp; omega, fun i p q hp hq => ?_⟩
  rw [List.getElem?_zipWith, hq] at hp
  cases h : out[i]? with
  | none => simp [h] at hp
  | some b => simp [h] at hp; subst hp; exact same2_hideByte q b

/-! ### Picotron -/

theorem replicate_bits (n : Nat) : fieldBits n 0 = List.replicate n false := by
  rw [fieldBits_eq_testBit]
  apply List.ext_getElem <;> simp

theorem bytesBits_zeros (n : Nat) : bytesBits (List.replicate n 0) = List.replicate (8 * n) false := by
  induction n with
  | zero => simp [bytesBits]
  | succ n ih =>
    rw [List.replicate_succ, bytesBits, ih, replicate_bits, List.replicate_append_replicate]
    congr 1; omega

/-- The loop: the words written into the pixels are the bits still to be read, followed by zeros. -/
theorem hide64_spec {data : List Nat} (ps : List Px) (br : BitReader) (hwf : br.WF)
    (hpre : ∃ pre, pre ++ br.abs = bytesBits (data ++ List.replicate 4 0)) :
    ∃ ws, hide64 (data.length + 4) (data.length + 2) ps br = some (ps.zipWith hideWord ws) ∧ ws.length = ps.length ∧
      (∀ w ∈ ws, w < 2 ^ 11) ∧
      (ws.flatMap (fieldBits 11)) = (br.abs ++ List.replicate (11 * ps.length) false).take (11 * ps.length) := by
  induction ps generalizing br with
  | nil => exact ⟨[], by simp [hide64]⟩
  | cons p ps ih =>
    obtain ⟨pre, hp⟩ := hpre
    have hlen : pre.length + br.avail = 8 * data.length + 32 := by
      have := congrArg List.length hp
      simp [BitReader.abs_length] at this
      omega
    unfold BitReader.avail at hlen
    by_cases hpos : data.length + 4 - br.src.length < data.length + 2
    · have hav : 11 ≤ br.abs.length := by rw [BitReader.abs_length, BitReader.avail]; omega
      have hr := BitReader.readBits_complete hwf (f := br.abs.take 11) (rest := br.abs.drop 11) (by simp)
      obtain ⟨r', h1, h3, h2⟩ := hr
      have h11 : (br.abs.take 11).length = 11 := by simp; omega
      rw [h11] at h1
      obtain ⟨ws, e1, e2, e3, e4⟩ := ih r' h2 ⟨pre ++ br.abs.take 11, by rw [h3, ← hp]; simp⟩
      refine ⟨val (br.abs.take 11) :: ws, ?_, by simp [e2], ?_, ?_⟩
      · simp only [hide64, if_pos hpos, h1, e1]; simp
      · have := val_lt (br.abs.take 11); rw [h11] at this
        simpa using ⟨this, e3⟩
      · have hv := fieldBits_val (br.abs.take 11); rw [h11] at hv
        rw [List.flatMap_cons, hv, e4, h3]
        rw [List.length_cons, show 11 * (ps.length + 1) = 11 + 11 * ps.length from by omega]
        conv => rhs; rw [← List.take_append_drop 11 br.abs, List.append_assoc]
        conv => rhs; rw [List.take_append, h11, Nat.add_sub_cancel_left, List.take_of_length_le (by simp; omega)]
        congr 1
        rw [List.take_append, List.take_append]
        congr 1
        simp only [List.take_replicate]
        congr 1; omega
    · have hz : br.abs = List.replicate br.abs.length false := by
        have hs : br.abs.length ≤ 32 := by rw [BitReader.abs_length, BitReader.avail]; have := hwf.small; omega
        have h1 : br.abs = (bytesBits (data ++ List.replicate 4 0)).drop pre.length := by rw [← hp]; simp
        have h2 : bytesBits (data ++ List.replicate 4 0) = bytesBits data ++ List.replicate 32 false := by
          rw [bytesBits_append, bytesBits_zeros]
        have h3 : pre.length ≥ (bytesBits data).length := by
          rw [BitReader.abs_length, BitReader.avail] at hs; simp; omega
        rw [h2, List.drop_append, List.drop_eq_nil_of_le h3, List.nil_append, List.drop_replicate] at h1
        rw [h1]; simp
      obtain ⟨ws, e1, e2, e3, e4⟩ := ih br hwf ⟨pre, hp⟩
      refine ⟨0 :: ws, ?_, by simp [e2], ?_, ?_⟩
      · simp only [hide64, if_neg hpos, e1]; simp
      · simpa using e3
      · rw [List.flatMap_cons, e4, hz, replicate_bits]
        simp only [List.replicate_append_replicate, List.take_replicate]
        congr 1; simp; omega

/-- The words read from the pixels, as the bits that reach the writer. -/
theorem seek64_abs (image : List Px) (w : BitWriter) (hw : w.WF) :
    (image.foldl (fun w p => w.writeBits 11 (seekWord p)) w).WF ∧
    (image.foldl (fun w p => w.writeBits 11 (seekWord p)) w).abs =
      w.abs ++ image.flatMap fun p => fieldBits 11 (wordIn p) := by
  induction image generalizing w with
  | nil => simpa using hw
  | cons p ps ih =>
    obtain ⟨h1, h2⟩ := BitWriter.writeBits_spec hw (n := 11) (v := seekWord p) (by rw [seekWord_eq]; exact wordIn_lt p)
    obtain ⟨i1, i2⟩ := ih _ h2
    refine ⟨i1, ?_⟩
    rw [List.foldl_cons, i2, h1, List.flatMap_cons, seekWord_eq, List.append_assoc]

/-- Without a partial byte at the end, all of it has been written. -/
theorem seek64_bits {image : List Px} (h8 : 8 ∣ 11 * image.length) :
    bytesBits (seek64 image) = (image.flatMap fun p => fieldBits 11 (wordIn p)) ∧ (∀ c ∈ seek64 image, c < 256) := by
  obtain ⟨h1, h2⟩ := seek64_abs image _ BitWriter.init_wf
  have hl : ∀ l : List Px, (l.flatMap fun p => fieldBits 11 (wordIn p)).length = 11 * l.length := by
    intro l
    induction l with
    | nil => rfl
    | cons p ps ih => rw [List.flatMap_cons, List.length_append, ih, fieldBits_length, List.length_cons]; omega
  unfold seek64
  generalize image.foldl (fun w p => w.writeBits 11 (seekWord p)) BitWriter.init = w at h1 h2
  have h3 := congrArg List.length h2
  simp only [BitWriter.abs, List.length_append, bytesBits_length, fieldBits_length, BitWriter.init, hl] at h3
  refine ⟨?_, fun c hc => h1.bytes c hc⟩
  have h4 := h1.small
  have h5 : w.nbits = 0 := by simp at h3; omega
  simpa [fieldBits, BitWriter.abs, bytesBits, h5, BitWriter.init] using h2

theorem bytesBits_inj {a b : List Nat} (ha : ∀ c ∈ a, c < 256) (hb : ∀ c ∈ b, c < 256) (h : bytesBits a = bytesBits b) :
    a = b := by
  induction a generalizing b with
  | nil =>
    have := congrArg List.length h
    cases b with
    | nil => rfl
    | cons => simp [bytesBits] at this; omega
  | cons x a ih =>
    cases b with
    | nil => have := congrArg List.length h; simp [bytesBits] at this
    | cons y b =>
      simp only [bytesBits] at h
      obtain ⟨h1, h2⟩ := List.append_inj h (by simp)
      rw [fieldBits_inj (ha x (by simp)) (hb y (by simp)) h1,
        ih (fun c hc => ha c (by simp [hc])) (fun c hc => hb c (by simp [hc])) h2]

theorem zipWith_words {ps : List Px} {ws : List Nat} (hl : ws.length = ps.length) (hw : ∀ w ∈ ws, w < 2 ^ 11) :
    ((ps.zipWith hideWord ws).flatMap fun p => fieldBits 11 (wordIn p)) = ws.flatMap (fieldBits 11) := by
  induction ps generalizing ws with
  | nil => cases ws <;> simp at hl ⊢
  | cons p ps ih =>
    cases ws with
    | nil => simp at hl
    | cons w ws =>
      simp only [List.zipWith_cons_cons, List.flatMap_cons]
      rw [ih (by simpa using hl) (fun w hw' => hw w (by simp [hw'])), wordIn_hideWord p w (hw w (by simp))]

theorem look_words {ps : List Px} {ws : List Nat} (hl : ws.length = ps.length) : Look Same3 (ps.zipWith hideWord ws) ps := by
  refine ⟨by simp; omega, fun i p q hp hq => ?_⟩
  rw [List.getElem?_zipWith, hq] at hp
  cases h : ws[i]? with
  | none => simp [h] at hp
  | some b => simp [h] at hp; subst hp; exact same3_hideWord q b

/-- Hiding data with four zeros after it, and reading the pixels. -/
theorem hide64_seek64 {data : List Nat} (hd : ∀ c ∈ data, c < 256) {ps : List Px} (h8 : 8 ∣ 11 * ps.length)
    (hcap : 8 * (data.length + 4) ≤ 11 * ps.length) :
    ∃ image, hide64 (data.length + 4) (data.length + 2) ps (BitReader.init (data ++ List.replicate 4 0)) = some image ∧
      Look Same3 image ps ∧ seek64 image = data ++ List.replicate (11 * ps.length / 8 - data.length) 0 := by
  have hd' : ∀ c ∈ data ++ List.replicate 4 0, c < 256 := by
    intro c hc
    simp only [List.mem_append, List.mem_replicate] at hc
    rcases hc with hc | hc
    · exact hd c hc
    · omega
  obtain ⟨ws, e1, e2, e3, e4⟩ := hide64_spec (data := data) ps _ (BitReader.init_wf hd') ⟨[], by simp⟩
  refine ⟨_, e1, look_words e2, ?_⟩
  have hl : (ps.zipWith hideWord ws).length = ps.length := by simp [e2]
  obtain ⟨s1, s2⟩ := seek64_bits (image := ps.zipWith hideWord ws) (by rwa [hl])
  apply bytesBits_inj s2
  · intro c hc
    simp only [List.mem_append, List.mem_replicate] at hc
    rcases hc with hc | hc
    · exact hd c hc
    · omega
  · rw [s1, zipWith_words e2 e3, e4, BitReader.init_abs, bytesBits_append, bytesBits_append, bytesBits_zeros,
      bytesBits_zeros, List.append_assoc, List.replicate_append_replicate, List.take_append,
      List.take_of_length_le (by simp; omega), List.take_replicate]
    congr 2
    simp; omega

end Verif.Stego
