import Verif.CodeFormatLemmas
import Verif.Props.Lz77
/-! C55: code is stored in exactly PICO-8's layouts. -/
namespace Verif
open CodeFormat

/-- **C55.** On bytes that start with the signature of the current layout, the reader returns a text exactly when some
initial part of the bytes is that text in the current layout; nothing else is accepted, and nothing that is in the layout
is rejected. -/
theorem C55_pxa_reader {src : List Nat} (hb : ∀ b ∈ src, b < 256) (hs : src.take 4 = [0x00, 0x70, 0x78, 0x61])
    (code : List Nat) :
    uncompressCode src = some code ↔ ∃ b rest, src = b ++ rest ∧ IsPxa b code := by
  have e : newHeader ++ src.drop 4 = src := by
    conv => rhs; rw [← List.take_append_drop 4 src, hs]
    rfl
  have hd : ∀ b ∈ src.drop 4, b < 256 := fun x hx => hb x (List.mem_of_mem_drop hx)
  unfold uncompressCode
  simp only [show src.take 4 = newHeader from hs, if_true, Option.map_eq_some_iff]
  constructor
  · rintro ⟨⟨c, rest⟩, h, rfl⟩
    obtain ⟨b, h1, h2⟩ := (uncompressNew_iff hd).mp h
    exact ⟨b, rest, by rw [← e, h1], h2⟩
  · rintro ⟨b, rest, h1, h2⟩
    exact ⟨(code, rest), (uncompressNew_iff hd).mpr ⟨b, by rw [e, h1], h2⟩, rfl⟩

/-- **C55.** The layout is unambiguous: bytes are the layout of at most one text. -/
theorem C55_pxa_unique {b : List Nat} (hb : ∀ x ∈ b, x < 256) {c1 c2 : List Nat} (h1 : IsPxa b c1) (h2 : IsPxa b c2) :
    c1 = c2 := by
  have hs : b.take 4 = [0x00, 0x70, 0x78, 0x61] := by
    obtain ⟨body, _, _, h, _⟩ := h1
    rw [h]; rfl
  have e1 := (C55_pxa_reader hb hs c1).mpr ⟨b, [], by simp, h1⟩
  have e2 := (C55_pxa_reader hb hs c2).mpr ⟨b, [], by simp, h2⟩
  rw [e1] at e2
  exact Option.some.inj e2

theorem compressNew_isPxa {code : List Nat} (hcode : ∀ c ∈ code, c < 256) {items : List Item}
    (hok : ∀ it ∈ items, it.PxaOk) (hcov : Covers code 0 items) (hlen : code.length < 0x10000) {fail : Bool}
    {b : List Nat} (hb : compressNew code.length items fail = some b) (hsize : b.length < 0x10000) : IsPxa b code := by
  obtain ⟨body, rfl, hl, hbyte, h⟩ := compressNew_eq hcode hok hcov hlen hb hsize
  have h0 := h []
  rw [List.append_nil] at h0
  obtain ⟨b', e, h3⟩ := (uncompressNew_iff (by
    intro x hx
    simp only [List.mem_append] at hx
    rcases hx with (hx | hx) | hx
    · simp [be16] at hx; omega
    · simp [be16] at hx; omega
    · exact hbyte x hx)).mp h0
  rw [List.append_nil] at e
  rw [e]; exact h3

/-- **C55.** What the compressor writes for any cover of the code within the limits is the code in the current layout. -/
theorem C55_pxa_writer {code : List Nat} (hcode : ∀ c ∈ code, c < 256) {items : List Item}
    (hok : ∀ it ∈ items, it.PxaOk) (hcov : Covers code 0 items)
    {b : List Nat} (hb : compressNew code.length items true = some b) : IsPxa b code := by
  have hl : code.length < 0x10000 := by
    unfold compressNew at hb
    split at hb
    · simp at hb
    · simp only [Bool.true_and] at hb
      split at hb
      · simp at hb
      · rename_i h; simp at h; omega
  have := (C01_pxa_roundtrip_checked hcode hok hcov hb []).2
  exact compressNew_isPxa hcode hok hcov hl hb (by omega)

/-- **C55.** The whole compressor, fast mode: its output is the code in the current layout. -/
theorem C55_compress_fast {code : List Nat} (hcode : ∀ c ∈ code, c < 256) {b : List Nat}
    (hb : compressFull true true false true code = some b) : IsPxa b code := by
  obtain ⟨items, h1, h2, h3⟩ := pxaItems_fast (code := code)
  simp only [compressFull, Bool.or_true, if_true, h1] at hb
  exact C55_pxa_writer hcode h3 h2 hb

/-- **C55.** The same for the legacy layout: two zero bytes must follow the items, and the stored length may be one too
large. -/
theorem C55_old_reader {src : List Nat} (hb : ∀ b ∈ src, b < 256) (hs : src.take 4 = [0x3a, 0x63, 0x3a, 0x00])
    (code : List Nat) :
    uncompressCode src = some code ↔ ∃ n body rest,
      src = [0x3a, 0x63, 0x3a, 0x00, n / 256, n % 256, 0, 0] ++ body ++ 0 :: 0 :: rest ∧
      (n = code.length ∨ n = code.length + 1) ∧ OldStream [] body code := by
  unfold uncompressCode
  simp only [show src.take 4 = oldHeader from hs, if_neg (show oldHeader ≠ newHeader by decide), if_true,
    Option.map_eq_some_iff]
  constructor
  · rintro ⟨⟨c, rest⟩, h, rfl⟩
    match src, hb, hs, h with
    | x0 :: x1 :: x2 :: x3 :: a :: b :: c' :: d :: s, hb, hs, h =>
      simp only [List.take_succ_cons, List.take_zero, List.cons.injEq, and_true] at hs
      obtain ⟨rfl, rfl, rfl, rfl⟩ := hs
      simp only [List.drop_succ_cons, List.drop_zero, uncompressOld, readBe16] at h
      split at h
      · rename_i src2 h0
        simp only [Option.some.injEq, Prod.mk.injEq] at h0
        obtain ⟨h0, rfl⟩ := h0
        have hc0 : c' = 0 := by omega
        have hd0 : d = 0 := by omega
        subst hc0 hd0
        split at h
        · simp at h
        · rename_i code' rest' hl
          split at h
          · rename_i hlen
            simp only [Option.some.injEq, Prod.mk.injEq] at h
            obtain ⟨rfl, rfl⟩ := h
            obtain ⟨body, e, hst⟩ := oldReadLoop_sound _ _ hl
            obtain ⟨i1, i2⟩ := readBe16_inv (hb a (by simp)) (hb b (by simp)) rfl
            refine ⟨a * 256 + b, body, rest', ?_, by rcases hlen with h | h <;> simp [h], hst⟩
            rw [← i1, ← i2, e]; simp
          · simp at h
      · simp at h
    | [_, _, _, _], _, _, h => simp [uncompressOld, readBe16] at h
    | [_, _, _, _, _], _, _, h => simp [uncompressOld, readBe16] at h
    | [_, _, _, _, _, _], _, _, h => simp [uncompressOld, readBe16] at h
    | [_, _, _, _, _, _, _], _, _, h => simp [uncompressOld, readBe16] at h
  · rintro ⟨n, body, rest, rfl, hn, hst⟩
    refine ⟨(code, rest), ?_, rfl⟩
    simp only [List.cons_append, List.nil_append, List.drop_succ_cons, List.drop_zero, uncompressOld, readBe16]
    simp only [oldReadLoop_complete hst]
    rw [if_pos]
    have : n / 256 * 256 + n % 256 = n := by omega
    rcases hn with h | h <;> omega

/-- **C55.** What the compressor writes for any cover within the legacy limits is the code in the legacy layout. -/
theorem C55_old_writer {code : List Nat} (hcode : ∀ c ∈ code, c < 256) {items : List Item}
    (hok : ∀ it ∈ items, it.OldOk) (hcov : Covers code 0 items) (hlen : code.length < 0x10000) {fail : Bool}
    {b : List Nat} (hb : compressOld code.length items fail = some b) : IsOld b code := by
  obtain ⟨body, e, _, h⟩ := oldWriteItems_read hcode hok hcov
  unfold compressOld at hb
  rw [e] at hb
  simp only at hb
  split at hb
  · simp at hb
  · simp only [Option.some.injEq] at hb
    rw [Nat.mod_eq_of_lt hlen] at hb
    have h2 := h [0, 0]
    simp only [List.take_zero] at h2
    rw [show oldReadLoop [0, 0] code = some (code, []) by simp [oldReadLoop]] at h2
    obtain ⟨b', e1, hst⟩ := oldReadLoop_sound _ _ h2
    have e2 : body = b' := List.append_cancel_right e1
    subst e2
    refine ⟨body, ?_, hlen, hst⟩
    rw [← hb]
    have : code.length / 256 % 256 = code.length / 256 := Nat.mod_eq_of_lt (by omega)
    simp [oldHeader, be16, this]

theorem zbytesEof_iff (src : List Nat) (m : Nat) (code : List Nat) :
    zbytesEof m src = code ↔ 0 ∉ code ∧ code <+: src ∧ code.length ≤ m ∧
      (code.length = m ∨ code = src ∨ src[code.length]? = some 0) := by
  unfold zbytesEof
  induction src generalizing code m with
  | nil =>
    constructor
    · intro h; simp at h; subst h; simp
    · rintro ⟨_, h, _⟩
      simpa using (List.prefix_nil.mp h).symm
  | cons x src ih =>
    cases m with
    | zero =>
      constructor
      · intro h; simp at h; subst h; simp
      · rintro ⟨_, _, h, _⟩
        simpa using (List.length_eq_zero_iff.mp (by omega)).symm
    | succ m =>
      by_cases hx : x = 0
      · subst hx
        constructor
        · intro h; simp at h; subst h; simp
        · rintro ⟨h0, hp, _⟩
          cases code with
          | nil => simp
          | cons y code =>
            have := (List.cons_prefix_cons.mp hp).1
            simp [this] at h0
      · have e : ((x :: src).take (m + 1)).takeWhile (· != 0) = x :: (src.take m).takeWhile (· != 0) := by
          simp [hx]
        rw [e]
        cases code with
        | nil => simp [hx]
        | cons y code =>
          rw [List.cons.injEq, ih m code]
          simp only [List.mem_cons, not_or, List.cons_prefix_cons, List.length_cons, List.cons.injEq,
            List.getElem?_cons_succ, Nat.add_le_add_iff_right, Nat.add_right_cancel_iff]
          constructor
          · rintro ⟨rfl, h0, hp, hl, h⟩
            exact ⟨⟨fun h => hx h.symm, h0⟩, ⟨rfl, hp⟩, hl, by rcases h with h | h | h <;> simp [h]⟩
          · rintro ⟨⟨_, h0⟩, ⟨rfl, hp⟩, hl, h⟩
            exact ⟨rfl, h0, hp, hl, by rcases h with h | h | h <;> simp [h]⟩

/-- **C55.** Bytes without either signature are plain text: the text is everything before the first zero byte, at most the
size of the area. -/
theorem C55_raw_reader {src : List Nat} (h1 : src.take 4 ≠ [0x00, 0x70, 0x78, 0x61])
    (h2 : src.take 4 ≠ [0x3a, 0x63, 0x3a, 0x00]) (code : List Nat) :
    uncompressCode src = some code ↔ 0 ∉ code ∧ code <+: src ∧ code.length ≤ 15616 ∧
      (code.length = 15616 ∨ code = src ∨ src[code.length]? = some 0) := by
  unfold uncompressCode
  simp only [if_neg (show src.take 4 ≠ newHeader from h1), if_neg (show src.take 4 ≠ oldHeader from h2),
    Option.some.injEq]
  exact zbytesEof_iff src 15616 code

/-- **C55.** Which layout is used: text of fewer than 15616 characters is stored as it is unless compression is forced;
anything else starts with a signature. -/
theorem C55_choice (force fail old fast : Bool) (code b : List Nat) (h : compressFull force fail old fast code = some b) :
    if code.length < 15616 ∧ force = false then b = code
    else b.take 4 = if old then [0x3a, 0x63, 0x3a, 0x00] else [0x00, 0x70, 0x78, 0x61] := by
  unfold compressFull at h
  split at h
  · rename_i hc
    rw [if_neg (by
      simp at hc; rintro ⟨h1, h2⟩; rcases hc with hc | hc
      · omega
      · simp [h2] at hc)]
    split at h
    · rename_i ho
      split at h
      · simp at h
      · unfold compressOld at h
        split at h
        · simp at h
        · simp only at h
          split at h
          · simp at h
          · simp only [Option.some.injEq] at h
            subst h
            simp [oldHeader, ho]
    · rename_i ho
      split at h
      · simp at h
      · unfold compressNew at h
        split at h
        · simp at h
        · simp only at h
          split at h
          · simp at h
          · simp only [Option.some.injEq] at h
            subst h
            simp [newHeader, ho]
  · rename_i hc
    simp at hc
    rw [if_pos ⟨by omega, by simp [hc.2]⟩]
    unfold encodeP8 at h
    split at h
    · simpa using h.symm
    · simp at h

/-! Concrete cases. -/

theorem demo_compressed : compressFull true true false true [97, 98, 97, 98, 97, 98, 99] =
    some [0, 112, 120, 97, 0, 7, 0, 14, 23, 159, 236, 144, 155, 1] := by decide +kernel

example : IsPxa [0, 112, 120, 97, 0, 7, 0, 14, 23, 159, 236, 144, 155, 1] [97, 98, 97, 98, 97, 98, 99] :=
  C55_compress_fast (by decide) demo_compressed

/-- A copy in the legacy layout: `abab` and one character outside the table. -/
example : IsOld [58, 99, 58, 0, 0, 5, 0, 0, 13, 14, 60, 2, 0, 65] [97, 98, 97, 98, 65] :=
  ⟨_, rfl, by decide, .item (b := [13]) (.short 13 97 (by decide)) (.item (b := [14]) (.short 14 98 (by decide))
    (.item (b := [60, 2]) (.copy 0 0 2 _ (by decide) (by decide) ⟨by decide, by decide, ⟨[97, 98], rfl⟩, rfl, by
      intro k h1 h2
      simp at h1 h2
      have : k = 2 ∨ k = 3 := by omega
      rcases this with rfl | rfl <;> rfl⟩) (.item (b := [0, 65]) (.long 65 (by decide)) .done)))⟩

example : compressFull true true true false [97, 98, 97, 98, 97, 98, 99, 65] =
    some [58, 99, 58, 0, 0, 8, 0, 0, 13, 14, 13, 14, 13, 14, 15, 0, 65] := by decide +kernel

end Verif
