import Verif.PxuLemmas
/-! # C38: compressed userdata round-trips -/
namespace Verif.Pxu

/-- The properties of the writer's header, for each supported type. -/
theorem header_fields {type runtime : Nat} {name : List Nat} {n compression bits : Nat}
    (h : writeType name runtime = some (type, n, compression, bits)) (hh long : Bool) :
    let flags := type ||| (compression <<< 12) ||| (if hh then 0x40 else 0) ||| (if long then 0x800 else 0)
    flags < 256 ^ 2 ∧ flags &&& 0xf84f = flags ∧ flags &&& 0xf = type ∧ flags >>> 12 = compression ∧
      (flags &&& 0x800 != 0) = long ∧ (flags &&& 0x40 != 0) = hh ∧ typeBytes type = some n ∧ typeName type = name ∧
      0 < n ∧ (compression = 2 ∨ compression = 8) ∧ bits ≤ 8 := by
  unfold writeType at h
  split at h
  · rename_i hn
    simp only [Option.some.injEq, Prod.mk.injEq] at h
    obtain ⟨rfl, rfl, rfl, rfl⟩ := h
    cases hh <;> cases long <;> simp [typeBytes, typeName, hn]
  · split at h
    · rename_i hn
      simp only [Option.some.injEq, Prod.mk.injEq] at h
      obtain ⟨rfl, rfl, rfl, rfl⟩ := h
      cases hh <;> cases long <;> simp [typeBytes, typeName, hn.1]
    · simp at h

/-- The types that `write_pxu` compresses, with the number of bytes of an element. -/
def Supported (name : List Nat) (runtime n : Nat) : Prop :=
  (name = "u8".toList.map Char.toNat ∧ n = 1) ∨ (name = "i16".toList.map Char.toNat ∧ n = 2 ∧ 21 ≤ runtime)

theorem supported_iff {name : List Nat} {runtime n : Nat} :
    Supported name runtime n ↔ ∃ type compression bits, writeType name runtime = some (type, n, compression, bits) := by
  unfold Supported writeType
  rw [show "u8".toList.map Char.toNat = nameU8 from rfl, show "i16".toList.map Char.toNat = nameI16 from rfl]
  have hne : nameU8 ≠ nameI16 := by decide
  constructor
  · rintro (⟨rfl, rfl⟩ | ⟨rfl, rfl, h⟩)
    · exact ⟨_, _, _, if_pos rfl⟩
    · exact ⟨_, _, _, by rw [if_neg hne.symm, if_pos ⟨rfl, h⟩]⟩
  · rintro ⟨t, c, b, h⟩
    split at h
    · rename_i hn; simp at h; exact .inl ⟨hn, h.2.1.symm⟩
    · split at h
      · rename_i hn; simp at h; exact .inr ⟨hn.1, h.2.1.symm, hn.2⟩
      · simp at h

/-- C38, both methods (indexed runs for `u8`, plain runs for `i16`): userdata whose text has exactly the lower case
hexadecimal digits of its `width * height` elements (`width` of them without height) is written as bytes, and these,
followed by anything, are read back as the same userdata, leaving what follows.  Runs may have any length, values may
occur in any order. -/
theorem C38_roundtrip (ud : UD) (runtime n w h : Nat) (hs : Supported ud.type runtime n)
    (hw : ud.width = w) (hh : ud.height = h) (hw32 : w < 2 ^ 32) (hh32 : h < 2 ^ 32)
    (hlen : ud.data.length = 2 * n * (w * if h = 0 then 1 else h))
    (hhex : ∀ c ∈ ud.data, (48 ≤ c ∧ c ≤ 57) ∨ (97 ≤ c ∧ c ≤ 102)) :
    ∃ bytes, writePxu ud runtime = some (some bytes) ∧ (∀ x ∈ bytes, x < 256) ∧
      ∀ tail, readPxu (bytes ++ tail) = some (ud, tail) := by
  obtain ⟨type, compression, bits, ht⟩ := supported_iff.mp hs
  obtain ⟨l, hl, hlt, hl2⟩ := hexText_surj (n := n) _ ud.data hlen hhex
  obtain ⟨name, width, height, data⟩ := ud
  simp only at hs hw hh hlen hhex ht hl2
  subst hw hh hl2
  have H := header_fields ht (decide ((h : Int) ≠ 0)) (decide (0x100 ≤ (w : Int) ∨ 0x100 ≤ (h : Int)))
  simp only [decide_eq_true_eq] at H
  generalize hF : (type ||| compression <<< 12 ||| (if (h : Int) ≠ 0 then 0x40 else 0) |||
    (if 0x100 ≤ (w : Int) ∨ 0x100 ≤ (h : Int) then 0x800 else 0)) = flags at H
  obtain ⟨F1, F2, F3, F4, F5, F6, F7, F8, F9, F10, F11⟩ := H
  obtain ⟨runs, r1, r2, r3⟩ := runs_roundtrip (n := n) F11 l.length l (Nat.le_refl _) hlt
    (List.range (2 ^ bits - 1)) (List.range (2 ^ bits - 1)) (by simp) (List.Perm.refl _)
  generalize hsz : (if 0x100 ≤ (w : Int) ∨ 0x100 ≤ (h : Int) then 4 else 1) = sz
  have hwsz : w < 256 ^ sz ∧ h < 256 ^ sz := by
    rw [← hsz]
    split
    · exact ⟨by simpa using hw32, by simpa using hh32⟩
    · omega
  obtain ⟨fb, f1, f2, f3, f4⟩ := elem_spec F1
  obtain ⟨wb, w1, w2, w3, w4⟩ := elem_spec hwsz.1
  obtain ⟨hb, h1, h2, h3, h4⟩ := elem_spec hwsz.2
  have hnohex : ¬ "hex:".toList.map Char.toNat <+: hexText n l := by
    intro hp
    have := hhex 104 (hp.subset (by decide))
    omega
  have hpe := parseElems_hexText F9 hlt
  have hread : ∀ (hb' : List Nat), hb' = (if h ≠ 0 then hb else []) → ∀ tail,
      readPxu (sig ++ fb ++ wb ++ hb' ++ [bits] ++ runs ++ tail) = some (⟨name, w, h, hexText n l⟩, tail) := by
    intro hb' hhb tail
    have e1 : readBytes 4 false (sig ++ fb ++ wb ++ hb' ++ [bits] ++ runs ++ tail) =
        some (sig, fb ++ (wb ++ (hb' ++ ([bits] ++ (runs ++ tail))))) := by
      simp [readBytes, sig]
    have e2 : readElem 1 ([bits] ++ (runs ++ tail)) = some (bits, runs ++ tail) := by
      simp [readElem, unpackU, leValue]
    have hsize : l.length = w * if h = 0 then 1 else h := hl
    unfold readPxu
    simp only [e1, Option.bind_eq_bind, Option.bind_some, ne_eq, not_true, if_false, f4, F2, F3, F4, F5, F6, F7, F8, readSize,
      decide_eq_true_eq, hsz, w4]
    by_cases h0 : h = 0
    · subst h0
      simp only [if_true, Nat.mul_one] at hsize
      simp only [ne_eq, not_true, if_false] at hhb
      subst hhb
      simp only [Int.natCast_zero, ne_eq, not_true, if_false, Option.bind_some, List.nil_append, e2, if_neg (show ¬ 8 < bits by omega),
        if_neg (show ¬ compression = 1 by omega), if_pos F10, Nat.mul_one, decide_false, Bool.false_eq_true]
      rw [r3 [] tail w w (by simpa using hsize) (by omega)]
      simp
    · rw [if_neg h0] at hsize
      rw [if_pos h0] at hhb
      subst hhb
      have hz : ¬ (h : Int) = 0 := by omega
      simp only [hz, not_false_eq_true, if_true, h4, Option.bind_some, e2, if_neg (show ¬ 8 < bits by omega),
        if_neg (show ¬ compression = 1 by omega), if_pos F10, decide_true]
      rw [r3 [] tail (w * h) (w * h) (by simpa using hsize) (by omega)]
      simp
  refine ⟨sig ++ fb ++ wb ++ (if h ≠ 0 then hb else []) ++ [bits] ++ runs, ?_, ?_, ?_⟩
  · unfold writePxu
    simp only [if_neg hnohex, ht, decide_eq_true_eq, hF, f1, hsz, w1, Option.bind_eq_bind, Option.bind_some, hpe, r1]
    by_cases h0 : h = 0
    · subst h0; simp
    · have hz : ¬ (h : Int) = 0 := by omega
      simp only [ne_eq, hz, h0, not_false_eq_true, if_true, h1, Option.bind_some, pure]
  · intro x hx
    simp only [List.mem_append, List.mem_singleton] at hx
    rcases hx with ((((hx | hx) | hx) | hx) | hx) | hx
    · revert hx x; decide
    · exact f3 x hx
    · exact w3 x hx
    · split at hx
      · exact h3 x hx
      · simp at hx
    · omega
    · exact r2 x hx
  · intro tail
    exact hread _ rfl tail

/-- A text, for the examples. -/
abbrev txt (s : String) : List Nat := s.toList.map Char.toNat

/-- Non-trivial cases, with the bytes: a slot hit (`05`), a value that needs its own byte (`ff`), a run of 20 (16 in the
first byte, 4 in the extension byte), and a long size field. -/
example : writePxu ⟨txt "u8", 11, 2, txt "05ff05ffff0000000000000000000000000000000000"⟩ 99 =
    some (some [0x70, 0x78, 0x75, 0, 0x43, 0x20, 11, 2, 4, 0x05, 0x0f, 0xff, 0x05, 0x1e, 0xf0, 1]) := by decide +kernel
example : writePxu ⟨txt "i16", 3, 0, txt "123412340001"⟩ 21 =
    some (some [0x70, 0x78, 0x75, 0, 0x0c, 0x80, 3, 0, 1, 0x34, 0x12, 0, 1, 0]) := by decide +kernel
example : (writePxu ⟨txt "i16", 300, 0, List.replicate 1200 48⟩ 21) =
    some (some [0x70, 0x78, 0x75, 0, 0x0c, 0x88, 44, 1, 0, 0, 0, 255, 0, 0, 44]) := by decide +kernel
example : Supported (txt "u8") 0 1 ∧ Supported (txt "i16") 21 2 ∧ ¬ Supported (txt "i16") 20 2 := by
  refine ⟨.inl ⟨rfl, rfl⟩, .inr ⟨rfl, rfl, Nat.le_refl _⟩, ?_⟩
  unfold Supported; simp

/-- C38, the format without compression, which is only read: `width * height` elements of one or two bytes, with sizes of
one or four bytes. -/
theorem C38_read_plain (type n w h : Nat) (ht : typeBytes type = some n) (long hasHeight : Bool) (l : List Nat)
    (hw : w < 256 ^ (if long then 4 else 1)) (hh : h < 256 ^ (if long then 4 else 1))
    (hl : l.length = w * if hasHeight then h else 1) (hlt : ∀ v ∈ l, v < 256 ^ n) (tail : List Nat) :
    readPxu (sig ++ leBytes 2 (type + (if hasHeight then 64 else 0) + (if long then 2048 else 0) + 4096) ++
      leBytes (if long then 4 else 1) w ++ (if hasHeight then leBytes (if long then 4 else 1) h else []) ++
      l.flatMap (leBytes n) ++ tail) =
      some (⟨typeName type, w, if hasHeight then h else 0, hexText n l⟩, tail) := by
  have le : ∀ {k v : Nat}, v < 256 ^ k → ∀ r, readElem k (leBytes k v ++ r) = some (v, r) := by
    intro k v hv r
    obtain ⟨b, h1, h2, h3, h4⟩ := elem_spec hv
    unfold packU at h1
    rw [if_pos ⟨by omega, by exact_mod_cast hv⟩] at h1
    have : b = leBytes k v := by simpa using h1.symm
    rw [← this]; exact h4 r
  have elems : ∀ (l : List Nat), (∀ v ∈ l, v < 256 ^ n) → readElems n l.length (l.flatMap (leBytes n) ++ tail) = some (l, tail) := by
    intro l hl
    induction l with
    | nil => simp [readElems]
    | cons v l ih =>
      simp only [List.length_cons, readElems, List.flatMap_cons, List.append_assoc, le (hl v (by simp)), Option.bind_eq_bind,
        Option.bind_some, ih fun v h => hl v (by simp [h])]
      rfl
  have ht' : type = 3 ∨ type = 12 := by
    unfold typeBytes at ht
    split at ht
    · left; assumption
    · split at ht
      · right; assumption
      · simp at ht
  generalize hF : type + (if hasHeight then 64 else 0) + (if long then 2048 else 0) + 4096 = flags
  have H : flags < 256 ^ 2 ∧ flags &&& 0xf84f = flags ∧ flags &&& 0xf = type ∧ flags >>> 12 = 1 ∧
      (flags &&& 0x800 != 0) = long ∧ (flags &&& 0x40 != 0) = hasHeight := by
    rcases ht' with rfl | rfl <;> cases hasHeight <;> cases long <;> subst hF <;> simp
  obtain ⟨F1, F2, F3, F4, F5, F6⟩ := H
  have e1 : ∀ r, readBytes 4 false (sig ++ r) = some (sig, r) := by simp [readBytes, sig]
  unfold readPxu
  simp only [List.append_assoc, e1, Option.bind_eq_bind, Option.bind_some, ne_eq, not_true, if_false, le F1, F2, F3, F4, F5, F6, ht,
    readSize, le hw, if_true]
  cases hasHeight
  · simp only [Bool.false_eq_true, if_false, Nat.mul_one] at hl
    simp only [Bool.false_eq_true, if_false, List.nil_append, Option.bind_some, Nat.mul_one]
    rw [← hl, elems l hlt]
    rfl
  · simp only [if_true] at hl
    simp only [if_true, le hh, Option.bind_some]
    rw [← hl, elems l hlt]
    rfl

example : readPxu ([0x70, 0x78, 0x75, 0, 0x43, 0x10, 2, 1, 0xab, 7] ++ [9]) = some (⟨txt "u8", 2, 1, txt "ab07"⟩, [9]) := by
  decide +kernel

/-- C38: `None` is returned - the caller then keeps the text form - exactly for the types without compression and for text
with the prefix `hex:`. -/
theorem C38_uncompressed (ud : UD) (runtime : Nat) :
    writePxu ud runtime = some none ↔ txt "hex:" <+: ud.data ∨ ¬ ∃ n, Supported ud.type runtime n := by
  have hdef : txt "hex:" = "hex:".toList.map Char.toNat := rfl
  unfold writePxu
  rw [← hdef]
  by_cases h1 : txt "hex:" <+: ud.data
  · simp [h1]
  · rw [if_neg h1]
    cases h2 : writeType ud.type runtime with
    | none =>
      simp only [true_iff]
      right
      rintro ⟨n, hn⟩
      obtain ⟨a, b, c, h⟩ := supported_iff.mp hn
      rw [h2] at h
      simp at h
    | some t =>
      obtain ⟨a, n, b, c⟩ := t
      simp only [h1, false_or]
      constructor
      · intro h
        exfalso
        simp only [Option.bind_eq_bind, Option.bind_eq_some_iff, pure] at h
        obtain ⟨_, _, _, _, h⟩ := h
        split at h
        all_goals simp [Option.bind_eq_some_iff] at h
      · intro h
        exact absurd ⟨n, supported_iff.mpr ⟨a, b, c, h2⟩⟩ h

example : writePxu ⟨txt "f64", 1, 0, txt "1.5"⟩ 99 = some none ∧ writePxu ⟨txt "i16", 1, 0, txt "0001"⟩ 20 = some none := by
  decide +kernel

/-- C38 fails for text that does not fill its elements: the last digit of an odd number becomes an element of its own
(`abc` is read back as `ab0c`), and a size that does not match the data is written as it is, so that reading it takes other
bytes or none.  Upper case digits come back in lower case. -/
theorem C38_counterexample :
    (∃ b, writePxu ⟨txt "u8", 2, 0, txt "abc"⟩ 99 = some (some b) ∧ readPxu b = some (⟨txt "u8", 2, 0, txt "ab0c"⟩, [])) ∧
    (∃ b, writePxu ⟨txt "u8", 2, 0, txt "ab"⟩ 99 = some (some b) ∧ readPxu b = none) ∧
    (∃ b, writePxu ⟨txt "u8", 1, 0, txt "AB"⟩ 99 = some (some b) ∧ readPxu b = some (⟨txt "u8", 1, 0, txt "ab"⟩, [])) := by
  refine ⟨⟨[0x70, 0x78, 0x75, 0, 0x03, 0x20, 2, 4, 0x0f, 0xab, 0x0c], by decide +kernel, by decide +kernel⟩,
    ⟨[0x70, 0x78, 0x75, 0, 0x03, 0x20, 2, 4, 0x0f, 0xab], by decide +kernel, by decide +kernel⟩,
    ⟨[0x70, 0x78, 0x75, 0, 0x03, 0x20, 1, 4, 0x0f, 0xab], by decide +kernel, by decide +kernel⟩⟩

end Verif.Pxu
