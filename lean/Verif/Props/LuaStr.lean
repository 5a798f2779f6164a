import Verif.LuaStr
import Verif.Spec.Utf8
/-! C60: Picotron text and its bytes. -/
namespace Verif.LuaStr
open Utf8Spec (Scalar Text)

theorem isCont_iff {b : Nat} : isCont b = true ↔ 0x80 ≤ b ∧ b ≤ 0xbf := by simp [isCont]

/-- The first character of the decoder is that of UTF-8. -/
theorem head_char {c : Nat} {u : List Nat} (h : Utf8Spec.Char c u) (rest : List Nat) : utf8Head (u ++ rest) = some (c, rest) := by
  cases h with
  | one h => simp [utf8Head, h]
  | @two x y hy h h' =>
    simp only [List.cons_append, List.nil_append, utf8Head]
    rw [if_neg (by omega), if_neg (by omega), if_pos (by omega), if_pos (isCont_iff.2 (by omega))]
    simp only [Option.some.injEq, Prod.mk.injEq, and_true]; omega
  | @three x y z hy hz h h' hs =>
    unfold Scalar at hs
    simp only [List.cons_append, List.nil_append, utf8Head]
    rw [if_neg (by omega), if_neg (by omega), if_neg (by omega), if_pos (by omega), if_pos]
    · simp only [Option.some.injEq, Prod.mk.injEq, and_true]; omega
    · simp only [Bool.and_eq_true, isCont_iff, Bool.or_eq_true, bne_iff_ne, decide_eq_true_eq]
      omega
  | @four x y z w hy hz hw h h' =>
    simp only [List.cons_append, List.nil_append, utf8Head]
    rw [if_neg (by omega), if_neg (by omega), if_neg (by omega), if_neg (by omega), if_pos (by omega), if_pos]
    · simp only [Option.some.injEq, Prod.mk.injEq, and_true]; omega
    · simp only [Bool.and_eq_true, isCont_iff, Bool.or_eq_true, bne_iff_ne, decide_eq_true_eq]
      omega

theorem char_two {b0 b1 : Nat} (h0 : 0xc2 ≤ b0) (h1 : b0 < 0xe0) (h2 : isCont b1 = true) :
    Utf8Spec.Char ((b0 - 0xc0) * 64 + (b1 - 0x80)) [b0, b1] := by
  rw [isCont_iff] at h2
  have := Utf8Spec.Char.two (x := b0 - 0xc0) (y := b1 - 0x80) (by omega) (by omega) (by omega)
  rwa [show 0xc0 + (b0 - 0xc0) = b0 by omega, show 0x80 + (b1 - 0x80) = b1 by omega, Nat.mul_comm] at this

theorem char_three {b0 b1 b2 : Nat} (h0 : 0xe0 ≤ b0) (h1 : b0 < 0xf0)
    (h2 : (isCont b1 && isCont b2 && (b0 != 0xe0 || decide (0xa0 ≤ b1)) && (b0 != 0xed || decide (b1 < 0xa0))) = true) :
    Utf8Spec.Char ((b0 - 0xe0) * 4096 + (b1 - 0x80) * 64 + (b2 - 0x80)) [b0, b1, b2] := by
  simp only [Bool.and_eq_true, isCont_iff, Bool.or_eq_true, bne_iff_ne, decide_eq_true_eq] at h2
  have := Utf8Spec.Char.three (x := b0 - 0xe0) (y := b1 - 0x80) (z := b2 - 0x80) (by omega) (by omega) (by omega) (by omega) (by
    unfold Scalar; omega)
  rwa [show 0xe0 + (b0 - 0xe0) = b0 by omega, show 0x80 + (b1 - 0x80) = b1 by omega, show 0x80 + (b2 - 0x80) = b2 by omega,
    show 64 * (64 * (b0 - 0xe0) + (b1 - 0x80)) + (b2 - 0x80) = (b0 - 0xe0) * 4096 + (b1 - 0x80) * 64 + (b2 - 0x80) by omega] at this

theorem char_four {b0 b1 b2 b3 : Nat} (h0 : 0xf0 ≤ b0) (h1 : b0 < 0xf5)
    (h2 : (isCont b1 && isCont b2 && isCont b3 && (b0 != 0xf0 || decide (0x90 ≤ b1)) && (b0 != 0xf4 || decide (b1 < 0x90))) = true) :
    Utf8Spec.Char ((b0 - 0xf0) * 262144 + (b1 - 0x80) * 4096 + (b2 - 0x80) * 64 + (b3 - 0x80)) [b0, b1, b2, b3] := by
  simp only [Bool.and_eq_true, isCont_iff, Bool.or_eq_true, bne_iff_ne, decide_eq_true_eq] at h2
  have := Utf8Spec.Char.four (x := b0 - 0xf0) (y := b1 - 0x80) (z := b2 - 0x80) (w := b3 - 0x80) (by omega) (by omega) (by omega) (by omega)
    (by omega)
  rwa [show 0xf0 + (b0 - 0xf0) = b0 by omega, show 0x80 + (b1 - 0x80) = b1 by omega, show 0x80 + (b2 - 0x80) = b2 by omega,
    show 0x80 + (b3 - 0x80) = b3 by omega, show 64 * (64 * (64 * (b0 - 0xf0) + (b1 - 0x80)) + (b2 - 0x80)) + (b3 - 0x80) =
      (b0 - 0xf0) * 262144 + (b1 - 0x80) * 4096 + (b2 - 0x80) * 64 + (b3 - 0x80) by omega] at this

theorem head_some {bs rest : List Nat} {c : Nat} (h : utf8Head bs = some (c, rest)) : ∃ u, bs = u ++ rest ∧ Utf8Spec.Char c u := by
  cases bs with
  | nil => cases h
  | cons b0 r =>
    simp only [utf8Head] at h
    split at h
    · rename_i h0
      simp only [Option.some.injEq, Prod.mk.injEq] at h
      obtain ⟨rfl, rfl⟩ := h
      exact ⟨[b0], rfl, .one h0⟩
    · split at h
      · cases h
      · split at h
        · split at h
          · split at h
            · rename_i hc
              simp only [Option.some.injEq, Prod.mk.injEq] at h
              obtain ⟨rfl, rfl⟩ := h
              exact ⟨[b0, _], rfl, char_two (by omega) (by omega) hc⟩
            · cases h
          · cases h
        · split at h
          · split at h
            · split at h
              · rename_i hc
                simp only [Option.some.injEq, Prod.mk.injEq] at h
                obtain ⟨rfl, rfl⟩ := h
                exact ⟨[b0, _, _], rfl, char_three (by omega) (by omega) hc⟩
              · cases h
            · cases h
          · split at h
            · split at h
              · split at h
                · rename_i hc
                  simp only [Option.some.injEq, Prod.mk.injEq] at h
                  obtain ⟨rfl, rfl⟩ := h
                  exact ⟨[b0, _, _, _], rfl, char_four (by omega) (by omega) hc⟩
                · cases h
              · cases h
            · cases h

theorem char_ne {c : Nat} {u : List Nat} (h : Utf8Spec.Char c u) : ∃ b v, u = b :: v ∧ ∀ x ∈ v, 0x80 ≤ x := by
  cases h <;> exact ⟨_, _, rfl, by simp⟩

theorem char_enc {c : Nat} {u : List Nat} (h : Utf8Spec.Char c u) : utf8SurrogateEscape c = some u := by
  unfold utf8SurrogateEscape
  cases h with
  | one h => rw [if_pos h]
  | @two x y hy h h' =>
    rw [if_neg (by omega), if_pos h', show (64 * x + y) / 64 = x by omega, show (64 * x + y) % 64 = y by omega]
  | @three x y z hy hz h h' hs =>
    unfold Scalar at hs
    rw [if_neg (by omega), if_neg (by omega), if_neg (by omega), if_pos h', show (64 * (64 * x + y) + z) / 4096 = x by omega,
      show (64 * (64 * x + y) + z) / 64 % 64 = y by omega, show (64 * (64 * x + y) + z) % 64 = z by omega]
  | @four x y z w hy hz hw h h' =>
    rw [if_neg (by omega), if_neg (by omega), if_neg (by omega), if_neg (by omega),
      show (64 * (64 * (64 * x + y) + z) + w) / 262144 = x by omega, show (64 * (64 * (64 * x + y) + z) + w) / 4096 % 64 = y by omega,
      show (64 * (64 * (64 * x + y) + z) + w) / 64 % 64 = z by omega, show (64 * (64 * (64 * x + y) + z) + w) % 64 = w by omega]

theorem scalar_char {c : Nat} (h : Scalar c) : ∃ u, Utf8Spec.Char c u := by
  have hs := h
  unfold Scalar at h
  by_cases h1 : c < 0x80
  · exact ⟨_, .one h1⟩
  by_cases h2 : c < 0x800
  · have := Utf8Spec.Char.two (x := c / 64) (y := c % 64) (by omega) (by omega) (by omega)
    rw [show 64 * (c / 64) + c % 64 = c by omega] at this
    exact ⟨_, this⟩
  by_cases h3 : c < 0x10000
  · have e : 64 * (64 * (c / 4096) + c / 64 % 64) + c % 64 = c := by omega
    have := Utf8Spec.Char.three (x := c / 4096) (y := c / 64 % 64) (z := c % 64) (by omega) (by omega) (by omega) (by omega) (by rw [e]; exact hs)
    rw [e] at this
    exact ⟨_, this⟩
  · have e : 64 * (64 * (64 * (c / 262144) + c / 4096 % 64) + c / 64 % 64) + c % 64 = c := by omega
    have := Utf8Spec.Char.four (x := c / 262144) (y := c / 4096 % 64) (z := c / 64 % 64) (w := c % 64) (by omega) (by omega) (by omega)
      (by omega) (by omega)
    rw [e] at this
    exact ⟨_, this⟩

theorem step_shorter {bs rest : List Nat} {c : Nat} (h : step bs = some (c, rest)) : rest.length < bs.length := by
  cases bs with
  | nil => cases h
  | cons b r =>
    unfold step at h
    simp only at h
    split at h
    · rename_i p hp
      have h := Option.some.inj h
      subst h
      obtain ⟨u, e, hu⟩ := head_some hp
      obtain ⟨x, v, rfl, _⟩ := char_ne hu
      rw [e]; simp; omega
    · simp only [Option.some.injEq, Prod.mk.injEq] at h
      rw [← h.2]; simp

theorem decodeLoop_fuel : ∀ {n m : Nat} {bs : List Nat}, bs.length ≤ n → bs.length ≤ m → decodeLoop n bs = decodeLoop m bs
  | 0, m, bs, h1, _ => by
    have : bs = [] := List.length_eq_zero_iff.1 (by omega)
    subst this
    cases m <;> rfl
  | n + 1, 0, bs, _, h2 => by
    have : bs = [] := List.length_eq_zero_iff.1 (by omega)
    subst this; rfl
  | n + 1, m + 1, bs, h1, h2 => by
    simp only [decodeLoop]
    cases h : step bs with
    | none => rfl
    | some p =>
      obtain ⟨c, rest⟩ := p
      have := step_shorter h
      simp only
      rw [decodeLoop_fuel (n := n) (m := m) (by omega) (by omega)]

theorem decode_step {bs rest : List Nat} {c : Nat} (h : step bs = some (c, rest)) : decode bs = c :: decode rest := by
  have hl := step_shorter h
  unfold decode
  obtain ⟨n, hn⟩ : ∃ n, bs.length = n + 1 := ⟨bs.length - 1, by omega⟩
  rw [hn]
  simp only [decodeLoop, h]
  rw [decodeLoop_fuel (n := n) (m := rest.length) (by omega) (Nat.le_refl _)]

theorem decode_char {c : Nat} {u : List Nat} (h : Utf8Spec.Char c u) (rest : List Nat) : decode (u ++ rest) = c :: decode rest := by
  apply decode_step
  obtain ⟨b, v, e, _⟩ := char_ne h
  have := head_char h rest
  subst e
  rw [List.cons_append] at this ⊢
  simp only [step, this]

theorem decode_bad {b : Nat} {r : List Nat} (h : utf8Head (b :: r) = none) : decode (b :: r) = (0xdc00 + b) :: decode r := by
  apply decode_step
  simp only [step, h]

theorem encode_cons {c : Nat} {u : List Nat} (h : utf8SurrogateEscape c = some u) (t : List Nat) :
    encode (c :: t) = (encode t).map (u ++ ·) := by
  unfold encode
  rw [List.mapM_cons, h]
  cases t.mapM utf8SurrogateEscape <;> rfl

theorem encode_cons_none {c : Nat} (h : utf8SurrogateEscape c = none) (t : List Nat) : encode (c :: t) = none := by
  unfold encode
  rw [List.mapM_cons, h]
  rfl

/-- Bytes from the start of the text: a character, or a byte that is none. -/
theorem bytes_cases (b : Nat) (r : List Nat) : (∃ c u rest, Utf8Spec.Char c u ∧ b :: r = u ++ rest) ∨ (0x80 ≤ b ∧ utf8Head (b :: r) = none) := by
  cases h : utf8Head (b :: r) with
  | some p =>
    obtain ⟨u, e, hu⟩ := head_some h
    exact .inl ⟨p.1, u, p.2, hu, e⟩
  | none =>
    right
    refine ⟨?_, rfl⟩
    apply Classical.byContradiction
    intro hb
    simp only [utf8Head] at h
    rw [if_pos (by omega)] at h
    cases h

/-- **C60.** Bytes of any kind – valid or not – survive being decoded to text and encoded again. -/
theorem C60_bytes (bs : List Nat) (h : ∀ b ∈ bs, b < 256) : encode (decode bs) = some bs := by
  obtain ⟨n, hn⟩ : ∃ n, bs.length ≤ n := ⟨_, Nat.le_refl _⟩
  induction n generalizing bs with
  | zero =>
    have : bs = [] := List.length_eq_zero_iff.1 (by omega)
    subst this; rfl
  | succ n ih =>
    cases bs with
    | nil => rfl
    | cons b r =>
      rcases bytes_cases b r with ⟨c, u, rest, hc, e⟩ | ⟨hb, hh⟩
      · rw [e, decode_char hc, encode_cons (char_enc hc), ih rest]
        · rfl
        · intro x hx; exact h x (by rw [e]; exact List.mem_append_right _ hx)
        · obtain ⟨x, v, rfl, _⟩ := char_ne hc
          have := congrArg List.length e
          simp at this hn; omega
      · have hlt := h b (by simp)
        have henc : utf8SurrogateEscape (0xdc00 + b) = some [b] := by
          unfold utf8SurrogateEscape
          rw [if_neg (by omega), if_neg (by omega), if_pos (by omega), if_pos (by omega)]
          simp only [Option.some.injEq, List.cons.injEq, and_true]; omega
        rw [decode_bad hh, encode_cons henc, ih r (fun x hx => h x (List.mem_cons_of_mem _ hx)) (by simpa using hn)]
        rfl

/-- **C60.** Bytes that are UTF-8 are decoded to the text they stand for, and that text is encoded to these bytes. -/
theorem C60_utf8 {t bs : List Nat} (h : Text t bs) : decode bs = t ∧ encode t = some bs := by
  induction h with
  | nil => exact ⟨rfl, rfl⟩
  | cons h _ ih =>
    refine ⟨by rw [decode_char h, ih.1], ?_⟩
    rw [encode_cons (char_enc h), ih.2]; rfl

/-- **C60.** Text of Unicode characters has UTF-8 bytes, and so survives encoding and decoding. -/
theorem C60_text {t : List Nat} (h : ∀ c ∈ t, Scalar c) : ∃ bs, Text t bs ∧ encode t = some bs ∧ decode bs = t := by
  have : ∃ bs, Text t bs := by
    induction t with
    | nil => exact ⟨[], .nil⟩
    | cons c t ih =>
      obtain ⟨r, hr⟩ := ih fun x hx => h x (List.mem_cons_of_mem _ hx)
      obtain ⟨u, hu⟩ := scalar_char (h c (by simp))
      exact ⟨_, .cons hu hr⟩
  obtain ⟨bs, hbs⟩ := this
  exact ⟨bs, hbs, (C60_utf8 hbs).2, (C60_utf8 hbs).1⟩

/-- **C60.** Encoding fails exactly for text with surrogates that stand for no byte. -/
theorem C60_fails (t : List Nat) : encode t = none ↔ ∃ c ∈ t, 0xd800 ≤ c ∧ c < 0xe000 ∧ ¬ (0xdc80 ≤ c ∧ c ≤ 0xdcff) := by
  have hn : ∀ c, utf8SurrogateEscape c = none ↔ 0xd800 ≤ c ∧ c < 0xe000 ∧ ¬ (0xdc80 ≤ c ∧ c ≤ 0xdcff) := by
    intro c
    unfold utf8SurrogateEscape
    split
    · simp; omega
    · split
      · simp; omega
      · split
        · split <;> simp <;> omega
        · split <;> simp <;> omega
  induction t with
  | nil => simp [encode]
  | cons c t ih =>
    cases h : utf8SurrogateEscape c with
    | none =>
      rw [encode_cons_none h]
      simp only [true_iff]
      exact ⟨c, by simp, (hn c).1 h⟩
    | some u =>
      rw [encode_cons h, Option.map_eq_none_iff]
      refine Iff.trans ih ?_
      have hc : ¬ (0xd800 ≤ c ∧ c < 0xe000 ∧ ¬ (0xdc80 ≤ c ∧ c ≤ 0xdcff)) := by rw [← hn, h]; simp
      simp only [List.mem_cons, exists_eq_or_imp]
      constructor
      · exact fun h => .inr h
      · rintro (h | h)
        · exact absurd h hc
        · exact h

/-- **C60.** ASCII characters (line feeds, commas, quotes...) separate the same parts in the bytes and in the text: one may look for
them in either. -/
theorem C60_ascii_split (a b : List Nat) {x : Nat} (hx : x < 0x80) : decode (a ++ x :: b) = decode a ++ x :: decode b := by
  obtain ⟨n, hn⟩ : ∃ n, a.length ≤ n := ⟨_, Nat.le_refl _⟩
  induction n generalizing a with
  | zero =>
    have : a = [] := List.length_eq_zero_iff.1 (by omega)
    subst this
    exact decode_char (.one hx) b
  | succ n ih =>
    cases a with
    | nil => exact decode_char (.one hx) b
    | cons c0 a =>
      rcases bytes_cases c0 a with ⟨c, u, rest, hc, e⟩ | ⟨hb, hh⟩
      · rw [e, List.append_assoc, decode_char hc, decode_char hc, ih rest]
        · rfl
        · obtain ⟨x, v, rfl, _⟩ := char_ne hc
          have := congrArg List.length e
          simp at this hn; omega
      · have hh' : utf8Head (c0 :: (a ++ x :: b)) = none := by
          cases h : utf8Head (c0 :: (a ++ x :: b)) with
          | none => rfl
          | some p =>
            exfalso
            obtain ⟨u, e, hu⟩ := head_some h
            obtain ⟨y, v, rfl, hv⟩ := char_ne hu
            rw [List.cons_append, List.cons.injEq] at e
            obtain ⟨rfl, e⟩ := e
            rcases List.append_eq_append_iff.1 e with ⟨l, e1, e2⟩ | ⟨l, e1, e2⟩
            · cases l with
              | nil =>
                rw [List.append_nil] at e1
                subst e1
                have := head_char hu []
                rw [List.append_nil, hh] at this
                cases this
              | cons z l =>
                rw [List.cons_append, List.cons.injEq] at e2
                have := hv z (by rw [e1]; simp)
                omega
            · subst e1
              have := head_char hu l
              rw [List.cons_append, hh] at this
              cases this
        rw [List.cons_append, decode_bad hh', decode_bad hh, ih a (by simpa using hn)]
        rfl

/-- **C60.** Decoded text consists of characters and of bytes 0x80..0xff that were no part of one, marked as such. -/
theorem C60_decoded (bs : List Nat) (h : ∀ b ∈ bs, b < 256) : ∀ c ∈ decode bs, Scalar c ∨ 0xdc80 ≤ c ∧ c ≤ 0xdcff := by
  obtain ⟨n, hn⟩ : ∃ n, bs.length ≤ n := ⟨_, Nat.le_refl _⟩
  induction n generalizing bs with
  | zero =>
    have : bs = [] := List.length_eq_zero_iff.1 (by omega)
    subst this
    intro c hc; cases hc
  | succ n ih =>
    cases bs with
    | nil => intro c hc; cases hc
    | cons b r =>
      rcases bytes_cases b r with ⟨c, u, rest, hc, e⟩ | ⟨hb, hh⟩
      · rw [e, decode_char hc]
        intro d hd
        rcases List.mem_cons.1 hd with rfl | hd
        · left
          unfold Scalar
          cases hc with
          | one h => omega
          | two hy h h' => omega
          | three hy hz h h' hs => exact hs
          | four hy hz hw h h' => omega
        · refine ih rest (fun x hx => h x (by rw [e]; exact List.mem_append_right _ hx)) ?_ d hd
          obtain ⟨x, v, rfl, _⟩ := char_ne hc
          have := congrArg List.length e
          simp at this hn; omega
      · rw [decode_bad hh]
        intro d hd
        have hlt := h b (by simp)
        rcases List.mem_cons.1 hd with rfl | hd
        · right; omega
        · exact ih r (fun x hx => h x (List.mem_cons_of_mem _ hx)) (by simpa using hn) d hd

/-- **C60** fails the other way for text with escaped bytes that together are a character: it is read back as that character. -/
theorem C60_escape_counterexample : ∃ t bs, encode t = some bs ∧ decode bs ≠ t :=
  ⟨[0xdcc3, 0xdca9], [0xc3, 0xa9], by decide, by decide⟩

/-- `é`, the euro sign, an emoji, and bytes that are no UTF-8 (a lone continuation byte, an overlong form, a surrogate, a cut
sequence). -/
example : decode [0xc3, 0xa9, 0xe2, 0x82, 0xac, 0xf0, 0x9f, 0x98, 0x80] = [0xe9, 0x20ac, 0x1f600] ∧
    decode [0x80, 0xc0, 0xaf, 0xed, 0xa0, 0x80, 0xe2, 0x82, 0x41] =
      [0xdc80, 0xdcc0, 0xdcaf, 0xdced, 0xdca0, 0xdc80, 0xdce2, 0xdc82, 0x41] ∧
    Scalar 0x20ac ∧ Scalar 0x1f600 := by
  refine ⟨by decide, by decide, ?_, ?_⟩ <;> unfold Scalar <;> omega

end Verif.LuaStr
