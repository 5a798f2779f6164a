import Verif.P8Source
import Verif.TextLemmas
import Verif.Props.Mem
/-! Helper lemmas: one line of a data section restores the bytes it was written from. -/
namespace Verif

/-- A row store loop whose stores only write the target's value at some keys. -/
theorem writeRow_spec {S V K : Type} {f : S → Nat → V → Option S} {lim : Nat} (I : S → Prop) (get : S → K → Option Nat)
    (vals : Nat → V) (keys : Nat → K → Prop) (target : K → Option Nat)
    (hf : ∀ s x, I s → x < lim → ∃ s', f s x (vals x) = some s' ∧ I s' ∧
      ∀ k, (keys x k → get s' k = target k) ∧ (¬ keys x k → get s' k = get s k)) :
    ∀ n x s, x + n ≤ lim → I s → ∃ s', writeRow f lim s x ((List.range' x n).map vals) = some s' ∧ I s' ∧
      ∀ k, ((∃ j, x ≤ j ∧ j < x + n ∧ keys j k) → get s' k = target k) ∧
        ((¬ ∃ j, x ≤ j ∧ j < x + n ∧ keys j k) → get s' k = get s k) := by
  intro n
  induction n with
  | zero =>
    intro x s _ hs
    exact ⟨s, by simp [writeRow], hs, fun k => ⟨fun ⟨j, h1, h2, _⟩ => by omega, fun _ => rfl⟩⟩
  | succ n ih =>
    intro x s hx hs
    obtain ⟨s1, e1, i1, g1⟩ := hf s x hs (by omega)
    obtain ⟨s2, e2, i2, g2⟩ := ih (x + 1) s1 (by omega) i1
    refine ⟨s2, ?_, i2, fun k => ⟨?_, ?_⟩⟩
    · rw [List.range'_succ, List.map_cons, writeRow, if_pos (by omega), e1]
      exact e2
    · rintro ⟨j, h1, h2, h3⟩
      by_cases hh : ∃ j, x + 1 ≤ j ∧ j < x + 1 + n ∧ keys j k
      · exact (g2 k).1 hh
      · rw [(g2 k).2 hh]
        have : j = x := by
          rcases Nat.lt_or_ge x j with h | h
          · exact absurd ⟨j, h, by omega, h3⟩ hh
          · omega
        subst this
        exact (g1 k).1 h3
    · intro hno
      rw [(g2 k).2 fun ⟨j, h1, h2, h3⟩ => hno ⟨j, by omega, by omega, h3⟩]
      exact (g1 k).2 fun h => hno ⟨x, by omega, by omega, h⟩

/-- What a stored section row must do to the memory `m`, given the memory `r` it was written from. -/
def RowDone (r m m' : List Nat) (inRow : Nat → Prop) : Prop :=
  IsMem m' ∧ m'.length = 0x4300 ∧ ∀ a, (inRow a → get8 m' a = get8 r a) ∧ (¬ inRow a → get8 m' a = get8 m a)

theorem get8_some {m : List Nat} {a : Nat} (h : a < m.length) : get8 m a = some m[a] := by
  simp [get8, h]

theorem get8_none {m : List Nat} {a : Nat} (h : m.length ≤ a) : get8 m a = none := by
  simp [get8, h]

theorem get8_lt {m : List Nat} (hm : IsMem m) {a b : Nat} (h : get8 m a = some b) : b < 256 := by
  unfold get8 at h
  exact hm b (List.mem_of_getElem? h)

/-- A byte is determined by its two nybbles. -/
theorem get8_of_get4 {m r : List Nat} (hm : IsMem m) (hr : IsMem r) (hl : m.length = r.length) {a : Nat}
    (h0 : get4 m (a, false) = get4 r (a, false)) (h1 : get4 m (a, true) = get4 r (a, true)) : get8 m a = get8 r a := by
  by_cases ha : a < m.length
  · have e1 := get8_some ha
    have e2 := get8_some (by omega : a < r.length)
    have b1 := get8_lt hm e1
    have b2 := get8_lt hr e2
    unfold get4 get8Bits at h0 h1
    rw [e1, e2] at h0 h1 ⊢
    simp only [Option.map_some, Option.some.injEq, Bool.false_eq_true, if_false, if_true] at h0 h1 ⊢
    have e := fun n : Nat => Nat.and_two_pow_sub_one_eq_mod n 4
    simp only [Nat.reducePow, Nat.reduceSub] at e
    rw [Nat.shiftRight_eq_div_pow, Nat.shiftRight_eq_div_pow, e, e] at h0 h1
    omega
  · rw [get8_none (by omega), get8_none (by omega)]

/-! ### Hexadecimal text -/

theorem hexNybbles_digits {l : List Nat} (h : ∀ n ∈ l, n < 16) : hexNybbles (l.map hexDigit) = some l := by
  unfold hexNybbles
  induction l with
  | nil => rfl
  | cons a l ih =>
    rw [List.map_cons, List.mapM_cons, hexVal_hexDigit (h a (by simp)), ih fun x hx => h x (List.mem_cons_of_mem _ hx)]
    rfl

theorem hexBytes_hex2 {l : List Nat} (h : ∀ n ∈ l, n < 256) : hexBytes (l.flatMap hex2) = some l := by
  induction l with
  | nil => rfl
  | cons a l ih =>
    have ha := h a (by simp)
    rw [List.flatMap_cons, hex2, List.cons_append, List.cons_append, List.nil_append, hexBytes,
      hexVal_hexDigit (by omega), hexVal_hexDigit (by omega), ih fun x hx => h x (List.mem_cons_of_mem _ hx)]
    simp; omega

theorem hexGroups5_digits {l : List (List Nat)} (h : ∀ g ∈ l, g.length = 5 ∧ ∀ n ∈ g, n < 16) :
    hexGroups5 (l.flatMap fun g => g.map hexDigit) = some l := by
  induction l with
  | nil => unfold hexGroups5; simp
  | cons g l ih =>
    have hg := h g (by simp)
    have ih := ih fun x hx => h x (List.mem_cons_of_mem _ hx)
    rw [List.flatMap_cons]
    have hl : (g.map hexDigit).length = 5 := by simp [hg.1]
    unfold hexGroups5
    rw [dif_neg (by intro e; have := congrArg List.length e; rw [List.length_append, hl, List.length_nil] at this; omega)]
    have e1 : (g.map hexDigit ++ l.flatMap fun g => g.map hexDigit).take 5 = g.map hexDigit := by
      rw [← hl, List.take_left']; rfl
    have e2 : (g.map hexDigit ++ l.flatMap fun g => g.map hexDigit).drop 5 = l.flatMap fun g => g.map hexDigit := by
      rw [← hl, List.drop_left']; rfl
    have e3 : 5 - (g.map hexDigit ++ l.flatMap fun g => g.map hexDigit).length = 0 := by
      rw [List.length_append, hl]; omega
    rw [e1, e2, e3, List.replicate_zero, List.append_nil, hexNybbles_digits hg.2, ih]

/-! ### C15 -/

theorem and_lt16 (n : Nat) {k : Nat} (h : k < 16) : n &&& k < 16 := Nat.lt_of_le_of_lt Nat.and_le_right h

theorem noteDigits_lt (n : Nat) : (noteDigits n).length = 5 ∧ ∀ d ∈ noteDigits n, d < 16 := by
  refine ⟨rfl, ?_⟩
  intro d hd
  simp only [noteDigits, List.mem_cons, List.not_mem_nil, or_false] at hd
  rcases hd with h | h | h | h | h <;> subst h
  · exact and_lt16 _ (by omega)
  · exact and_lt16 _ (by omega)
  · have h1 : (n >>> 6) &&& 7 < 2 ^ 4 := and_lt16 _ (by omega)
    have h2 : (n >>> 12) &&& 8 < 2 ^ 4 := and_lt16 _ (by omega)
    exact Nat.or_lt_two_pow h1 h2
  · exact and_lt16 _ (by omega)
  · exact and_lt16 _ (by omega)

theorem noteOf_noteDigits {n : Nat} (h : n < 65536) : noteOf (noteDigits n) = some n := by
  simp only [noteDigits, noteOf, Option.some.injEq]
  apply Nat.eq_of_testBit_eq
  intro i
  by_cases hi : i < 16
  · have : i = 0 ∨ i = 1 ∨ i = 2 ∨ i = 3 ∨ i = 4 ∨ i = 5 ∨ i = 6 ∨ i = 7 ∨ i = 8 ∨ i = 9 ∨ i = 10 ∨ i = 11 ∨ i = 12 ∨
        i = 13 ∨ i = 14 ∨ i = 15 := by omega
    have t : ∀ k j : Nat, Nat.testBit k j = (k / 2 ^ j % 2 == 1) := fun k j => by
      rw [Nat.testBit_eq_decide_div_mod_eq]; rfl
    rcases this with rfl | rfl | rfl | rfl | rfl | rfl | rfl | rfl | rfl | rfl | rfl | rfl | rfl | rfl | rfl | rfl <;>
    · simp only [Nat.testBit_or, Nat.testBit_and, Nat.testBit_shiftLeft, Nat.testBit_shiftRight]
      simp [t 3, t 7, t 8, t 15]
  · have hp : 2 ^ 16 ≤ 2 ^ i := Nat.pow_le_pow_right (by omega) (by omega)
    rw [Nat.testBit_lt_two_pow (by omega : n < 2 ^ i)]
    apply Nat.testBit_lt_two_pow
    apply Nat.lt_of_lt_of_le _ hp
    have b1 : n &&& 15 < 2 ^ 16 := Nat.lt_trans (and_lt16 _ (by omega)) (by omega)
    have sh : ∀ a s, a < 16 → s ≤ 12 → a <<< s < 2 ^ 16 := by
      intro a s ha hs
      rw [Nat.shiftLeft_eq]
      have : 2 ^ s ≤ 2 ^ 12 := Nat.pow_le_pow_right (by omega) hs
      have := Nat.mul_le_mul (by omega : a ≤ 15) this
      omega
    refine Nat.or_lt_two_pow (Nat.or_lt_two_pow (Nat.or_lt_two_pow (Nat.or_lt_two_pow (Nat.or_lt_two_pow b1 ?_) ?_) ?_) ?_) ?_ <;>
      exact sh _ _ (and_lt16 _ (by omega)) (by omega)

theorem musicFlags_bit (a b c d : Nat) : musicFlags [a, b, c, d] < 256 ∧ ∀ i x, [a, b, c, d][i]? = some x →
    (musicFlags [a, b, c, d] >>> i) &&& 1 = (x >>> 7) &&& 1 := by
  have bit : ∀ n : Nat, (n >>> 7) &&& 1 = 0 ∨ (n >>> 7) &&& 1 = 1 := by
    intro n
    have := Nat.and_two_pow_sub_one_eq_mod (n >>> 7) 1
    simp at this ⊢; omega
  have e : musicFlags [a, b, c, d] = ((a >>> 7) &&& 1) <<< 0 + (((b >>> 7) &&& 1) <<< 1 + (((c >>> 7) &&& 1) <<< 2 +
      (((d >>> 7) &&& 1) <<< 3))) := by
    simp [musicFlags, List.zipIdx]
  rw [e]
  constructor
  · rcases bit a with h1 | h1 <;> rcases bit b with h2 | h2 <;> rcases bit c with h3 | h3 <;> rcases bit d with h4 | h4 <;>
      rw [h1, h2, h3, h4] <;> decide
  · intro i x hx
    have hi : i < 4 := by
      rcases Nat.lt_or_ge i 4 with h | h
      · exact h
      · rw [List.getElem?_eq_none (by simpa using h)] at hx; simp at hx
    have : i = 0 ∨ i = 1 ∨ i = 2 ∨ i = 3 := by omega
    rcases this with rfl | rfl | rfl | rfl <;> simp only [List.getElem?_cons_zero, List.getElem?_cons_succ, Option.some.injEq] at hx <;>
      subst hx <;>
      rcases bit a with h1 | h1 <;> rcases bit b with h2 | h2 <;> rcases bit c with h3 | h3 <;> rcases bit d with h4 | h4 <;>
      rw [h1, h2, h3, h4] <;> rfl

theorem chan_split {ch : Nat} (h : ch < 256) : (ch &&& 0x7f) ||| (((ch >>> 7) &&& 1) <<< 7) = ch ∧ ch &&& 0x7f < 256 := by
  have : ∀ ch : Fin 256, (ch.1 &&& 0x7f) ||| (((ch.1 >>> 7) &&& 1) <<< 7) = ch.1 ∧ ch.1 &&& 0x7f < 256 := by decide +kernel
  exact this ⟨ch, h⟩

/-! ### Rows -/

/-- Store loop for bytes at consecutive addresses. -/
theorem writeRow8 {r m : List Nat} {lim base : Nat} (hr : IsMem r) (hrl : r.length = 0x4300) (hm : IsMem m)
    (hml : m.length = 0x4300) (hb : base + lim ≤ 0x4300) (f : List Nat → Nat → Nat → Option (List Nat)) (v : Nat → Nat)
    (hf : ∀ m x b, x < lim → get8 r (base + x) = some b → f m x (v b) = set8 m (base + x) b) :
    ∃ m', writeRow f lim m 0 ((List.range lim).map fun x => v (r.getD (base + x) 0)) = some m' ∧
      RowDone r m m' fun a => base ≤ a ∧ a < base + lim := by
  obtain ⟨m', e, ⟨i1, i2⟩, g⟩ := writeRow_spec (f := f) (lim := lim) (fun m => IsMem m ∧ m.length = 0x4300) get8
    (fun x => v (r.getD (base + x) 0)) (fun x a => a = base + x) (get8 r) (by
      intro s x ⟨s1, s2⟩ hx
      have hg : get8 r (base + x) = some (r.getD (base + x) 0) := by
        rw [get8_some (by omega)]; simp [List.getD, show base + x < r.length by omega]
      rw [hf s x _ hx hg]
      have hlt := get8_lt hr hg
      have H := C12_set8 s (base + x) (r.getD (base + x) 0)
      have hsome := H.1.mpr ⟨by omega, hlt⟩
      obtain ⟨s', hs'⟩ := Option.isSome_iff_exists.mp hsome
      have H2 := H.2 s' hs'
      refine ⟨s', hs', ⟨H2.2.1 s1, by omega⟩, fun k => ⟨?_, ?_⟩⟩
      · intro hk; rw [H2.2.2 k, if_pos hk, hk, hg]
      · intro hk; rw [H2.2.2 k, if_neg hk]) lim 0 m (by omega) ⟨hm, hml⟩
  refine ⟨m', by rw [List.range_eq_range']; exact e, i1, i2, fun a => ⟨?_, ?_⟩⟩
  · intro ha
    exact (g a).1 ⟨a - base, by omega, by omega, by omega⟩
  · intro ha
    exact (g a).2 fun ⟨j, h1, h2, h3⟩ => ha (by omega)

theorem getD_get8 {r : List Nat} {a : Nat} (h : a < r.length) : get8 r a = some (r.getD a 0) := by
  rw [get8_some h]; simp [List.getD, h]

theorem gfxRow {r m : List Nat} (hr : IsMem r) (hrl : r.length = 0x4300) (hm : IsMem m) (hml : m.length = 0x4300) {y : Nat}
    (hy : y < 0x80) : ∃ t m', gfxText r y = some t ∧ gfxLine m y t = some m' ∧
      RowDone r m m' fun a => 0x40 * y ≤ a ∧ a < 0x40 * y + 0x40 := by
  have addr : ∀ x, x < 128 → (memSpriteAddr x y).1 < 0x4300 := by
    intro x hx
    simp only [memSpriteAddr, Nat.shiftRight_eq_div_pow]; omega
  have hget : ∀ ix : Nat × Bool, ix.1 < 0x4300 → ∃ n, n < 16 ∧ get4 r ix = some n := by
    intro ix hix
    refine ⟨_, ?_, by unfold get4 get8Bits; rw [getD_get8 (by omega)]; rfl⟩
    exact and_lt16 _ (by omega)
  have hval : ∀ x, x < 128 → ∃ n, n < 16 ∧ get4 r (memSpriteAddr x y) = some n := fun x hx => hget _ (addr x hx)
  have ht : gfxText r y = some (((List.range 128).map fun x => (get4 r (memSpriteAddr x y)).getD 0).map hexDigit) := by
    unfold gfxText
    rw [mapM_some (g := fun x => (get4 r (memSpriteAddr x y)).getD 0)]
    · rfl
    · intro x hx
      obtain ⟨n, _, h⟩ := hval x (by simpa using hx)
      rw [h]; rfl
  have hrow := writeRow_spec (f := fun m x b => set4 m (memSpriteAddr x y) b) (lim := 128)
    (fun m => IsMem m ∧ m.length = 0x4300) (fun m (ix : Nat × Bool) => get4 m ix)
    (fun x => (get4 r (memSpriteAddr x y)).getD 0) (fun x ix => ix = memSpriteAddr x y) (fun ix => get4 r ix) (by
      intro s x ⟨s1, s2⟩ hx
      obtain ⟨n, hn, h⟩ := hval x hx
      have H := C12_set4 s s1 (memSpriteAddr x y).1 (memSpriteAddr x y).2 n
      obtain ⟨s', hs'⟩ := Option.isSome_iff_exists.mp (H.1.mpr (by have := addr x hx; omega))
      have H2 := H.2 s' hs'
      refine ⟨s', by simp only [h, Option.getD_some]; exact hs', ⟨H2.2.1, by omega⟩, fun k => ⟨?_, ?_⟩⟩
      · intro hk; subst hk
        rw [h]
        have := H2.2.2.1
        rw [Nat.mod_eq_of_lt hn] at this
        exact this
      · intro hk; exact H2.2.2.2 k hk) 128 0 m (by omega) ⟨hm, hml⟩
  obtain ⟨m', e, ⟨i1, i2⟩, g⟩ := hrow
  refine ⟨_, m', ht, ?_, i1, i2, fun a => ⟨?_, ?_⟩⟩
  · unfold gfxLine
    rw [hexNybbles_digits]
    · rw [List.range_eq_range']; exact e
    · intro n hn
      obtain ⟨x, hx, rfl⟩ := List.mem_map.mp hn
      obtain ⟨n, hn, h⟩ := hval x (by simpa using hx)
      rw [h]; exact hn
  · intro ha
    have key : ∀ b : Bool, ∃ j, 0 ≤ j ∧ j < 0 + 128 ∧ (a, b) = memSpriteAddr j y := by
      intro b
      refine ⟨2 * (a - 0x40 * y) + b.toNat, by omega, by cases b <;> simp <;> omega, ?_⟩
      have e1 := Nat.and_two_pow_sub_one_eq_mod (2 * (a - 0x40 * y) + b.toNat) 1
      simp only [Nat.pow_one, Nat.reduceSub] at e1
      simp only [memSpriteAddr, Nat.shiftRight_eq_div_pow, e1, Prod.mk.injEq]
      cases b
      · simp only [Bool.toNat_false]
        refine ⟨by omega, ?_⟩
        have : (2 * (a - 64 * y) + 0) % 2 = 0 := by omega
        rw [this]; rfl
      · simp only [Bool.toNat_true]
        refine ⟨by omega, ?_⟩
        have : (2 * (a - 64 * y) + 1) % 2 = 1 := by omega
        rw [this]; rfl
    exact get8_of_get4 i1 hr (by omega) ((g _).1 (key false)) ((g _).1 (key true))
  · intro ha
    have key : ∀ b : Bool, ¬ ∃ j, 0 ≤ j ∧ j < 0 + 128 ∧ (a, b) = memSpriteAddr j y := by
      rintro b ⟨j, h1, h2, h3⟩
      have := congrArg Prod.fst h3
      simp only [memSpriteAddr, Nat.shiftRight_eq_div_pow] at this
      exact ha (by omega)
    exact get8_of_get4 i1 hm (by omega) ((g _).2 (key false)) ((g _).2 (key true))

/-- Rows of plain bytes (`map`, `gff`). -/
theorem byteRow {r m : List Nat} (hr : IsMem r) (hrl : r.length = 0x4300) (hm : IsMem m) (hml : m.length = 0x4300)
    {addr : Nat → Nat} {base lim : Nat} (ha : ∀ x, x < lim → addr x = base + x) (hb : base + lim ≤ 0x4300) :
    ∃ l m', (List.range lim).mapM (fun x => get8 r (addr x)) = some l ∧ hexBytes (l.flatMap hex2) = some l ∧
      l.length = lim ∧ (∀ n ∈ l, n < 256) ∧
      writeRow (fun m x b => set8 m (addr x) b) lim m 0 l = some m' ∧
      RowDone r m m' fun a => base ≤ a ∧ a < base + lim := by
  obtain ⟨m', e, h⟩ := writeRow8 hr hrl hm hml hb (fun m x b => set8 m (addr x) b) id (by
    intro m x b hx _; rw [ha x hx]; rfl)
  have hlt : ∀ n ∈ (List.range lim).map fun x => r.getD (base + x) 0, n < 256 := by
    intro n hn
    obtain ⟨x, hx, rfl⟩ := List.mem_map.mp hn
    have hx' : x < lim := by simpa using hx
    exact get8_lt hr (getD_get8 (by omega))
  refine ⟨(List.range lim).map fun x => r.getD (base + x) 0, m', ?_, hexBytes_hex2 hlt, by simp, hlt, e, h⟩
  apply mapM_some
  intro x hx
  have hx' : x < lim := by simpa using hx
  rw [ha x hx', getD_get8 (by omega)]

theorem mapRow {r m : List Nat} (hr : IsMem r) (hrl : r.length = 0x4300) (hm : IsMem m) (hml : m.length = 0x4300) {y : Nat}
    (hy : y < 0x20) : ∃ t m', mapText r y = some t ∧ mapLine m y t = some m' ∧
      RowDone r m m' fun a => 0x2000 + 0x80 * y ≤ a ∧ a < 0x2000 + 0x80 * y + 0x80 := by
  obtain ⟨l, m', h1, h2, _, _, h3, h4⟩ := byteRow hr hrl hm hml (addr := fun x => memMapAddr x y)
    (base := 0x2000 + 0x80 * y) (lim := 128) (by intro x hx; simp only [memMapAddr, if_neg (by omega : ¬ y ≥ 32)]; omega) (by omega)
  exact ⟨_, m', by unfold mapText; rw [h1]; rfl, by unfold mapLine; rw [h2]; exact h3, h4⟩

theorem gffRow {r m : List Nat} (hr : IsMem r) (hrl : r.length = 0x4300) (hm : IsMem m) (hml : m.length = 0x4300) {y : Nat}
    (hy : y < 2) : ∃ t m', gffText r y = some t ∧ gffLine m y t = some m' ∧
      RowDone r m m' fun a => 0x3000 + 0x80 * y ≤ a ∧ a < 0x3000 + 0x80 * y + 0x80 := by
  obtain ⟨l, m', h1, h2, _, _, h3, h4⟩ := byteRow hr hrl hm hml (addr := fun x => memFlagAddr x y)
    (base := 0x3000 + 0x80 * y) (lim := 128) (by intro x hx; simp only [memFlagAddr]; omega) (by omega)
  exact ⟨_, m', by unfold gffText; rw [h1]; rfl, by unfold gffLine; rw [h2]; exact h3, h4⟩

theorem flatMap_hex2_length (l : List Nat) : (l.flatMap hex2).length = 2 * l.length := by
  induction l with
  | nil => rfl
  | cons a l ih => rw [List.flatMap_cons, List.length_append, ih]; simp [hex2]; omega

theorem musicRow {r m : List Nat} (hr : IsMem r) (hrl : r.length = 0x4300) (hm : IsMem m) (hml : m.length = 0x4300) {y : Nat}
    (hy : y < 0x40) : ∃ t m', musicText r y = some t ∧ musicLine m y t = some m' ∧
      RowDone r m m' fun a => 0x3100 + 4 * y ≤ a ∧ a < 0x3100 + 4 * y + 4 := by
  obtain ⟨l, _, h1, _, hlen, hlt, _, _⟩ := byteRow hr hrl hm hml (addr := fun x => memMusicAddr y x)
    (base := 0x3100 + 4 * y) (lim := 4) (by intro x hx; simp only [memMusicAddr]; omega) (by omega)
  have hl : l = (List.range 4).map fun x => r.getD (0x3100 + 4 * y + x) 0 := by
    have := mapM_some (l := List.range 4) (f := fun x => get8 r (memMusicAddr y x))
      (g := fun x => r.getD (0x3100 + 4 * y + x) 0) (by
        intro x hx
        have hx' : x < 4 := by simpa using hx
        simp only [memMusicAddr]
        rw [show 0x3100 + y * 4 + x = 0x3100 + 4 * y + x by omega, getD_get8 (by omega)])
    rw [h1] at this; exact Option.some.inj this
  match l, hlen with
  | [a, b, c, d], _ =>
    have hfl := musicFlags_bit a b c d
    obtain ⟨m', e, h⟩ := writeRow8 hr hrl hm hml (lim := 4) (base := 0x3100 + 4 * y) (by omega)
      (fun rom x v => set8 rom (memMusicAddr y x) (v ||| (((musicFlags [a, b, c, d] >>> x) &&& 1) <<< 7)))
      (fun ch => ch &&& 0x7f) (by
        intro m x ch hx hch
        have hi : [a, b, c, d][x]? = some ch := by
          rw [hl, List.getElem?_map, List.getElem?_range hx, Option.map_some, ← hch, getD_get8 (by omega)]
        rw [hfl.2 x ch hi, (chan_split (get8_lt hr hch)).1]
        simp only [memMusicAddr]
        rw [show 0x3100 + y * 4 + x = 0x3100 + 4 * y + x by omega])
    refine ⟨_, m', by unfold musicText; rw [h1]; rfl, ?_, h⟩
    unfold musicLine
    have e1 : (hex2 (musicFlags [a, b, c, d]) ++ 32 :: [a, b, c, d].flatMap fun ch => hex2 (ch &&& 0x7f)).take 2 =
        [musicFlags [a, b, c, d]].flatMap hex2 := by simp [hex2]
    have e2 : (hex2 (musicFlags [a, b, c, d]) ++ 32 :: [a, b, c, d].flatMap fun ch => hex2 (ch &&& 0x7f)).drop 3 =
        ([a, b, c, d].map fun ch => ch &&& 0x7f).flatMap hex2 := by simp [hex2]
    rw [e1, e2, hexBytes_hex2 (by simp; exact hfl.1), hexBytes_hex2]
    · have e3 : ([a, b, c, d].map fun ch => ch &&& 0x7f) =
          (List.range 4).map fun x => r.getD (0x3100 + 4 * y + x) 0 &&& 0x7f := by rw [hl, List.map_map]; rfl
      rw [e3]
      exact e
    · intro n hn
      obtain ⟨x, hx, rfl⟩ := List.mem_map.mp hn
      exact (chan_split (hlt x hx)).2

theorem sfxRow {r m : List Nat} (hr : IsMem r) (hrl : r.length = 0x4300) (hm : IsMem m) (hml : m.length = 0x4300) {y : Nat}
    (hy : y < 0x40) : ∃ t m', sfxText r y = some t ∧ sfxLine m y t = some m' ∧
      RowDone r m m' fun a => 0x3200 + 0x44 * y ≤ a ∧ a < 0x3200 + 0x44 * y + 0x44 := by
  obtain ⟨info, m1, h1, h2, hlen, hlt, h3, h4⟩ := byteRow hr hrl hm hml (addr := fun x => memSfxInfoAddr y x)
    (base := 0x3200 + 0x44 * y + 0x40) (lim := 4) (by intro x hx; simp only [memSfxInfoAddr, memSfxAddr]; omega) (by omega)
  have addr : ∀ x, memSfxAddr y x = 0x3200 + 0x44 * y + 2 * x := by intro x; simp only [memSfxAddr]; omega
  let note := fun x => r.getD (0x3200 + 0x44 * y + 2 * x) 0 + r.getD (0x3200 + 0x44 * y + 2 * x + 1) 0 * 256
  have bl : ∀ a, a < 0x4300 → r.getD a 0 < 256 := fun a ha => get8_lt hr (getD_get8 (by omega))
  have hnote : ∀ x, x < 32 → get16 r (memSfxAddr y x) = some (note x) ∧ note x < 65536 := by
    intro x hx
    have b1 := bl (0x3200 + 0x44 * y + 2 * x) (by omega)
    have b2 := bl (0x3200 + 0x44 * y + 2 * x + 1) (by omega)
    refine ⟨?_, by simp only [note]; omega⟩
    unfold get16
    rw [addr, getD_get8 (by omega), getD_get8 (by omega)]
    simp only
    rw [or_shift_lt 8 b1]
  have hn : (List.range 32).mapM (fun x => get16 r (memSfxAddr y x)) = some ((List.range 32).map note) :=
    mapM_some fun x hx => (hnote x (by simpa using hx)).1
  obtain ⟨m2, e, ⟨i1, i2⟩, g⟩ := writeRow_spec (lim := 0x20)
    (f := fun rom x g => match noteOf g with
      | none => none
      | some v => set16 rom (memSfxAddr y x) (v : Int))
    (fun m => IsMem m ∧ m.length = 0x4300) get8 (fun x => noteDigits (note x))
    (fun x a => a = 0x3200 + 0x44 * y + 2 * x ∨ a = 0x3200 + 0x44 * y + 2 * x + 1) (get8 r) (by
      intro s x ⟨s1, s2⟩ hx
      rw [noteOf_noteDigits (hnote x hx).2]
      have b1 := bl (0x3200 + 0x44 * y + 2 * x) (by omega)
      have b2 := bl (0x3200 + 0x44 * y + 2 * x + 1) (by omega)
      have H := C12_set16 s (memSfxAddr y x) (note x : Int)
      obtain ⟨s', hs'⟩ := Option.isSome_iff_exists.mp (H.1.mpr (by rw [addr]; omega))
      have H2 := H.2 s' hs'
      refine ⟨s', hs', ⟨H2.2.1 s1, by omega⟩, fun k => ⟨?_, ?_⟩⟩
      · intro hk
        have hg := H2.2.2.1
        have hv : ((note x : Int) % 65536).toNat = note x := by
          have := (hnote x hx).2; omega
        rw [hv, addr] at hg
        unfold get16 at hg
        have hsl := H2.1
        rw [getD_get8 (by omega), getD_get8 (by omega)] at hg
        simp only [Option.some.injEq] at hg
        have c1 : s'.getD (0x3200 + 0x44 * y + 2 * x) 0 < 256 := get8_lt (H2.2.1 s1) (getD_get8 (by omega))
        have c2 : s'.getD (0x3200 + 0x44 * y + 2 * x + 1) 0 < 256 := get8_lt (H2.2.1 s1) (getD_get8 (by omega))
        rw [or_shift_lt 8 c1] at hg
        simp only [note] at hg
        rcases hk with hk | hk <;> subst hk
        · rw [getD_get8 (by omega), getD_get8 (by omega)]; congr 1; omega
        · rw [getD_get8 (by omega), getD_get8 (by omega)]; congr 1; omega
      · intro hk
        rw [addr] at H2
        exact H2.2.2.2 k (by omega) (by omega)) 32 0 m1 (by omega) ⟨h4.1, h4.2.1⟩
  have hil : (info.flatMap hex2).length = 8 := by rw [flatMap_hex2_length, hlen]
  refine ⟨info.flatMap hex2 ++ ((List.range 32).map note).flatMap fun n => (noteDigits n).map hexDigit, m2, ?_, ?_, i1, i2, ?_⟩
  · unfold sfxText; rw [h1]; simp only; rw [hn]
  · unfold sfxLine
    rw [List.take_left' hil, List.drop_left' hil, h2]
    simp only
    rw [h3]
    simp only
    have e5 : (((List.range 32).map note).flatMap fun n => (noteDigits n).map hexDigit) =
        ((List.range 32).map fun x => noteDigits (note x)).flatMap fun g => g.map hexDigit := by
      simp [List.flatMap_map]
    rw [e5, hexGroups5_digits]
    · simp only; rw [List.range_eq_range']; exact e
    · intro g hg
      obtain ⟨x, _, rfl⟩ := List.mem_map.mp hg
      exact noteDigits_lt _
  · intro a
    by_cases hn : ∃ j, 0 ≤ j ∧ j < 0 + 32 ∧ (a = 0x3200 + 0x44 * y + 2 * j ∨ a = 0x3200 + 0x44 * y + 2 * j + 1)
    · obtain ⟨j, h5, h6, h7⟩ := hn
      exact ⟨fun _ => (g a).1 ⟨j, h5, h6, h7⟩, fun h => absurd (by omega) h⟩
    · have hna : ¬ (0x3200 + 0x44 * y ≤ a ∧ a < 0x3200 + 0x44 * y + 0x40) := by
        intro h
        exact hn ⟨(a - (0x3200 + 0x44 * y)) / 2, by omega, by omega, by omega⟩
      rw [(g a).2 hn]
      exact ⟨fun h => (h4.2.2 a).1 (by omega), fun h => (h4.2.2 a).2 (by omega)⟩

end Verif
