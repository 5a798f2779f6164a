import Verif.Spec.NumLit
import Verif.Props.Num
import Verif.Props.StrDen
/-! C18, C19: number literals against what they denote. -/
namespace Verif
open NumSpec (Digits IsDigit Prefix FixAbs Fix Wraps IntAbs LuaInt)

theorem isDigit_hexVal {base c d : Nat} (hb : base ≤ 16) : IsDigit base c d ↔ d < base ∧ hexVal c = some d := by
  unfold IsDigit hexVal
  constructor
  · rintro ⟨h1, h2⟩
    refine ⟨h1, ?_⟩
    rcases h2 with ⟨h2, rfl⟩ | ⟨h2, h3, h4 | h4⟩
    · rw [if_pos (by omega)]; congr 1; omega
    · rw [if_neg (by omega), if_pos (by omega)]; congr 1; omega
    · rw [if_neg (by omega), if_neg (by omega), if_pos (by omega)]; congr 1; omega
  · rintro ⟨h1, h2⟩
    refine ⟨h1, ?_⟩
    split at h2
    · simp at h2; omega
    · split at h2
      · simp at h2; omega
      · split at h2
        · simp at h2; omega
        · cases h2

theorem hexVal_lower (c : Nat) : hexVal (lowerChar c) = hexVal c := by
  unfold lowerChar
  split
  · unfold hexVal
    split
    · omega
    · split
      · rw [if_neg (by omega), if_neg (by omega), if_pos (by omega)]; congr 1
      · split
        · omega
        · rw [if_neg (by omega), if_neg (by omega), if_neg (by omega)]
  · rfl

theorem isBaseDigit_iff {base c : Nat} : isBaseDigit base c = true ↔ ∃ d, d < base ∧ hexVal c = some d := by
  unfold isBaseDigit
  cases hexVal c <;> simp

/-- Rows of digits, as the parser values them. -/
theorem digits_iff {base : Nat} (hb : base ≤ 16) (t : List Nat) (n : Nat) :
    Digits base t n ↔ (t.map lowerChar).all (isBaseDigit base) = true ∧ digitsVal base (t.map lowerChar) = n := by
  constructor
  · intro h
    induction h with
    | nil => exact ⟨rfl, rfl⟩
    | snoc h hd ih =>
      obtain ⟨h1, h2⟩ := (isDigit_hexVal hb).1 hd
      obtain ⟨i1, i2⟩ := ih
      rw [List.map_append, List.all_append, i1, List.map_cons, List.map_nil, digitsVal_concat, i2, hexVal_lower, h2]
      refine ⟨?_, by simp [Nat.mul_comm]⟩
      simp only [List.all_cons, List.all_nil, Bool.and_true, Bool.true_and]
      exact isBaseDigit_iff.2 ⟨_, h1, by rw [hexVal_lower, h2]⟩
  · rintro ⟨h1, rfl⟩
    induction t using snoc_induction with
    | h0 => exact .nil
    | h1 t c ih =>
      rw [List.map_append, List.all_append, Bool.and_eq_true] at h1
      have hc := h1.2
      simp only [List.map_cons, List.map_nil, List.all_cons, List.all_nil, Bool.and_true] at hc
      obtain ⟨d, h2, h3⟩ := isBaseDigit_iff.1 hc
      rw [List.map_append, List.map_cons, List.map_nil, digitsVal_concat, h3, Option.getD_some, Nat.mul_comm]
      exact .snoc (ih h1.1) ((isDigit_hexVal hb).2 ⟨h2, by rw [← hexVal_lower]; exact h3⟩)

theorem span_all {p : Nat → Bool} {t r : List Nat} (h : t.all p = true) (hr : ∀ c, r.head? = some c → p c = false) :
    (t ++ r).takeWhile p = t ∧ (t ++ r).dropWhile p = r := by
  induction t with
  | nil =>
    cases r with
    | nil => exact ⟨rfl, rfl⟩
    | cons c r => have := hr c rfl; simp [this]
  | cons c t ih =>
    simp only [List.all_cons, Bool.and_eq_true] at h
    simp [h.1, ih h.2]

theorem lower_eq_iff {c : Nat} : (lowerChar c = 46 ↔ c = 46) ∧ (lowerChar c = 45 ↔ c = 45) ∧ (lowerChar c = 126 ↔ c = 126) ∧
    (lowerChar c = 48 ↔ c = 48) ∧ (lowerChar c = 120 ↔ c = 120 ∨ c = 88) ∧ (lowerChar c = 98 ↔ c = 98 ∨ c = 66) := by
  unfold lowerChar; split <;> omega

/-- The parser after the prefix, in lower case. -/
def afterPrefix (base : Nat) (s : List Nat) : Option Nat :=
  match s.dropWhile (isBaseDigit base) with
  | [] => some (digitsVal base (s.takeWhile (isBaseDigit base)) * 65536 % 2 ^ 32)
  | c :: r =>
    if c = 46 ∧ r.dropWhile (isBaseDigit base) = [] then
      some ((digitsVal base (s.takeWhile (isBaseDigit base)) * base ^ (r.takeWhile (isBaseDigit base)).length +
        digitsVal base (r.takeWhile (isBaseDigit base))) * 65536 / base ^ (r.takeWhile (isBaseDigit base)).length % 2 ^ 32)
    else none

theorem parseFixAbs_eq (s : List Nat) : parseFixAbs s =
    if s.take 2 = [48, 120] then afterPrefix 16 (s.drop 2) else if s.take 2 = [48, 98] then afterPrefix 2 (s.drop 2) else afterPrefix 10 s := by
  unfold parseFixAbs afterPrefix
  by_cases h : s.take 2 = [48, 120]
  · rw [if_pos h, if_pos h]; rfl
  · rw [if_neg h, if_neg h]
    by_cases h : s.take 2 = [48, 98]
    · rw [if_pos h, if_pos h]; rfl
    · rw [if_neg h, if_neg h]; rfl

/-- What follows the prefix denotes. -/
inductive Tail (base : Nat) : List Nat → Nat → Prop
  | int {t : List Nat} {n v : Nat} (h : Digits base t n) (hv : v = 65536 * n % 2 ^ 32) : Tail base t v
  | frac {t u : List Nat} {n m w v : Nat} (h1 : Digits base t n) (h2 : Digits base u m)
      (hw : w * base ^ u.length ≤ 65536 * (n * base ^ u.length + m)) (hw' : 65536 * (n * base ^ u.length + m) < (w + 1) * base ^ u.length)
      (hv : v = w % 2 ^ 32) : Tail base (t ++ [46] ++ u) v

theorem all_takeWhile_eq (p : Nat → Bool) (l : List Nat) : (l.takeWhile p).all p = true := by
  rw [List.all_eq_true]
  exact fun c hc => mem_takeWhile_true hc

theorem dot_not_digit (base : Nat) : isBaseDigit base 46 = false := by
  unfold isBaseDigit; rfl

theorem map_split_cons {t a r : List Nat} {x : Nat} (h : t.map lowerChar = a ++ x :: r) :
    ∃ t1 c t2, t = t1 ++ c :: t2 ∧ t1.map lowerChar = a ∧ lowerChar c = x ∧ t2.map lowerChar = r := by
  induction a generalizing t with
  | nil =>
    cases t with
    | nil => simp at h
    | cons c t =>
      simp only [List.map_cons, List.nil_append, List.cons.injEq] at h
      exact ⟨[], c, t, rfl, rfl, h.1, h.2⟩
  | cons y a ih =>
    cases t with
    | nil => simp at h
    | cons c t =>
      simp only [List.map_cons, List.cons_append, List.cons.injEq] at h
      obtain ⟨t1, d, t2, rfl, h2, h3, h4⟩ := ih h.2
      exact ⟨c :: t1, d, t2, rfl, by rw [List.map_cons, h.1, h2], h3, h4⟩

theorem tail_iff {base : Nat} (hb : base ≤ 16) (h0 : 0 < base) (t : List Nat) (v : Nat) :
    afterPrefix base (t.map lowerChar) = some v ↔ Tail base t v := by
  constructor
  · intro h
    unfold afterPrefix at h
    have hcat := List.takeWhile_append_dropWhile (p := isBaseDigit base) (l := t.map lowerChar)
    have hall := all_takeWhile_eq (isBaseDigit base) (t.map lowerChar)
    cases hd : (t.map lowerChar).dropWhile (isBaseDigit base) with
    | nil =>
      rw [hd, List.append_nil] at hcat
      rw [hd, hcat] at h
      rw [hcat] at hall
      exact .int ((digits_iff hb t _).2 ⟨hall, rfl⟩) (by rw [Nat.mul_comm]; exact (Option.some.inj h).symm)
    | cons c r =>
      rw [hd] at h hcat
      simp only at h
      split at h
      · rename_i hc
        obtain ⟨rfl, hr⟩ := hc
        have hcat2 := List.takeWhile_append_dropWhile (p := isBaseDigit base) (l := r)
        have hall2 := all_takeWhile_eq (isBaseDigit base) r
        rw [hr, List.append_nil] at hcat2
        rw [hcat2] at h hall2
        obtain ⟨t1, c, t2, rfl, e1, e2, e3⟩ := map_split_cons hcat.symm
        rw [lower_eq_iff.1] at e2
        subst e2
        rw [← e1] at h hall
        rw [← e3] at h hall2
        rw [List.length_map] at h
        rw [show t1 ++ 46 :: t2 = t1 ++ [46] ++ t2 by simp]
        have hpos : 0 < base ^ t2.length := Nat.pow_pos h0
        refine .frac (w := (digitsVal base (t1.map lowerChar) * base ^ t2.length + digitsVal base (t2.map lowerChar)) * 65536 / base ^ t2.length)
          ((digits_iff hb t1 _).2 ⟨hall, rfl⟩) ((digits_iff hb t2 _).2 ⟨hall2, rfl⟩) ?_ ?_ (Option.some.inj h).symm
        · rw [Nat.mul_comm 65536]
          exact Nat.div_mul_le_self _ _
        · rw [Nat.mul_comm 65536, Nat.mul_comm (_ + 1) (base ^ t2.length)]
          exact Nat.lt_mul_div_succ _ hpos
      · cases h
  · intro h
    cases h with
    | @int _ n _ h hv =>
      obtain ⟨h1, h2⟩ := (digits_iff hb _ _).1 h
      have := span_all (r := []) h1 (by simp)
      rw [List.append_nil] at this
      unfold afterPrefix
      rw [this.2, this.1, h2, hv, Nat.mul_comm]
    | @frac t u n m w _ h1 h2 hw hw' hv =>
      obtain ⟨a1, a2⟩ := (digits_iff hb _ _).1 h1
      obtain ⟨b1, b2⟩ := (digits_iff hb _ _).1 h2
      have e : (t ++ [46] ++ u).map lowerChar = t.map lowerChar ++ 46 :: u.map lowerChar := by
        simp [lowerChar]
      have s1 := span_all (r := 46 :: u.map lowerChar) a1 (by
        intro c hc; simp at hc; subst hc; exact dot_not_digit base)
      have s2 := span_all (r := []) b1 (by simp)
      rw [List.append_nil] at s2
      unfold afterPrefix
      rw [e, s1.1, s1.2]
      simp only
      rw [s2.1, s2.2, if_pos ⟨trivial, rfl⟩, a2, b2, List.length_map, hv]
      congr 2
      have hpos : 0 < base ^ u.length := Nat.pow_pos h0
      rw [Nat.mul_comm]
      exact Nat.div_eq_of_lt_le hw hw'

/-- What `parse_fixnum` reads after the sign is what the literal denotes, and it reads nothing else. -/
theorem fixAbs_iff (t : List Nat) (v : Nat) : parseFixAbs (t.map lowerChar) = some v ↔ FixAbs t v := by
  have two : ∀ x, (t.map lowerChar).take 2 = [48, x] → ∃ c r, t = 48 :: c :: r ∧ lowerChar c = x := by
    intro x h
    match t, h with
    | [], h => simp at h
    | [_], h => simp at h
    | a :: c :: r, h =>
      simp only [List.map_cons, List.take_succ_cons, List.take_zero, List.cons.injEq, and_true] at h
      rw [lower_eq_iff.2.2.2.1] at h
      exact ⟨c, r, by rw [h.1], h.2⟩
  rw [parseFixAbs_eq]
  constructor
  · intro h
    split at h
    · rename_i h1
      obtain ⟨c, r, rfl, hc⟩ := two _ h1
      rw [lower_eq_iff.2.2.2.2.1] at hc
      have h : afterPrefix 16 (r.map lowerChar) = some v := h
      rw [tail_iff (by omega) (by omega)] at h
      cases h with
      | int h hv => exact .int (.hex hc) h hv
      | frac a1 a2 a3 a4 a5 =>
        have := FixAbs.frac (.hex hc) a1 a2 a3 a4 a5
        simpa using this
    · split at h
      · rename_i h1
        obtain ⟨c, r, rfl, hc⟩ := two _ h1
        rw [lower_eq_iff.2.2.2.2.2] at hc
        have h : afterPrefix 2 (r.map lowerChar) = some v := h
        rw [tail_iff (by omega) (by omega)] at h
        cases h with
        | int h hv => exact .int (.bin hc) h hv
        | frac a1 a2 a3 a4 a5 =>
          have := FixAbs.frac (.bin hc) a1 a2 a3 a4 a5
          simpa using this
      · rw [tail_iff (by omega) (by omega)] at h
        cases h with
        | int h hv => exact .int .dec h hv
        | frac h1 h2 h3 h4 h5 => exact .frac .dec h1 h2 h3 h4 h5
  · intro h
    -- decimal digits are neither x nor b
    have nodec : ∀ s w, Tail 10 s w → (s.map lowerChar).take 2 ≠ [48, 120] ∧ (s.map lowerChar).take 2 ≠ [48, 98] := by
      intro s w hs
      have hch : ∀ c ∈ s.map lowerChar, isBaseDigit 10 c = true ∨ c = 46 := by
        cases hs with
        | int h _ =>
          have := ((digits_iff (by omega) _ _).1 h).1
          rw [List.all_eq_true] at this
          exact fun c hc => .inl (this c hc)
        | frac h1 h2 _ _ _ =>
          have h1 := ((digits_iff (by omega) _ _).1 h1).1
          have h2 := ((digits_iff (by omega) _ _).1 h2).1
          rw [List.all_eq_true] at h1 h2
          intro c hc
          rw [List.map_append, List.map_append, List.mem_append, List.mem_append] at hc
          rcases hc with (hc | hc) | hc
          · exact .inl (h1 c hc)
          · right; simpa [lowerChar] using hc
          · exact .inl (h2 c hc)
      have key : ∀ x, isBaseDigit 10 x = false → x ≠ 46 → (s.map lowerChar).take 2 ≠ [48, x] := by
        intro x h1 h2 h3
        have : x ∈ s.map lowerChar := List.mem_of_mem_take (i := 2) (by rw [h3]; simp)
        rcases hch x this with h | h
        · rw [h1] at h; cases h
        · exact h2 h
      exact ⟨key 120 (by decide) (by decide), key 98 (by decide) (by decide)⟩
    have combine : ∀ {p s base}, Prefix p base → Tail base s v → t = p ++ s →
        (if (t.map lowerChar).take 2 = [48, 120] then afterPrefix 16 ((t.map lowerChar).drop 2)
          else if (t.map lowerChar).take 2 = [48, 98] then afterPrefix 2 ((t.map lowerChar).drop 2)
          else afterPrefix 10 (t.map lowerChar)) = some v := by
      intro p s base hp ht e
      subst e
      cases hp with
      | dec =>
        rw [List.nil_append, if_neg (nodec s v ht).1, if_neg (nodec s v ht).2]
        exact (tail_iff (by omega) (by omega) s v).2 ht
      | @hex x hx =>
        have := lower_eq_iff.2.2.2.2.1.2 hx
        simp only [List.cons_append, List.nil_append, List.map_cons, this, List.take_succ_cons, List.take_zero, List.drop_succ_cons, List.drop_zero]
        rw [if_pos (by simp [lowerChar])]
        exact (tail_iff (by omega) (by omega) s v).2 ht
      | @bin x hx =>
        have := lower_eq_iff.2.2.2.2.2.2 hx
        simp only [List.cons_append, List.nil_append, List.map_cons, this, List.take_succ_cons, List.take_zero, List.drop_succ_cons, List.drop_zero]
        rw [if_neg (by simp), if_pos (by simp [lowerChar])]
        exact (tail_iff (by omega) (by omega) s v).2 ht
    cases h with
    | int hp h hv => exact combine hp (.int h hv) rfl
    | frac hp h1 h2 h3 h4 h5 => exact combine hp (.frac h1 h2 h3 h4 h5) (by simp)

theorem parseFixAbs_lt {s : List Nat} {v : Nat} (h : parseFixAbs s = some v) : v < 2 ^ 32 := by
  have : ∀ b t, afterPrefix b t = some v → v < 2 ^ 32 := by
    intro b t h
    unfold afterPrefix at h
    split at h
    · rw [← Option.some.inj h]; exact Nat.mod_lt _ (by decide)
    · split at h
      · rw [← Option.some.inj h]; exact Nat.mod_lt _ (by decide)
      · cases h
  rw [parseFixAbs_eq] at h
  split at h
  · exact this _ _ h
  · split at h <;> exact this _ _ h

theorem fixAbs_sign {t : List Nat} {v : Nat} (h : FixAbs t v) : ∀ c, t.head? = some c → c ≠ 45 ∧ c ≠ 126 := by
  have hd : ∀ {base s n c}, base ≤ 16 → Digits base s n → c ∈ s → c ≠ 45 ∧ c ≠ 126 := by
    intro base s n c hb h hc
    have := ((digits_iff hb _ _).1 h).1
    rw [List.all_eq_true] at this
    have := this _ (List.mem_map_of_mem hc)
    constructor
    · rintro rfl; simp [isBaseDigit, lowerChar, hexVal] at this
    · rintro rfl; simp [isBaseDigit, lowerChar, hexVal] at this
  intro c hc
  cases h with
  | int hp h hv =>
    cases hp with
    | dec => exact hd (by omega) h (List.mem_of_mem_head? hc)
    | hex hx => simp at hc; omega
    | bin hx => simp at hc; omega
  | @frac p t u base n m w _ hp h1 h2 h3 h4 h5 =>
    cases hp with
    | dec =>
      cases t with
      | nil => simp at hc; omega
      | cons a t => exact hd (by omega) h1 (by simp at hc; simp [hc])
    | hex hx => simp at hc; omega
    | bin hx => simp at hc; omega

/-- **C18.** The parser reads exactly the texts that denote a fixed point number, and gives that number. -/
theorem C18_parse_denotes (s : List Nat) (v : Nat) : parseFixnum s = some v ↔ Fix s v := by
  have pos : ∀ t : List Nat, (∀ c, t.head? = some c → c ≠ 45 ∧ c ≠ 126) → parseFixnum t = parseFixAbs (t.map lowerChar) := by
    intro t ht
    unfold parseFixnum
    cases t with
    | nil => rfl
    | cons c t =>
      have h := ht c rfl
      have h1 : lowerChar c ≠ 45 := fun e => h.1 (lower_eq_iff.2.1.1 e)
      have h2 : lowerChar c ≠ 126 := fun e => h.2 (lower_eq_iff.2.2.1.1 e)
      rw [List.map_cons]
      split
      · rename_i e; exact absurd (List.cons.inj e).1 h1
      · rename_i e; exact absurd (List.cons.inj e).1 h2
      · rfl
  have neg : ∀ t : List Nat, parseFixnum (45 :: t) = (parseFixAbs (t.map lowerChar)).map fun f => (2 ^ 32 - f) % 2 ^ 32 := fun t => rfl
  have bnot : ∀ t : List Nat, parseFixnum (126 :: t) = (parseFixAbs (t.map lowerChar)).map fun f => 2 ^ 32 - 1 - f := fun t => rfl
  constructor
  · intro h
    by_cases h1 : ∃ t, s = 45 :: t
    · obtain ⟨t, rfl⟩ := h1
      rw [neg] at h
      cases ha : parseFixAbs (t.map lowerChar) with
      | none => rw [ha] at h; cases h
      | some f =>
        rw [ha] at h
        have h : (2 ^ 32 - f) % 2 ^ 32 = v := Option.some.inj h
        have := parseFixAbs_lt ha
        exact .neg ((fixAbs_iff t f).1 ha) (by omega) (by omega)
    · by_cases h2 : ∃ t, s = 126 :: t
      · obtain ⟨t, rfl⟩ := h2
        rw [bnot] at h
        cases ha : parseFixAbs (t.map lowerChar) with
        | none => rw [ha] at h; cases h
        | some f =>
          rw [ha] at h
          have h : 2 ^ 32 - 1 - f = v := Option.some.inj h
          have := parseFixAbs_lt ha
          exact .bnot ((fixAbs_iff t f).1 ha) (by omega)
      · have : ∀ c, s.head? = some c → c ≠ 45 ∧ c ≠ 126 := by
          intro c hc
          cases s with
          | nil => cases hc
          | cons a t =>
            have : a = c := by simpa using hc
            subst this
            exact ⟨fun e => h1 ⟨t, by rw [e]⟩, fun e => h2 ⟨t, by rw [e]⟩⟩
        rw [pos s this] at h
        exact .pos ((fixAbs_iff s v).1 h)
  · intro h
    cases h with
    | pos h => rw [pos s (fixAbs_sign h)]; exact (fixAbs_iff s v).2 h
    | @neg t f _ h hw e =>
      have ha := (fixAbs_iff t f).2 h
      have := parseFixAbs_lt ha
      rw [neg, ha, Option.map_some]
      congr 1; omega
    | @bnot t f _ h e =>
      have ha := (fixAbs_iff t f).2 h
      rw [bnot, ha, Option.map_some]
      congr 1; omega

/-- **C18.** Every 32-bit value is written as a text that denotes it. -/
theorem C18_denotes {base : Option Nat} (hb : BaseOk base) {v : Nat} (hv : v < 2 ^ 32) (sign : SignOpt) :
    ∃ t, formatFixnum base v sign = some t ∧ Fix t v := by
  obtain ⟨t, h1, h2⟩ := C18_roundtrip hb hv sign
  exact ⟨t, h1, (C18_parse_denotes t v).1 h2⟩

/-- `0x1.8`, `-0b1.1` and `.00001` (rounded down to zero). -/
example : Fix [48, 120, 49, 46, 56] 0x18000 ∧ Fix [45, 48, 98, 49, 46, 49] (2 ^ 32 - 0x18000) ∧ Fix [46, 48, 48, 48, 48, 49] 0 := by
  simp only [← C18_parse_denotes]
  decide +kernel

/-! ### Integers -/

theorem wraps_iff (n v : Int) : Wraps n v ↔ toLuaInt n = v := by
  unfold Wraps toLuaInt
  constructor
  · rintro ⟨h1, h2, k, h3⟩
    simp only
    have h4 : n % 2 ^ 64 = v % 2 ^ 64 := by rw [h3, Int.add_mul_emod_self_right]
    rw [h4]
    split <;> omega
  · intro h
    simp only at h
    have hk := Int.emod_add_mul_ediv n (2 ^ 64)
    split at h
    · exact ⟨by omega, by omega, n / 2 ^ 64 + 1, by omega⟩
    · exact ⟨by omega, by omega, n / 2 ^ 64, by omega⟩

/-- What is read as an integer, after the sign. -/
theorem intAbs_iff (t : List Nat) (ht : ∀ c ∈ t, ¬ (65 ≤ c ∧ c ≤ 90)) (v : Int) : parseLuaAbs t = .int v ↔ IntAbs t v := by
  have hlow : t.map lowerChar = t := by
    conv => rhs; rw [← List.map_id t]
    apply List.map_congr_left
    intro c hc
    unfold lowerChar
    rw [if_neg (ht c hc)]; rfl
  have hdrop : (t.drop 2).map lowerChar = t.drop 2 := by rw [List.map_drop, hlow]
  have nochar : ∀ {base s n} (c : Nat), base ≤ 16 → isBaseDigit base (lowerChar c) = false → Digits base s n → c ∉ s := by
    intro base s n c hb h0 h hc
    have := ((digits_iff hb _ _).1 h).1
    rw [List.all_eq_true] at this
    rw [this _ (List.mem_map_of_mem hc)] at h0
    cases h0
  unfold parseLuaAbs
  by_cases h16 : t.take 2 = [48, 120]
  · rw [if_pos h16]
    have et : t = [48, 120] ++ t.drop 2 := by rw [← h16, List.take_append_drop]
    constructor
    · intro h
      split at h
      · cases h
      · split at h
        · rename_i hc
          rw [et]
          refine .other (.hex (.inl rfl)) (by omega) hc.1 ((digits_iff (by omega) _ _).2 ⟨by rw [hdrop]; exact hc.2, rfl⟩) ?_
          rw [hdrop, wraps_iff]
          injection h
        · cases h
    · intro h
      have key : ∀ {s n}, t = [48, 120] ++ s → s ≠ [] → Digits 16 s n → Wraps n v →
          (if 46 ∈ t ∨ 112 ∈ t then LuaLit.float
            else if t.drop 2 ≠ [] ∧ (t.drop 2).all (isBaseDigit 16) then .int (toLuaInt (digitsVal 16 (t.drop 2))) else .bad) = .int v := by
        intro s n e hne hd hw
        have es : t.drop 2 = s := by rw [e]; rfl
        have hd2 := (digits_iff (by omega) _ _).1 hd
        rw [← es, hdrop] at hd2
        have n1 := nochar 46 (by omega) (by decide) hd
        have n2 := nochar 112 (by omega) (by decide) hd
        rw [if_neg (by rw [e]; simp [n1, n2]), if_pos ⟨by rw [es]; exact hne, hd2.1⟩, hd2.2, (wraps_iff _ _).1 hw]
      cases h with
      | @dec _ n hne hd hn => exact absurd (by rw [et]; simp) (nochar 120 (by omega) (by decide) hd)
      | @other p s base n _ hp hb hne hd hw =>
        cases hp with
        | dec => exact absurd rfl hb
        | @hex x hx =>
          have : x = 120 := by simpa using h16
          subst this
          exact key rfl hne hd hw
        | @bin x hx => simp at h16; omega
  · rw [if_neg h16]
    by_cases h2 : t.take 2 = [48, 98]
    · rw [if_pos h2]
      have et : t = [48, 98] ++ t.drop 2 := by rw [← h2, List.take_append_drop]
      constructor
      · intro h
        split at h
        · cases h
        · split at h
          · rename_i hc
            rw [et]
            refine .other (.bin (.inl rfl)) (by omega) hc.1 ((digits_iff (by omega) _ _).2 ⟨by rw [hdrop]; exact hc.2, rfl⟩) ?_
            rw [hdrop, wraps_iff]
            injection h
          · cases h
      · intro h
        have key : ∀ {s n}, t = [48, 98] ++ s → s ≠ [] → Digits 2 s n → Wraps n v →
            (if 46 ∈ t then LuaLit.float
              else if t.drop 2 ≠ [] ∧ (t.drop 2).all (isBaseDigit 2) then .int (toLuaInt (digitsVal 2 (t.drop 2))) else .bad) = .int v := by
          intro s n e hne hd hw
          have es : t.drop 2 = s := by rw [e]; rfl
          have hd2 := (digits_iff (by omega) _ _).1 hd
          rw [← es, hdrop] at hd2
          have n1 := nochar 46 (by omega) (by decide) hd
          rw [if_neg (by rw [e]; simp [n1]), if_pos ⟨by rw [es]; exact hne, hd2.1⟩, hd2.2, (wraps_iff _ _).1 hw]
        cases h with
        | @dec _ n hne hd hn => exact absurd (by rw [et]; simp) (nochar 98 (by omega) (by decide) hd)
        | @other p s base n _ hp hb hne hd hw =>
          cases hp with
          | dec => exact absurd rfl hb
          | @hex x hx => simp at h2; omega
          | @bin x hx =>
            have : x = 98 := by simpa using h2
            subst this
            exact key rfl hne hd hw
    · rw [if_neg h2]
      constructor
      · intro h
        split at h
        · cases h
        · split at h
          · rename_i hc
            split at h
            · rename_i hlt
              injection h with h
              have hd := (digits_iff (base := 10) (by omega) t _).2 ⟨by rw [hlow]; exact hc.2, rfl⟩
              rw [hlow] at hd
              have : toLuaInt (digitsVal 10 t : Nat) = (digitsVal 10 t : Nat) := by
                rw [← wraps_iff]; exact ⟨by omega, by omega, 0, by simp⟩
              rw [← h, this]
              exact .dec hc.1 hd hlt
            · cases h
          · cases h
      · intro h
        cases h with
        | @dec _ n hne hd hn =>
          have hd2 := (digits_iff (by omega) _ _).1 hd
          rw [hlow] at hd2
          have n1 := nochar 46 (by omega) (by decide) hd
          have n2 := nochar 101 (by omega) (by decide) hd
          rw [if_neg (by simp [n1, n2]), if_pos ⟨hne, hd2.1⟩, hd2.2, if_pos hn]
          congr 1
          rw [← wraps_iff]; exact ⟨by omega, by omega, 0, by simp⟩
        | @other p s base n _ hp hb hne hd hw =>
          cases hp with
          | dec => exact absurd rfl hb
          | @hex x hx =>
            rcases hx with rfl | rfl
            · exact absurd rfl h16
            · exact absurd (by omega) (ht 88 (by simp))
          | @bin x hx =>
            rcases hx with rfl | rfl
            · exact absurd rfl h2
            · exact absurd (by omega) (ht 66 (by simp))

theorem intAbs_range {t : List Nat} {v : Int} (h : IntAbs t v) : -2 ^ 63 ≤ v ∧ v < 2 ^ 63 := by
  cases h with
  | dec _ _ hn => omega
  | other _ _ _ _ hw => exact ⟨hw.1, hw.2.1⟩

theorem intAbs_sign {t : List Nat} {v : Int} (h : IntAbs t v) : ∀ c, t.head? = some c → c ≠ 45 ∧ c ≠ 126 := by
  intro c hc
  cases h with
  | @dec _ n hne hd hn =>
    have := ((digits_iff (by omega) _ _).1 hd).1
    rw [List.all_eq_true] at this
    have := this _ (List.mem_map_of_mem (List.mem_of_mem_head? hc))
    constructor
    · rintro rfl; simp [isBaseDigit, lowerChar, hexVal] at this
    · rintro rfl; simp [isBaseDigit, lowerChar, hexVal] at this
  | @other p s base n _ hp hb hne hd hw =>
    cases hp with
    | dec => exact absurd rfl hb
    | hex hx => simp at hc; omega
    | bin hx => simp at hc; omega

/-- **C19.** A text in lower case is read as an integer exactly if it denotes one, and as that one. -/
theorem C19_parse_denotes (s : List Nat) (hs : ∀ c ∈ s, ¬ (65 ≤ c ∧ c ≤ 90)) (v : Int) : luaDenotes s = .int v ↔ LuaInt s v := by
  have pos : ∀ t : List Nat, (∀ c, t.head? = some c → c ≠ 45 ∧ c ≠ 126) → luaDenotes t = parseLuaAbs t := by
    intro t ht
    unfold luaDenotes
    cases t with
    | nil => rfl
    | cons c t =>
      have h := ht c rfl
      split
      · rename_i e; exact absurd (List.cons.inj e).1 h.1
      · rename_i e; exact absurd (List.cons.inj e).1 h.2
      · rfl
  constructor
  · intro h
    by_cases h1 : ∃ t, s = 45 :: t
    · obtain ⟨t, rfl⟩ := h1
      have ht : ∀ c ∈ t, ¬ (65 ≤ c ∧ c ≤ 90) := fun c hc => hs c (List.mem_cons_of_mem _ hc)
      simp only [luaDenotes] at h
      cases ha : parseLuaAbs t with
      | int w =>
        rw [ha] at h
        simp only [LuaLit.int.injEq] at h
        exact .neg ((intAbs_iff t ht w).1 ha) ((wraps_iff _ _).2 h)
      | float => rw [ha] at h; cases h
      | bad => rw [ha] at h; cases h
    · by_cases h2 : ∃ t, s = 126 :: t
      · obtain ⟨t, rfl⟩ := h2
        have ht : ∀ c ∈ t, ¬ (65 ≤ c ∧ c ≤ 90) := fun c hc => hs c (List.mem_cons_of_mem _ hc)
        simp only [luaDenotes] at h
        cases ha : parseLuaAbs t with
        | int w =>
          rw [ha] at h
          simp only [LuaLit.int.injEq] at h
          have hi := (intAbs_iff t ht w).1 ha
          have hr := intAbs_range hi
          have : toLuaInt (-w - 1) = -w - 1 := by rw [← wraps_iff]; exact ⟨by omega, by omega, 0, by simp⟩
          rw [← h, this]
          exact .bnot hi
        | float => rw [ha] at h; cases h
        | bad => rw [ha] at h; cases h
      · have hh : ∀ c, s.head? = some c → c ≠ 45 ∧ c ≠ 126 := by
          intro c hc
          cases s with
          | nil => cases hc
          | cons a t =>
            have : a = c := by simpa using hc
            subst this
            exact ⟨fun e => h1 ⟨t, by rw [e]⟩, fun e => h2 ⟨t, by rw [e]⟩⟩
        rw [pos s hh] at h
        exact .pos ((intAbs_iff s hs v).1 h)
  · intro h
    cases h with
    | pos h => rw [pos s (intAbs_sign h)]; exact (intAbs_iff s hs v).2 h
    | @neg t w _ h hw =>
      have ha := (intAbs_iff t (fun c hc => hs c (List.mem_cons_of_mem _ hc)) w).2 h
      simp only [luaDenotes, ha, (wraps_iff _ _).1 hw]
    | @bnot t w h =>
      have ha := (intAbs_iff t (fun c hc => hs c (List.mem_cons_of_mem _ hc)) w).2 h
      have hr := intAbs_range h
      have : toLuaInt (-w - 1) = -w - 1 := by rw [← wraps_iff]; exact ⟨by omega, by omega, 0, by simp⟩
      simp only [luaDenotes, ha, this]

theorem natHex_noCaps (n : Nat) : ∀ c ∈ natHex n, ¬ (65 ≤ c ∧ c ≤ 90) := by
  have hd : ∀ d, d < 16 → ¬ (65 ≤ hexDigit d ∧ hexDigit d ≤ 90) := by decide
  induction n using Nat.strongRecOn with
  | ind n ih =>
    intro c hc
    rw [natHex] at hc
    split at hc
    · have : c = hexDigit n := by simpa using hc
      rw [this]; exact hd n (by omega)
    · rw [List.mem_append] at hc
      rcases hc with hc | hc
      · exact ih (n / 16) (by omega) c hc
      · have : c = hexDigit (n % 16) := by simpa using hc
        rw [this]; exact hd _ (by omega)

theorem luaBody_lower {base : Option Nat} {v : Nat} {t : List Nat} (h : luaBody base v = some t) : ∀ c ∈ t, ¬ (65 ≤ c ∧ c ≤ 90) := by
  have h1 : ∀ c ∈ [48, 120] ++ natHex v, ¬ (65 ≤ c ∧ c ≤ 90) := by
    intro c hc
    rw [List.mem_append] at hc
    rcases hc with hc | hc
    · simp at hc; omega
    · exact natHex_noCaps v c hc
  have h2 : ∀ c ∈ natDigits v, ¬ (65 ≤ c ∧ c ≤ 90) := by
    intro c hc; have := natDigits_digit v c hc; omega
  unfold luaBody at h
  simp only at h
  split at h
  · have h := (Option.some.inj h).symm
    subst h
    split
    · exact h1
    · split
      · exact h1
      · exact h2
  · split at h
    · have h := (Option.some.inj h).symm
      subst h; exact h1
    · split at h
      · have h := (Option.some.inj h).symm
        subst h; exact h2
      · cases h

theorem luaSigned_lower {base : Option Nat} {v : Int} {sign : SignOpt} {t : List Nat} (h : luaSigned base v sign = some t) :
    ∀ c ∈ t, ¬ (65 ≤ c ∧ c ≤ 90) := by
  have key : ∀ {b : Option (List Nat)} {x : Nat}, (∀ t, b = some t → ∀ c ∈ t, ¬ (65 ≤ c ∧ c ≤ 90)) → ¬ (65 ≤ x ∧ x ≤ 90) →
      b.map (x :: ·) = some t → ∀ c ∈ t, ¬ (65 ≤ c ∧ c ≤ 90) := by
    intro b x hb hx h c hc
    cases b with
    | none => cases h
    | some u =>
      have h := Option.some.inj h
      subst h
      rcases List.mem_cons.1 hc with rfl | hc
      · exact hx
      · exact hb u rfl c hc
  unfold luaSigned at h
  split at h
  · exact key (fun t => luaBody_lower) (by omega) h
  · exact key (fun t => luaBody_lower) (by omega) h
  · exact luaBody_lower h

theorem formatLuaInt_lower {base : Option Nat} {allowNot : Bool} {v : Int} {sign : SignOpt} {t : List Nat}
    (h : formatLuaInt base allowNot v sign = some t) : ∀ c ∈ t, ¬ (65 ≤ c ∧ c ≤ 90) := by
  unfold formatLuaInt at h
  split at h
  · simp only at h
    split at h
    · cases h
    · rename_i m hm
      split at h
      · split at h
        · rename_i n b hn hb
          have h := (Option.some.inj h).symm
          subst h
          have hm' := luaBody_lower hm
          have hn' := luaSigned_lower hn
          have hb' := luaSigned_lower hb
          have ite : ∀ {p : Prop} [Decidable p] {x y : List Nat}, (∀ c ∈ x, ¬ (65 ≤ c ∧ c ≤ 90)) → (∀ c ∈ y, ¬ (65 ≤ c ∧ c ≤ 90)) →
              ∀ c ∈ (if p then x else y), ¬ (65 ≤ c ∧ c ≤ 90) := by
            intro p _ x y hx hy
            split <;> assumption
          exact ite hb' (ite hn' hm')
        · cases h
      · have h := (Option.some.inj h).symm
        subst h; exact luaBody_lower hm
  · exact luaSigned_lower h

/-- **C19.** Every 64-bit integer is written as a text that denotes it. -/
theorem C19_denotes {base : Option Nat} (hb : base = none ∨ base = some 16) {v : Int} (h1 : -2 ^ 63 ≤ v) (h2 : v < 2 ^ 63)
    (allowNot : Bool) (sign : SignOpt) : ∃ t, formatLuaInt base allowNot v sign = some t ∧ LuaInt t v := by
  obtain ⟨t, h3, h4⟩ := C19_roundtrip hb h1 h2 allowNot sign
  exact ⟨t, h3, (C19_parse_denotes t (formatLuaInt_lower h3) v).1 h4⟩

/-- `-9223372036854775807`, `0xffffffffffffffff` (which is -1) and `~0`. -/
example : LuaInt [48, 120, 102, 102, 102, 102, 102, 102, 102, 102, 102, 102, 102, 102, 102, 102, 102, 102] (-1) ∧ LuaInt [126, 48] (-1) ∧
    LuaInt [45, 57, 50, 50, 51, 51, 55, 50, 48, 51, 54, 56, 53, 52, 55, 55, 53, 56, 48, 55] (-9223372036854775807) := by
  refine ⟨?_, ?_, ?_⟩
  · rw [← C19_parse_denotes _ (by decide)]; decide +kernel
  · rw [← C19_parse_denotes _ (by decide)]; decide +kernel
  · rw [← C19_parse_denotes _ (by decide)]; decide +kernel

end Verif
