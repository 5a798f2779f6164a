import Verif.StrLitLemmas
/-! C17: string literals, C53: extended Unicode escapes. -/
namespace Verif

/-- **C17.** The quoted literal of any string, in either quote style, with or without raw control characters, is parsed back to the
same string (by either language's parser).  `isDig` is Python's `str.isdigit`, of which only the ASCII part is assumed. -/
theorem C17_quoted_parse {isDig : Nat → Bool} (hd : AsciiDig isDig) (pico8 useCtrl : Bool) {quote : Option Nat}
    (hq : ∀ q, quote = some q → q = 34 ∨ q = 39) (v : List Nat) :
    parseLiteral pico8 (formatQuoted isDig useCtrl quote v) = some v := by
  unfold formatQuoted
  have hq' : quote.getD (if v.count 34 ≤ v.count 39 then 34 else 39) = 34 ∨ quote.getD (if v.count 34 ≤ v.count 39 then 34 else 39) = 39 := by
    cases quote with
    | none => simp only [Option.getD_none]; split <;> simp
    | some q => exact hq q rfl
  generalize quote.getD (if v.count 34 ≤ v.count 39 then 34 else 39) = q at hq'
  have hp := parseBody_litParts hd (u := useCtrl) (p := pico8) hq' v
  unfold parseLiteral
  simp only
  split
  · next h =>
    simp only [List.cons.injEq] at h
    omega
  · rw [show (q :: (litParts isDig useCtrl q v ++ [q])).take ((q :: (litParts isDig useCtrl q v ++ [q])).length - 1) =
        q :: litParts isDig useCtrl q v by
      rw [← List.cons_append, List.take_append_of_le_length (by simp)]
      exact List.take_of_length_le (by simp)]
    exact hp

/-- **C17.** A quoted literal is scanned exactly up to its closing quote, whatever follows. -/
theorem C17_quoted_token {isDig : Nat → Bool} (hd : AsciiDig isDig) (useCtrl : Bool) {quote : Option Nat}
    (hq : ∀ q, quote = some q → q = 34 ∨ q = 39) (v t : List Nat) :
    ∃ q r, (q = 34 ∨ q = 39) ∧ formatQuoted isDig useCtrl quote v ++ t = q :: r ∧ scanString q r = some t := by
  have hq' : quote.getD (if v.count 34 ≤ v.count 39 then 34 else 39) = 34 ∨ quote.getD (if v.count 34 ≤ v.count 39 then 34 else 39) = 39 := by
    cases quote with
    | none => simp only [Option.getD_none]; split <;> simp
    | some q => exact hq q rfl
  unfold formatQuoted
  refine ⟨_, _, hq', List.cons_append, ?_⟩
  rw [List.append_assoc]
  exact scanString_litParts hd hq' t v

/-- **C17.** The long bracket literal of any string without carriage returns is parsed back to the same string. -/
theorem C17_long_parse (pico8 : Bool) {v : List Nat} (h : 13 ∉ v) : parseLiteral pico8 (formatLong v) = some v := by
  unfold formatLong
  simp only
  rw [parseLiteral_long]
  · by_cases hv : v.head? = some 10
    · simp [hv]
    · simp [hv]
  · split <;> simp [h]

/-- **C17.** Whatever the options, the literal is parsed back to the same string. -/
theorem C17_any_parse {isDig : Nat → Bool} (hd : AsciiDig isDig) (pico8 useCtrl complexLong : Bool) (long : Option Bool) {quote : Option Nat}
    (hq : ∀ q, quote = some q → q = 34 ∨ q = 39) (v : List Nat) :
    parseLiteral pico8 (formatLiteral isDig useCtrl complexLong long quote v) = some v := by
  unfold formatLiteral
  split
  · next h =>
    split
    · exact C17_long_parse pico8 h.2.2.1
    · split
      · exact C17_long_parse pico8 h.2.2.1
      · exact C17_quoted_parse hd pico8 useCtrl hq v
  · exact C17_quoted_parse hd pico8 useCtrl hq v

/-- **C17.** With the style left open, the literal is no longer than the quoted one, nor than the bracketed one where that one
is possible. -/
theorem C17_shortest (isDig : Nat → Bool) (useCtrl : Bool) (quote : Option Nat) (v : List Nat) :
    (formatLiteral isDig useCtrl true none quote v).length ≤ (formatQuoted isDig useCtrl quote v).length ∧
    (0 ∉ v → 13 ∉ v → (formatLiteral isDig useCtrl true none quote v).length ≤ (formatLong v).length) := by
  unfold formatLiteral
  constructor
  · split
    · rw [if_neg (by simp)]; split <;> omega
    · exact Nat.le_refl _
  · intro h1 h2
    rw [if_pos (by simp [h1, h2]), if_neg (by simp)]
    split <;> omega

/-- **C54.** A long bracket literal is scanned exactly up to its closing bracket, if and only if the string does not end with the
closing bracket less its last character (`]`, then the equal signs). -/
theorem C54_long_token_partial (v t : List Nat) :
    (∃ body, scanLong (formatLong v ++ t) = some (body, t)) ↔ ¬ (93 :: List.replicate (longEqs v) 61) <:+ v := by
  have hform : ∀ body, body = (if v.head? = some 10 then [10] else []) ++ v →
      scanLong (formatLong v ++ t) = splitAt (closer (longEqs v)) (body ++ closer (longEqs v) ++ t) := by
    intro body hb
    unfold formatLong scanLong
    simp only [List.cons_append, List.append_assoc]
    rw [takeWhile_replicate61, List.length_replicate, List.drop_append_of_le_length (by simp), List.drop_of_length_le (by simp)]
    simp only [List.nil_append]
    rw [hb]
    simp [closer]
  obtain ⟨nl, hnl, hnl'⟩ : ∃ nl, nl = (if v.head? = some 10 then [10] else []) ∧ ∀ x ∈ nl, x = 10 := by
    refine ⟨_, rfl, ?_⟩; split <;> simp
  rw [← hnl] at hform
  rw [hform _ rfl]
  have hni : ¬ closer (longEqs v) <:+: nl ++ v := by
    intro h
    rcases List.infix_append_iff.mp h with h | h | ⟨a, b, hab, ha, hb⟩
    · have : (93 : Nat) ∈ nl := h.subset (by simp [closer])
      have := hnl' _ this; omega
    · exact longEqs_spec v h
    · cases a with
      | nil => rw [List.nil_append] at hab; rw [← hab] at hb; exact longEqs_spec v hb.isInfix
      | cons x a =>
        have : x = 93 := by simp only [closer, List.cons_append, List.cons.injEq] at hab; exact hab.1.symm
        subst this
        have := hnl' 93 (ha.subset (by simp)); omega
  constructor
  · rintro ⟨body, hb⟩ ⟨a, ha⟩
    have h1 := splitAt_some hb
    have h2 := splitAt_le hb (a' := nl ++ a) (b' := List.replicate (longEqs v) 61 ++ 93 :: t) (by
      have e : nl ++ v ++ closer (longEqs v) ++ t = nl ++ (a ++ 93 :: List.replicate (longEqs v) 61) ++ closer (longEqs v) ++ t := by rw [ha]
      rw [e]; simp [closer])
    have h3 := congrArg List.length h1
    have h4 := congrArg List.length ha
    simp at h2 h3 h4; omega
  · intro hs
    refine ⟨nl ++ v, splitAt_first (by simp [closer]) (closer_not_early hni ?_)⟩
    intro h
    by_cases hl : (93 :: List.replicate (longEqs v) 61).length ≤ v.length
    · exact hs (List.suffix_of_suffix_length_le h (List.suffix_append nl v) hl)
    · obtain ⟨p, hp⟩ := h
      have h1 := congrArg List.length hp
      simp at h1 hl
      have h2 : (nl ++ v)[p.length]? = some 93 := by rw [← hp]; simp
      rw [List.getElem?_append_left (by omega)] at h2
      have := hnl' _ (List.mem_of_getElem? h2); omega

/-- The options under which the tool's minifier calls the formatter: `]` at the end of a value is a case where the literal breaks. -/
theorem C54_long_token_counterexample : ∃ v : List Nat,
    formatLiteral isDigit true true (some true) none v = [91, 91, 97, 93, 93, 93] ∧
    scanLong [91, 91, 97, 93, 93, 93] = some ([97], [93]) ∧ v = [97, 93] :=
  ⟨[97, 93], by decide +kernel, by decide, rfl⟩

/-- Also when the style is left open (`\\\\\\]` is shortest in brackets). -/
theorem C54_shortest_token_counterexample :
    formatLiteral isDigit true true none none [92, 92, 92, 93] = [91, 91, 92, 92, 92, 93, 93, 93] ∧
    scanLong [91, 91, 92, 92, 92, 93, 93, 93] = some ([92, 92, 92], [93]) := by decide +kernel

/-! Cases meeting the hypotheses. -/
example : AsciiDig isDigit := fun _ _ => rfl
/-- `\0` before a digit and before a letter, both quotes, a newline. -/
example : formatQuoted isDigit true none [0, 49, 0, 97, 34, 34, 39, 10, 92] =
    [39, 92, 48, 48, 48, 49, 92, 48, 97, 34, 34, 92, 39, 92, 110, 92, 92, 39] := by decide
example : formatLong [10, 93, 93, 93, 61, 93, 97] = [91, 61, 61, 91, 10, 10, 93, 93, 93, 61, 93, 97, 93, 61, 61, 93] ∧
    scanLong ([91, 61, 61, 91, 10, 10, 93, 93, 93, 61, 93, 97, 93, 61, 61, 93] ++ [32]) =
      some ([10, 10, 93, 93, 93, 61, 93, 97], [32]) := by decide +kernel

/-! ### C53 -/

/-- The generalised UTF-8 encoding of a number below 2^31, shortest form. -/
def utf8Bytes (v : Nat) : List Nat :=
  if v < 0x80 then [v]
  else if v < 0x800 then [0xc0 + v / 64, 0x80 + v % 64]
  else if v < 0x10000 then [0xe0 + v / 64 / 64, 0x80 + v / 64 % 64, 0x80 + v % 64]
  else if v < 0x200000 then [0xf0 + v / 64 / 64 / 64, 0x80 + v / 64 / 64 % 64, 0x80 + v / 64 % 64, 0x80 + v % 64]
  else if v < 0x4000000 then
    [0xf8 + v / 64 / 64 / 64 / 64, 0x80 + v / 64 / 64 / 64 % 64, 0x80 + v / 64 / 64 % 64, 0x80 + v / 64 % 64, 0x80 + v % 64]
  else
    [0xfc + v / 64 / 64 / 64 / 64 / 64, 0x80 + v / 64 / 64 / 64 / 64 % 64, 0x80 + v / 64 / 64 / 64 % 64, 0x80 + v / 64 / 64 % 64,
      0x80 + v / 64 % 64, 0x80 + v % 64]

theorem extUniLoop_step {p : Bool} {v k : Nat} {s : List Nat} (h : v ≥ 0x40 >>> k) (h0 : v ≠ 0) :
    extUniLoop p v k s = extUniLoop p (v / 64) (k + 1) (langChr p (0x80 + v % 64) :: s) := by
  conv => lhs; unfold extUniLoop
  rw [dif_pos ⟨h, h0⟩, Nat.shiftRight_eq_div_pow]

theorem extUniLoop_stop {p : Bool} {v k : Nat} {s : List Nat} (h : v < 0x40 >>> k) : extUniLoop p v k s = (v, k, s) := by
  unfold extUniLoop
  rw [dif_neg (by omega)]

/-- **C53.** A `\u{...}` escape below 2^31 denotes the (generalised) UTF-8 bytes of the number, each stored in the language's way
(surrogate escapes in Picotron). -/
theorem C53_unicode_escape (p : Bool) {v : Nat} (h : v < 0x80000000) : extUnicode p v = (utf8Bytes v).map (langChr p) := by
  unfold extUnicode utf8Bytes
  by_cases h0 : v < 0x80
  · simp [h0]
  · simp only [if_neg h0]
    rw [extUniLoop_step (by simp; omega) (by omega)]
    by_cases h1 : v < 0x800
    · rw [if_pos h1, extUniLoop_stop (by simp; omega)]; rfl
    · rw [if_neg h1, extUniLoop_step (by simp; omega) (by omega)]
      by_cases h2 : v < 0x10000
      · rw [if_pos h2, extUniLoop_stop (by simp; omega)]; rfl
      · rw [if_neg h2, extUniLoop_step (by simp; omega) (by omega)]
        by_cases h3 : v < 0x200000
        · rw [if_pos h3, extUniLoop_stop (by simp; omega)]; rfl
        · rw [if_neg h3, extUniLoop_step (by simp; omega) (by omega)]
          by_cases h4 : v < 0x4000000
          · rw [if_pos h4, extUniLoop_stop (by simp; omega)]; rfl
          · rw [if_neg h4, extUniLoop_step (by simp; omega) (by omega), extUniLoop_stop (by simp; omega)]; rfl

/-- Reads one generalised UTF-8 sequence: the number and the bytes after it; overlong forms are refused. -/
def utf8Read : List Nat → Option (Nat × List Nat)
  | [] => none
  | b :: r =>
    let k := if b < 0x80 then 0 else if b < 0xc0 then 7 else if b < 0xe0 then 1 else if b < 0xf0 then 2 else if b < 0xf8 then 3
      else if b < 0xfc then 4 else if b < 0xfe then 5 else 7
    let lead := if k = 0 then b else b % 2 ^ (6 - k)
    let cont := r.take k
    let v := cont.foldl (fun a c => a * 64 + c % 64) lead
    let low := [0, 0x80, 0x800, 0x10000, 0x200000, 0x4000000].getD k 0
    if k = 7 ∨ cont.length < k ∨ cont.any (fun c => c / 64 ≠ 2) ∨ v < low then none else some (v, r.drop k)

/-- **C53.** The bytes of an escape are read back as its number, whatever follows; hence no two escapes denote the same bytes. -/
theorem C53_utf8_read {v : Nat} (h : v < 0x80000000) (rest : List Nat) : utf8Read (utf8Bytes v ++ rest) = some (v, rest) := by
  unfold utf8Bytes
  by_cases h0 : v < 0x80
  · simp [h0, utf8Read]
  by_cases h1 : v < 0x800
  · have a0 : ¬ 0xc0 + v / 64 < 0x80 := by omega
    have a1 : ¬ 0xc0 + v / 64 < 0xc0 := by omega
    have a2 : 0xc0 + v / 64 < 0xe0 := by omega
    rw [if_neg h0, if_pos h1]
    simp only [List.cons_append, List.nil_append, utf8Read, a0, a1, a2, if_true, if_false]
    simp
    omega
  by_cases h2 : v < 0x10000
  · have a0 : ¬ 0xe0 + v / 64 / 64 < 0x80 := by omega
    have a1 : ¬ 0xe0 + v / 64 / 64 < 0xc0 := by omega
    have a2 : ¬ 0xe0 + v / 64 / 64 < 0xe0 := by omega
    have a3 : 0xe0 + v / 64 / 64 < 0xf0 := by omega
    rw [if_neg h0, if_neg h1, if_pos h2]
    simp only [List.cons_append, List.nil_append, utf8Read, a0, a1, a2, a3, if_true, if_false]
    simp
    omega
  by_cases h3 : v < 0x200000
  · have a0 : ¬ 0xf0 + v / 64 / 64 / 64 < 0x80 := by omega
    have a1 : ¬ 0xf0 + v / 64 / 64 / 64 < 0xc0 := by omega
    have a2 : ¬ 0xf0 + v / 64 / 64 / 64 < 0xe0 := by omega
    have a3 : ¬ 0xf0 + v / 64 / 64 / 64 < 0xf0 := by omega
    have a4 : 0xf0 + v / 64 / 64 / 64 < 0xf8 := by omega
    rw [if_neg h0, if_neg h1, if_neg h2, if_pos h3]
    simp only [List.cons_append, List.nil_append, utf8Read, a0, a1, a2, a3, a4, if_true, if_false]
    simp
    omega
  by_cases h4 : v < 0x4000000
  · have a0 : ¬ 0xf8 + v / 64 / 64 / 64 / 64 < 0x80 := by omega
    have a1 : ¬ 0xf8 + v / 64 / 64 / 64 / 64 < 0xc0 := by omega
    have a2 : ¬ 0xf8 + v / 64 / 64 / 64 / 64 < 0xe0 := by omega
    have a3 : ¬ 0xf8 + v / 64 / 64 / 64 / 64 < 0xf0 := by omega
    have a4 : ¬ 0xf8 + v / 64 / 64 / 64 / 64 < 0xf8 := by omega
    have a5 : 0xf8 + v / 64 / 64 / 64 / 64 < 0xfc := by omega
    rw [if_neg h0, if_neg h1, if_neg h2, if_neg h3, if_pos h4]
    simp only [List.cons_append, List.nil_append, utf8Read, a0, a1, a2, a3, a4, a5, if_true, if_false]
    simp
    omega
  · have a0 : ¬ 0xfc + v / 64 / 64 / 64 / 64 / 64 < 0x80 := by omega
    have a1 : ¬ 0xfc + v / 64 / 64 / 64 / 64 / 64 < 0xc0 := by omega
    have a2 : ¬ 0xfc + v / 64 / 64 / 64 / 64 / 64 < 0xe0 := by omega
    have a3 : ¬ 0xfc + v / 64 / 64 / 64 / 64 / 64 < 0xf0 := by omega
    have a4 : ¬ 0xfc + v / 64 / 64 / 64 / 64 / 64 < 0xf8 := by omega
    have a5 : ¬ 0xfc + v / 64 / 64 / 64 / 64 / 64 < 0xfc := by omega
    have a6 : 0xfc + v / 64 / 64 / 64 / 64 / 64 < 0xfe := by omega
    rw [if_neg h0, if_neg h1, if_neg h2, if_neg h3, if_neg h4]
    simp only [List.cons_append, List.nil_append, utf8Read, a0, a1, a2, a3, a4, a5, a6, if_true, if_false]
    simp
    omega

/-- **C53.** Different escapes denote different bytes. -/
theorem C53_injective {v v' : Nat} (h : v < 0x80000000) (h' : v' < 0x80000000) (he : utf8Bytes v = utf8Bytes v') : v = v' := by
  have h1 := C53_utf8_read h []
  rw [he, C53_utf8_read h' []] at h1
  simpa using h1.symm

/-- The euro sign, and the largest number allowed. -/
example : extUnicode false 0x20ac = [0xdce2, 0xdc82, 0xdcac] ∧ utf8Bytes 0x7fffffff = [0xfd, 0xbf, 0xbf, 0xbf, 0xbf, 0xbf] := by
  decide +kernel

end Verif
