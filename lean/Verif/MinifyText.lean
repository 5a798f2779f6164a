import Verif.MinifyNorm
import Verif.Props.NumDen
import Verif.Props.StrLit
/-
What `minify_code` does to the literals of PICO-8 programs (pico_minify.py 483-501), with the formatters of C17 and C18, and what literals
mean there.
-/
namespace Verif.Mini
open Syntax LuaNorm
open Paren (Op Lang)

/-- The code points of a text.  Python's texts may have the code points U+D800 to U+DFFF, by which it represents bytes that are no UTF-8
(pico_defs.py 233-239); no character of Lean has them.  They and those above them are moved by 0x800, which leaves out U+10F800 to U+10FFFF
(for private use). -/
def codes (s : String) : List Nat := s.toList.map fun c => if c.toNat < 0xd800 then c.toNat else c.toNat - 0x800

/-- The text with these code points. -/
def text (l : List Nat) : String := String.ofList (l.map fun c => Char.ofNat (if c < 0xd800 then c else c + 0x800))

/-- Code points that texts can have. -/
abbrev Fits (c : Nat) : Prop := c < 0x10f800

/-- pico_minify.py 493-501: a sign is split off (`format_fixnum` gives no parentheses). -/
def numOut : List Nat → NumOut
  | 45 :: t => .signed .minus (text t)
  | 126 :: t => .signed .tilde (text t)
  | t => .plain (text t)

/-- pico_minify.py 486-489. -/
def picoNum (unary : Bool) (s : String) : NumOut :=
  match parseFixnum (codes s) with
  | none => .plain s
  | some v =>
    match formatFixnum none v (if unary then .auto else .plain) with
    | none => .plain s
    | some t => numOut t

/-- pico_minify.py 13-21: `minify_string_literal`. -/
def strOut (p8 : Bool) (isDig : Nat → Bool) (chars v40 : Bool) (s : String) : String :=
  match parseLiteral p8 (codes s) with
  | none => s
  | some v =>
    text (if chars then formatLiteral isDig true v40 none none v else formatLiteral isDig true true (some ((codes s).head? == some 91)) none v)

abbrev picoStr := strOut true

/-- Minifying for PICO-8. -/
def pico (isDig : Nat → Bool) (v37 v40 tokens chars : Bool) : Cfg where
  L := .pico8
  v37 := v37
  focus := tokens
  -- pico_minify.py 344-346
  neg := fun s => (parseFixnum (codes s)).any fun v => decide (2 ^ 31 ≤ v)
  fmt := picoNum
  fstr := picoStr isDig chars v40

/-- A number, written in a unique way. -/
def picoVal (v : Nat) : String := text (natDigits v)

/-- What the literals of PICO-8 mean: 32 bits of fixed point for numbers (`C18_parse_denotes`), characters for strings; `-` and `~` work on 32
bits.  (A sign before a numeral that is none stays.) -/
def picoLit : Lit where
  num := fun s => ((parseFixnum (codes s)).map picoVal).getD s
  sgn := fun o s => ((parseNat (codes s)).bind fun v =>
    if v < 2 ^ 32 then some (picoVal (if o = .minus then (2 ^ 32 - v) % 2 ^ 32 else 2 ^ 32 - 1 - v)) else none).getD
    ((if o = .minus then "-" else "~") ++ s)
  str := fun s => ((parseLiteral true (codes s)).map text).getD s

/-! ### Characters -/

theorem toNat_ofNat {c : Nat} (h : c.isValidChar) : (Char.ofNat c).toNat = c := by
  unfold Char.ofNat
  rw [dif_pos h]
  rfl

theorem code_char {c : Nat} (h : Fits c) : (fun c : Char => if c.toNat < 0xd800 then c.toNat else c.toNat - 0x800)
    (Char.ofNat (if c < 0xd800 then c else c + 0x800)) = c := by
  unfold Fits at h
  dsimp only
  by_cases hc : c < 0xd800
  · rw [if_pos hc, toNat_ofNat (.inl (by omega)), if_pos hc]
  · rw [if_neg hc, toNat_ofNat (.inr ⟨by omega, by omega⟩), if_neg (by omega)]
    omega

theorem codes_text : ∀ {l : List Nat}, (∀ c ∈ l, Fits c) → codes (text l) = l := by
  intro l h
  unfold codes text
  rw [String.toList_ofList, List.map_map]
  induction l with
  | nil => rfl
  | cons c l ih =>
    rw [List.map_cons, ih (fun d hd => h d (List.mem_cons_of_mem _ hd)), Function.comp]
    exact congrArg (· :: l) (code_char (h c (List.mem_cons_self ..)))

theorem small_valid {c : Nat} (h : c < 256) : Fits c := by unfold Fits; omega

theorem codes_valid (s : String) : ∀ c ∈ codes s, Fits c := by
  intro c hc
  simp only [codes, List.mem_map] at hc
  obtain ⟨d, -, rfl⟩ := hc
  have : d.toNat.isValidChar := d.valid
  unfold Nat.isValidChar at this
  show _ < _
  split <;> omega

theorem numChar_lt {c : Nat} (h : NumChar c) : c < 256 := by
  rcases h with h | h | h
  · rw [isBaseDigit_iff] at h
    obtain ⟨d, -, h⟩ := h
    unfold hexVal at h
    split at h
    · omega
    · split at h
      · omega
      · split at h
        · omega
        · cases h
  · omega
  · omega

theorem codes_num {t : List Nat} (h : ∀ c ∈ t, NumChar c) : codes (text t) = t :=
  codes_text fun c hc => small_valid (numChar_lt (h c hc))

theorem codes_digits (n : Nat) : codes (text (natDigits n)) = natDigits n :=
  codes_text fun c hc => small_valid (by have := natDigits_digit n c hc; omega)

/-! ### Numbers -/

theorem numOut_plain {t : List Nat} (h : ∀ c ∈ t, NumChar c) : numOut t = .plain (text t) := by
  cases t with
  | nil => rfl
  | cons c t =>
    have hc : c ≠ 45 ∧ c ≠ 126 := by
      have := h c (List.mem_cons_self ..)
      constructor <;> (rintro rfl; revert this; unfold NumChar; decide)
    unfold numOut
    split
    · rename_i e; cases e; exact absurd rfl hc.1
    · rename_i e; cases e; exact absurd rfl hc.2
    · rfl

/-- What `format_fixnum` gives. -/
theorem format_cases {v : Nat} (hv : v < 2 ^ 32) (u : Bool) : ∃ t, formatFixnum none v (if u then .auto else .plain) = some t ∧
    ((∀ c ∈ t, NumChar c) ∧ parseFixAbs t = some v ∨
     u = true ∧ (∃ n, t = 45 :: n ∧ (∀ c ∈ n, NumChar c) ∧ parseFixAbs n = some ((2 ^ 32 - v) % 2 ^ 32)) ∨
     u = true ∧ ∃ n, t = 126 :: n ∧ (∀ c ∈ n, NumChar c) ∧ parseFixAbs n = some (2 ^ 32 - 1 - v)) := by
  obtain ⟨m, hm, hm1, hm2⟩ := fixBody_spec (base := none) (.inl rfl) hv
  obtain ⟨n, hn, hn1, hn2⟩ := fixBody_spec (base := none) (.inl rfl) (v := (2 ^ 32 - v) % 2 ^ 32) (Nat.mod_lt _ (by decide))
  obtain ⟨b, hb, hb1, hb2⟩ := fixBody_spec (base := none) (.inl rfl) (v := 2 ^ 32 - 1 - v) (by omega)
  cases u with
  | false =>
    rw [if_neg (by decide)]
    exact ⟨m, by simp only [formatFixnum, fixSigned]; exact hm, .inl ⟨hm2, hm1⟩⟩
  | true =>
    have e : formatFixnum none v .auto = some (if v ≥ 2 ^ 31 ∧ v ≠ 2 ^ 31 then
        (if (126 :: b).length < (if (45 :: n).length < m.length then 45 :: n else m).length then 126 :: b
         else if (45 :: n).length < m.length then 45 :: n else m) else m) := by
      have n1 : fixSigned none v .neg = some (45 :: n) := by unfold fixSigned; dsimp only; rw [hn, Option.map_some]
      have b1 : fixSigned none v .bnot = some (126 :: b) := by unfold fixSigned; dsimp only; rw [hb, Option.map_some]
      simp only [formatFixnum, hm, n1, b1]
      by_cases hneg : v ≥ 2 ^ 31 ∧ v ≠ 2 ^ 31
      · rw [if_pos hneg, if_pos hneg]
      · rw [if_neg hneg, if_neg hneg]
    rw [if_pos rfl]
    refine ⟨_, e, ?_⟩
    clear e
    by_cases h1 : v ≥ 2 ^ 31 ∧ v ≠ 2 ^ 31
    · rw [if_pos h1]
      by_cases h2 : (126 :: b).length < (if (45 :: n).length < m.length then 45 :: n else m).length
      · rw [if_pos h2]
        exact .inr (.inr ⟨rfl, b, rfl, hb2, hb1⟩)
      · rw [if_neg h2]
        by_cases h3 : (45 :: n).length < m.length
        · rw [if_pos h3]
          exact .inr (.inl ⟨rfl, n, rfl, hn2, hn1⟩)
        · rw [if_neg h3]
          exact .inl ⟨hm2, hm1⟩
    · rw [if_neg h1]
      exact .inl ⟨hm2, hm1⟩

theorem parse_lt {s : List Nat} {v : Nat} (h : parseFixnum s = some v) : v < 2 ^ 32 := by
  unfold parseFixnum at h
  split at h
  · simp only [Option.map_eq_some_iff] at h
    obtain ⟨f, -, rfl⟩ := h
    exact Nat.mod_lt _ (by decide)
  · simp only [Option.map_eq_some_iff] at h
    obtain ⟨f, -, rfl⟩ := h
    omega
  · exact parseFixAbs_lt h

/-- The number that comes out. -/
theorem picoNum_cases (u : Bool) (s : String) : (∃ s', picoNum u s = .plain s' ∧ picoLit.num s' = picoLit.num s) ∨
    u = true ∧ ∃ o s', picoNum u s = .signed o s' ∧ (o = .minus ∨ o = .tilde) ∧ picoLit.sgn o (picoLit.num s') = picoLit.num s := by
  unfold picoNum
  cases hp : parseFixnum (codes s) with
  | none => exact .inl ⟨s, rfl, rfl⟩
  | some v =>
    have hv := parse_lt hp
    have e : picoLit.num s = picoVal v := by simp [picoLit, hp]
    obtain ⟨t, ht, h⟩ := format_cases hv u
    simp only [ht]
    rw [e]
    rcases h with ⟨h1, h2⟩ | ⟨hu, n, rfl, h1, h2⟩ | ⟨hu, n, rfl, h1, h2⟩
    · refine .inl ⟨_, numOut_plain h1, ?_⟩
      simp only [picoLit, codes_num h1, parseFixnum_plain h1, h2, Option.map_some, Option.getD_some]
    · refine .inr ⟨hu, .minus, text n, rfl, .inl rfl, ?_⟩
      simp only [picoLit, codes_num h1, parseFixnum_plain h1, h2, Option.map_some, Option.getD_some, Option.bind_some, picoVal, codes_digits, parseNat_natDigits]
      rw [if_pos (by omega), if_pos trivial, Option.getD_some]
      congr 2
      omega
    · refine .inr ⟨hu, .tilde, text n, rfl, .inr rfl, ?_⟩
      simp only [picoLit, codes_num h1, parseFixnum_plain h1, h2, Option.map_some, Option.getD_some, Option.bind_some, picoVal, codes_digits, parseNat_natDigits]
      rw [if_pos (by omega), if_neg (by decide), Option.getD_some]
      congr 2
      omega

/-! ### Strings -/

theorem lookup_valid {l : List (Nat × Nat)} (h : ∀ p ∈ l, p.2 < 256) {c d : Nat} (hl : l.lookup c = some d) : d < 256 := by
  induction l with
  | nil => cases hl
  | cons p l ih =>
    obtain ⟨a, b⟩ := p
    rw [List.lookup_cons] at hl
    split at hl
    · cases hl; exact h _ (List.mem_cons_self ..)
    · exact ih (fun q hq => h q (List.mem_cons_of_mem _ hq)) hl

theorem hexVal_lt {c d : Nat} (h : hexVal c = some d) : d < 16 := by
  unfold hexVal at h
  split at h
  · cases h; omega
  · split at h
    · cases h; omega
    · split at h
      · cases h; omega
      · cases h

theorem hex2_lt {s : List Nat} {v : Nat} (h : parseHex (s.take 2) = some v) : v < 256 := by
  unfold parseHex at h
  split at h
  · cases h
  · match s with
    | [] => simp_all
    | [a] =>
      simp only [List.take, List.mapM_cons, List.mapM_nil] at h
      cases ha : hexVal a with
      | none => simp [ha] at h
      | some x =>
        have := hexVal_lt ha
        simp [ha] at h; omega
    | a :: b :: r =>
      simp only [List.take, List.mapM_cons, List.mapM_nil] at h
      cases ha : hexVal a with
      | none => simp [ha] at h
      | some x =>
        cases hb : hexVal b with
        | none => simp [ha, hb] at h
        | some y =>
          have := hexVal_lt ha
          have := hexVal_lt hb
          simp [ha, hb] at h; omega

theorem langChr_fits {p : Bool} {v : Nat} (h : v < 256) : Fits (langChr p v) := by
  unfold langChr Fits
  split <;> omega

theorem extUnicode_fits {p : Bool} {v : Nat} (h : v < 2 ^ 31) : ∀ c ∈ extUnicode p v, Fits c := by
  rw [C53_unicode_escape p h]
  intro c hc
  obtain ⟨b, hb, rfl⟩ := List.mem_map.1 hc
  refine langChr_fits ?_
  unfold utf8Bytes at hb
  split at hb
  · simp only [List.mem_singleton] at hb; omega
  · split at hb
    · simp only [List.mem_cons, List.not_mem_nil, or_false] at hb; omega
    · split at hb
      · simp only [List.mem_cons, List.not_mem_nil, or_false] at hb; omega
      · split at hb
        · simp only [List.mem_cons, List.not_mem_nil, or_false] at hb; omega
        · split at hb
          · simp only [List.mem_cons, List.not_mem_nil, or_false] at hb; omega
          · simp only [List.mem_cons, List.not_mem_nil, or_false] at hb; omega

theorem escape_valid {p : Bool} {s a r : List Nat} (h : parseEscape p s = some (a, r)) (hs : ∀ c ∈ s, Fits c) :
    (∀ c ∈ a, Fits c) ∧ ∀ c ∈ r, Fits c := by
  cases s with
  | nil => cases h
  | cons e t =>
    have ht : ∀ c ∈ t, Fits c := fun c hc => hs c (List.mem_cons_of_mem _ hc)
    simp only [parseEscape] at h
    split at h
    · rename_i c hc
      simp only [Option.some.injEq, Prod.mk.injEq] at h
      obtain ⟨rfl, rfl⟩ := h
      refine ⟨?_, ht⟩
      simp only [List.mem_singleton, forall_eq]
      exact small_valid (lookup_valid (by decide) hc)
    · split at h
      · split at h
        · cases h
        · simp only [Option.some.injEq, Prod.mk.injEq] at h
          obtain ⟨rfl, rfl⟩ := h
          exact ⟨by simp, fun c hc => ht c ((List.dropWhile_suffix _).subset hc)⟩
      · split at h
        · simp only [Option.map_eq_some_iff, Prod.mk.injEq] at h
          obtain ⟨v, hv, rfl, rfl⟩ := h
          refine ⟨?_, fun c hc => ht c (List.mem_of_mem_drop hc)⟩
          simp only [List.mem_singleton, forall_eq]
          exact langChr_fits (hex2_lt hv)
        · split at h
          · split at h
            · cases h
            · split at h
              · cases h
              · simp only [Option.some.injEq, Prod.mk.injEq] at h
                obtain ⟨rfl, rfl⟩ := h
                refine ⟨?_, fun c hc => ht c (List.mem_of_mem_drop hc)⟩
                simp only [List.mem_singleton, forall_eq]
                exact langChr_fits (by omega)
          · split at h
            · split at h
              · split at h
                · split at h
                  · cases h
                  · split at h
                    · cases h
                    · rename_i hv
                      simp only [Option.some.injEq, Prod.mk.injEq] at h
                      obtain ⟨rfl, rfl⟩ := h
                      exact ⟨extUnicode_fits (by omega),
                        fun c hc => ht c (List.mem_cons_of_mem _ ((List.dropWhile_suffix _).subset (List.mem_of_mem_drop hc)))⟩
                · cases h
              · cases h
            · cases h

theorem body_valid {p : Bool} : ∀ (n : Nat) {s v : List Nat}, s.length ≤ n → parseBody p s = some v → (∀ c ∈ s, Fits c) → ∀ c ∈ v, Fits c
  | n, [], v, _, h, _ => by
    rw [parseBody] at h; cases h; simp
  | 0, c :: r, _, hn, _, _ => by simp at hn
  | n + 1, c :: r, v, hn, h, hs => by
    have hr : ∀ d ∈ r, Fits d := fun d hd => hs d (List.mem_cons_of_mem _ hd)
    have hn' : r.length ≤ n := by simpa using hn
    rw [parseBody] at h
    split at h
    · split at h
      · cases h
      · rename_i a r' he
        simp only [Option.map_eq_some_iff] at h
        obtain ⟨w, hw, rfl⟩ := h
        have ⟨h1, h2⟩ := escape_valid he hr
        have hl := parseEscape_length he
        intro d hd
        rw [List.mem_append] at hd
        rcases hd with hd | hd
        · exact h1 d hd
        · exact body_valid n (by omega) hw h2 d hd
    · simp only [Option.map_eq_some_iff] at h
      obtain ⟨w, hw, rfl⟩ := h
      intro d hd
      rw [List.mem_cons] at hd
      rcases hd with rfl | hd
      · exact hs _ (List.mem_cons_self ..)
      · exact body_valid n hn' hw hr d hd

theorem normNl_valid : ∀ {s : List Nat}, (∀ c ∈ s, Fits c) → ∀ c ∈ normNl s, Fits c
  | [], _ => by simp [normNl]
  | [c], h => by
    simp only [normNl, List.mem_singleton, forall_eq]
    split
    · exact small_valid (by decide)
    · exact h c (List.mem_cons_self ..)
  | c :: d :: r, h => by
    have h2 : ∀ x ∈ d :: r, Fits x := fun x hx => h x (List.mem_cons_of_mem _ hx)
    intro x hx
    rw [normNl] at hx
    split at hx
    · rw [List.mem_cons] at hx
      rcases hx with rfl | hx
      · exact small_valid (by decide)
      · exact normNl_valid (fun y hy => h2 y (List.mem_cons_of_mem _ hy)) x hx
    · rw [List.mem_cons] at hx
      rcases hx with rfl | hx
      · split
        · exact small_valid (by decide)
        · exact h c (List.mem_cons_self ..)
      · exact normNl_valid h2 x hx

theorem literal_valid {p : Bool} {s v : List Nat} (h : parseLiteral p s = some v) (hs : ∀ c ∈ s, Fits c) : ∀ c ∈ v, Fits c := by
  unfold parseLiteral at h
  split at h
  · rename_i r
    split at h
    · simp only [Option.some.injEq] at h
      subst h
      have hn : ∀ j k, ∀ c ∈ normNl (List.drop j (List.take k (91 :: r))), Fits c := fun j k =>
        normNl_valid fun c hc => hs c (List.mem_of_mem_take (List.mem_of_mem_drop hc))
      intro c hc
      split at hc
      · exact hn _ _ c (List.mem_of_mem_drop hc)
      · exact hn _ _ c hc
    · cases h
  · exact body_valid _ (Nat.le_refl _) h fun c hc => hs c (List.mem_of_mem_take (List.mem_of_mem_drop hc))

theorem parts_valid {isDig : Nat → Bool} (hd : AsciiDig isDig) {u : Bool} {q : Nat} (hq : q = 34 ∨ q = 39) :
    ∀ {v : List Nat}, (∀ c ∈ v, Fits c) → ∀ c ∈ litParts isDig u q v, Fits c
  | [], _ => by simp [litParts]
  | c :: v, h => by
    intro x hx
    rw [litParts_cons, List.mem_append] at hx
    rcases hx with hx | hx
    · rcases litPart_cases hd hq (u := u) c v with ⟨e, -⟩ | ⟨d, e, h1, -⟩ | ⟨a, b, e, h1, h2, -⟩ | ⟨e, -⟩ | ⟨b, e, h1, -⟩
      · rw [e, List.mem_singleton] at hx; subst hx; exact h _ (List.mem_cons_self ..)
      · rw [e] at hx
        have : d < 256 := by
          refine Decidable.byContradiction fun hd => ?_
          have : charEscape d = none := by
            unfold charEscape
            have : ∀ l : List (Nat × Nat), (∀ p ∈ l, p.1 < 256) → l.lookup d = none := by
              intro l hl
              induction l with
              | nil => rfl
              | cons p l ih =>
                obtain ⟨a, b⟩ := p
                have ha : a < 256 := hl (a, b) (List.mem_cons_self ..)
                rw [List.lookup_cons, beq_eq_false_iff_ne.2 (by omega)]
                exact ih fun q hq => hl q (List.mem_cons_of_mem _ hq)
            exact this _ (by decide)
          rw [this] at h1; cases h1
        simp only [List.mem_cons, List.not_mem_nil, or_false] at hx
        rcases hx with rfl | rfl
        · exact small_valid (by decide)
        · exact small_valid this
      · rw [e] at hx
        simp only [isDigit, Bool.and_eq_true, decide_eq_true_eq] at h1 h2
        simp only [List.mem_cons, List.not_mem_nil, or_false] at hx
        exact small_valid (by omega)
      · rw [e] at hx
        simp only [List.mem_cons, List.not_mem_nil, or_false] at hx
        exact small_valid (by omega)
      · rw [e] at hx
        simp only [isDigit, Bool.and_eq_true, decide_eq_true_eq] at h1
        simp only [List.mem_cons, List.not_mem_nil, or_false] at hx
        exact small_valid (by omega)
    · exact parts_valid hd hq (fun y hy => h y (List.mem_cons_of_mem _ hy)) x hx

theorem quoted_valid {isDig : Nat → Bool} (hd : AsciiDig isDig) {u : Bool} {v : List Nat} (h : ∀ c ∈ v, Fits c) :
    ∀ c ∈ formatQuoted isDig u none v, Fits c := by
  intro c hc
  unfold formatQuoted at hc
  have hq : (if v.count 34 ≤ v.count 39 then 34 else 39) = 34 ∨ (if v.count 34 ≤ v.count 39 then 34 else 39) = 39 := by split <;> simp
  simp only [Option.getD_none, List.mem_cons, List.mem_append, List.not_mem_nil, or_false] at hc
  rcases hc with hc | hc | hc
  · exact small_valid (by omega)
  · exact parts_valid hd hq h c hc
  · exact small_valid (by omega)

theorem long_valid {v : List Nat} (h : ∀ c ∈ v, Fits c) : ∀ c ∈ formatLong v, Fits c := by
  intro c hc
  simp only [formatLong, List.mem_cons, List.mem_append, List.mem_replicate, List.not_mem_nil, or_false] at hc
  rcases hc with rfl | hc | rfl | (hc | hc) | rfl | hc | rfl
  · exact small_valid (by decide)
  · exact small_valid (by omega)
  · exact small_valid (by decide)
  · split at hc
    · simp at hc; exact small_valid (by omega)
    · simp at hc
  · exact h c hc
  · exact small_valid (by decide)
  · exact small_valid (by omega)
  · exact small_valid (by decide)

theorem format_valid {isDig : Nat → Bool} (hd : AsciiDig isDig) {u x : Bool} {l : Option Bool} {v : List Nat} (h : ∀ c ∈ v, Fits c) :
    ∀ c ∈ formatLiteral isDig u x l none v, Fits c := by
  unfold formatLiteral
  split
  · split
    · exact long_valid h
    · split
      · exact long_valid h
      · exact quoted_valid hd h
  · exact quoted_valid hd h

/-- Strings keep their characters. -/
theorem strOut_parse {p8 : Bool} {isDig : Nat → Bool} (hd : AsciiDig isDig) (chars v40 : Bool) (s : String) :
    parseLiteral p8 (codes (strOut p8 isDig chars v40 s)) = parseLiteral p8 (codes s) := by
  unfold strOut
  cases hp : parseLiteral p8 (codes s) with
  | none => exact hp
  | some v =>
    have hv := literal_valid hp (codes_valid s)
    dsimp only
    split
    · rw [codes_text (format_valid hd hv), C17_any_parse hd p8 true v40 none (quote := none) nofun v]
    · rw [codes_text (format_valid hd hv), C17_any_parse hd p8 true true _ (quote := none) nofun v]

theorem strOut_same {p8 : Bool} {isDig : Nat → Bool} (hd : AsciiDig isDig) (chars v40 : Bool) (s : String) :
    ((parseLiteral p8 (codes (strOut p8 isDig chars v40 s))).map text).getD (strOut p8 isDig chars v40 s) = ((parseLiteral p8 (codes s)).map text).getD s := by
  rw [strOut_parse hd]
  cases hp : parseLiteral p8 (codes s) with
  | none => simp [strOut, hp]
  | some v => rfl

/-- The assumptions of C64 hold. -/
theorem pico_ok (isDig : Nat → Bool) (v37 v40 tokens chars : Bool) : (pico isDig v37 v40 tokens chars).Ok where
  sign := by
    intro s o s' h
    rcases picoNum_cases false s with ⟨t, e, -⟩ | ⟨h', -⟩
    · exact absurd (e.symm.trans h) nofun
    · cases h'
  parens := by
    intro u s o s' h
    rcases picoNum_cases u s with ⟨t, e, -⟩ | ⟨-, o', t, e, -⟩ <;> exact absurd (e.symm.trans h) nofun
  op := by
    intro u s o s' h
    rcases picoNum_cases u s with ⟨t, e, -⟩ | ⟨-, o', t, e, ho, -⟩
    · exact absurd (e.symm.trans h) nofun
    · cases e.symm.trans h
      rcases ho with rfl | rfl <;> simp [pico, LuaGrammar.unaryOps]

theorem pico_keeps {isDig : Nat → Bool} (hd : AsciiDig isDig) (v37 v40 tokens chars : Bool) : (pico isDig v37 v40 tokens chars).Keeps picoLit where
  plain := by
    intro u s s' h
    rcases picoNum_cases u s with ⟨t, e, e'⟩ | ⟨-, o', t, e, -⟩
    · cases e.symm.trans h; exact e'
    · exact absurd (e.symm.trans h) nofun
  signed := by
    intro u s o s' h
    rcases picoNum_cases u s with ⟨t, e, -⟩ | ⟨-, o', t, e, h'⟩
    · exact absurd (e.symm.trans h) nofun
    · cases e.symm.trans h; exact h'
  str := strOut_same hd chars v40

end Verif.Mini
