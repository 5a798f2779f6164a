import Verif.Text
/-
Model of string literals: `parse_char_escape`, `parse_string_literal`, `ext_unicode_to_lang_str` (pico_tokenize.py 828-923), the
string part of `tokenize` (pico_tokenize.py 545-573, 626-656) and `format_string_literal` (pico_output.py 209-257).

Characters are code points, `none` any exception (or, for the scanner, a reported error).
-/
namespace Verif

/-- `k_wspace` (pico_preprocess.py 8). -/
def isWspace (c : Nat) : Bool := c == 32 || c == 9 || c == 13 || c == 10

/-- `k_char_escapes` (pico_tokenize.py 828-832). -/
def charEscape (c : Nat) : Option Nat :=
  [(42, 1), (35, 2), (45, 3), (124, 4), (43, 5), (94, 6), (97, 7), (98, 8), (116, 9), (110, 10), (118, 11), (102, 12), (114, 13),
    (92, 92), (34, 34), (39, 39), (10, 10)].lookup c

/-- `lang_chr` (pico_tokenize.py 834-838). -/
def langChr (pico8 : Bool) (v : Nat) : Nat := if pico8 || v < 0x80 then v else 0xdc00 + v

/-- The loop of `ext_unicode_to_lang_str` (pico_tokenize.py 846-849); returns the final `value`, `count` and `suffix`. -/
def extUniLoop (pico8 : Bool) (value count : Nat) (suffix : List Nat) : Nat × Nat × List Nat :=
  if h : value ≥ 0x40 >>> count ∧ value ≠ 0 then
    extUniLoop pico8 (value >>> 6) (count + 1) (langChr pico8 (0x80 + value % 64) :: suffix)
  else (value, count, suffix)
termination_by value
decreasing_by
  rw [Nat.shiftRight_eq_div_pow]; exact Nat.div_lt_self (by omega) (by decide)

/-- `ext_unicode_to_lang_str` (pico_tokenize.py 840-850).  `(-0x80 >> count) & 0xff` is written `256 - (128 >> count)`, the same
for `count ≤ 7`.  The guard `value ≠ 0` of the loop, absent from the source, only matters when `count ≥ 7` (where the source would
loop forever); values below 2^31 never get there (`Verif/Props/StrLit.lean`). -/
def extUnicode (pico8 : Bool) (value : Nat) : List Nat :=
  if value < 0x80 then [langChr pico8 value]
  else
    let r := extUniLoop pico8 value 0 []
    langChr pico8 (256 - 128 >>> r.2.1 + r.1) :: r.2.2

/-- `maybe_int(s, base=16)` on digits only (Python would also accept surrounding whitespace, a sign and underscores). -/
def parseHex (s : List Nat) : Option Nat :=
  if s = [] then none else (s.mapM hexVal).map fun ds => ds.foldl (fun a d => a * 16 + d) 0

def isDigit (c : Nat) : Bool := 48 ≤ c && c ≤ 57

/-- `parse_char_escape` (pico_tokenize.py 852-895) on the text after the backslash: the characters denoted and the text after the
escape.  A `\z` with nothing but whitespace behind it raises a `TypeError` (`None in k_wspace`). -/
def parseEscape (pico8 : Bool) : List Nat → Option (List Nat × List Nat)
  | [] => none
  | e :: r =>
    match charEscape e with
    | some c => some ([c], r)
    | none =>
      if e = 122 then
        if r.dropWhile isWspace = [] then none else some ([], r.dropWhile isWspace)
      else if e = 120 then
        (parseHex (r.take 2)).map fun v => ([langChr pico8 v], r.drop 2)
      else if isDigit e then
        let ds := (r.take 2).takeWhile isDigit
        match parseNat (e :: ds) with
        | none => none
        | some v => if v ≥ 256 then none else some ([langChr pico8 v], r.drop ds.length)
      else if !pico8 && e = 117 then
        match r with
        | 123 :: r =>
          if 125 ∈ r then
            match parseHex (r.takeWhile (· ≠ 125)) with
            | none => none
            | some v => if v ≥ 0x80000000 then none else some (extUnicode pico8 v, (r.dropWhile (· ≠ 125)).drop 1)
          else none
        | _ => none
      else none

theorem length_dropWhile_le {p : Nat → Bool} : ∀ l : List Nat, (l.dropWhile p).length ≤ l.length
  | [] => Nat.le_refl _
  | a :: l => by
    rw [List.dropWhile_cons]
    split
    · have := length_dropWhile_le (p := p) l; simp only [List.length_cons]; omega
    · exact Nat.le_refl _

theorem parseEscape_length {pico8 : Bool} {s a r : List Nat} (h : parseEscape pico8 s = some (a, r)) : r.length < s.length := by
  cases s with
  | nil => simp [parseEscape] at h
  | cons e t =>
    have hw := @length_dropWhile_le
    simp only [parseEscape] at h
    split at h
    · simp only [Option.some.injEq, Prod.mk.injEq] at h; rw [← h.2]; simp
    · split at h
      · split at h
        · cases h
        · simp only [Option.some.injEq, Prod.mk.injEq] at h; rw [← h.2]
          have := hw (p := isWspace) t; simp only [List.length_cons]; omega
      · split at h
        · simp only [Option.map_eq_some_iff, Prod.mk.injEq] at h
          obtain ⟨v, _, _, h⟩ := h; rw [← h]; simp; omega
        · split at h
          · split at h
            · cases h
            · split at h
              · cases h
              · simp only [Option.some.injEq, Prod.mk.injEq] at h; rw [← h.2]; simp; omega
          · split at h
            · split at h
              · split at h
                · split at h
                  · cases h
                  · split at h
                    · cases h
                    · simp only [Option.some.injEq, Prod.mk.injEq] at h; rw [← h.2]
                      rename_i r' _ _ _ _ _
                      have := hw (p := fun x => decide (x ≠ 125)) r'
                      simp only [List.length_drop, List.length_cons]; omega
                · cases h
              · cases h
            · cases h

/-- The loop of `parse_string_literal` for quoted literals (pico_tokenize.py 907-922), character by character. -/
def parseBody (pico8 : Bool) (s : List Nat) : Option (List Nat) :=
  match s with
  | [] => some []
  | c :: r =>
    if c = 92 then
      match _h : parseEscape pico8 r with
      | none => none
      | some (a, r') => (parseBody pico8 r').map (a ++ ·)
    else (parseBody pico8 r).map (c :: ·)
termination_by s.length
decreasing_by
  · have := parseEscape_length _h; simp only [List.length_cons]; omega
  · simp

/-- `re.sub(r"\n\r?|\r\n?", "\n", lit)`. -/
def normNl : List Nat → List Nat
  | [] => []
  | [c] => [if c = 13 then 10 else c]
  | c :: d :: r =>
    if c = 10 ∧ d = 13 ∨ c = 13 ∧ d = 10 then 10 :: normNl r
    else (if c = 13 then 10 else c) :: normNl (d :: r)

/-- `parse_string_literal` (pico_tokenize.py 897-923). -/
def parseLiteral (pico8 : Bool) (s : List Nat) : Option (List Nat) :=
  match s with
  | 91 :: r =>
    if 91 ∈ r then
      let start := (r.takeWhile (· ≠ 91)).length + 2
      let lit := normNl ((s.take (s.length - start)).drop start)
      some (if lit.head? = some 10 then lit.drop 1 else lit)
    else none
  | _ => parseBody pico8 ((s.take (s.length - 1)).drop 1)

/-! ### Scanning -/

/-- `tokenize_string` (pico_tokenize.py 626-646) after the opening quote: the text after the closing one.  At the end of the text a
`\z` loops forever in the source (`'' in k_wspace`); here that is `none`. -/
def scanString (q : Nat) (s : List Nat) : Option (List Nat) :=
  match s with
  | [] => none
  | c :: r =>
    if c = 10 then none
    else if c = 92 then
      match r with
      | [] => none
      | d :: r' => if d = 122 then scanString q (r'.dropWhile isWspace) else scanString q r'
    else if c = q then some r
    else scanString q r
termination_by s.length
decreasing_by
  · have := length_dropWhile_le (p := isWspace) r'; simp only [List.length_cons]; omega
  · simp only [List.length_cons]; omega
  · simp

/-- `]==]` with `n` equal signs. -/
def closer (n : Nat) : List Nat := 93 :: (List.replicate n 61 ++ [93])

/-- `text.find(p)`, splitting the text around the first occurrence. -/
def splitAt (p : List Nat) : List Nat → Option (List Nat × List Nat)
  | [] => if p = [] then some ([], []) else none
  | c :: s =>
    if p.isPrefixOf (c :: s) then some ([], (c :: s).drop p.length)
    else (splitAt p s).map fun x => (c :: x.1, x.2)

/-- `tokenize_long_brackets` (pico_tokenize.py 545-564) on text starting at the bracket: contents and the text after. -/
def scanLong : List Nat → Option (List Nat × List Nat)
  | 91 :: r =>
    let n := (r.takeWhile (· == 61)).length
    match r.drop n with
    | 91 :: r => splitAt (closer n) r
    | _ => none
  | _ => none

/-! ### Formatting -/

/-- `k_char_escapes_rev` (pico_output.py 209-210). -/
def escRev (c : Nat) : Option (List Nat) :=
  [(1, [42]), (2, [35]), (3, [45]), (4, [124]), (5, [43]), (6, [94]), (7, [97]), (8, [98]), (9, [116]), (10, [110]), (11, [118]),
    (12, [102]), (13, [114]), (92, [92]), (34, [34]), (39, [39]), (0, [48]), (14, [49, 52]), (15, [49, 53])].lookup c

/-- `k_char_escapes_rev_min` (pico_output.py 212). -/
def escRevMin (c : Nat) : Option (List Nat) := if c ∈ [0, 10, 13, 34, 39, 92] then escRev c else none

/-- `]==]` occurs in the value. -/
def hasCloser (value : List Nat) (n : Nat) : Bool := (splitAt (closer n) value).isSome

theorem splitAt_some {p : List Nat} : ∀ {s a b : List Nat}, splitAt p s = some (a, b) → s = a ++ p ++ b
  | [], a, b, h => by
    simp only [splitAt] at h
    split at h
    · next hp => simp only [Option.some.injEq, Prod.mk.injEq] at h; rw [← h.1, ← h.2, hp]; rfl
    · cases h
  | c :: s, a, b, h => by
    simp only [splitAt] at h
    split at h
    · next hp =>
      simp only [Option.some.injEq, Prod.mk.injEq] at h
      rw [List.isPrefixOf_iff_prefix] at hp
      obtain ⟨t, ht⟩ := hp
      rw [← h.1, ← h.2, ← ht]; simp
    · simp only [Option.map_eq_some_iff] at h
      obtain ⟨⟨a', b'⟩, h1, h2⟩ := h
      simp only [Prod.mk.injEq] at h2
      rw [← h2.1, ← h2.2, splitAt_some h1]; rfl

/-- The search of `get_long_brackets_equals` from `i` on (pico_output.py 214-218). -/
def longEqsFrom (value : List Nat) (i : Nat) : Nat :=
  if h : hasCloser value i then longEqsFrom value (i + 1) else i
termination_by value.length - i
decreasing_by
  unfold hasCloser at h
  obtain ⟨⟨a, b⟩, h⟩ := Option.isSome_iff_exists.mp h
  have := congrArg List.length (splitAt_some h)
  simp [closer] at this; omega

/-- `get_long_brackets_equals` (pico_output.py 214-218), as a number of equal signs. -/
def longEqs (value : List Nat) : Nat := longEqsFrom value 0

/-- `strlong` (pico_output.py 225-228). -/
def formatLong (value : List Nat) : List Nat :=
  let eqs := List.replicate (longEqs value) 61
  91 :: (eqs ++ 91 :: ((if value.head? = some 10 then [10] else []) ++ value ++ 93 :: (eqs ++ [93])))

/-- `litparts` (pico_output.py 243-251).  `isDig` is `str.isdigit` on a character. -/
def litParts (isDig : Nat → Bool) (useCtrl : Bool) (quote : Nat) : List Nat → List Nat
  | [] => []
  | c :: v =>
    (match if useCtrl then escRevMin c else escRev c with
      | none => [c]
      | some esc =>
        if c = (if quote = 34 then 39 else 34) then [c]
        else 92 :: (if esc.all isDig && (v.head?.any isDig) then List.replicate (3 - esc.length) 48 ++ esc else esc)) ++
      litParts isDig useCtrl quote v

/-- `strlit` (pico_output.py 236-253). -/
def formatQuoted (isDig : Nat → Bool) (useCtrl : Bool) (quote : Option Nat) (value : List Nat) : List Nat :=
  let q := quote.getD (if value.count 34 ≤ value.count 39 then 34 else 39)
  q :: (litParts isDig useCtrl q value ++ [q])

/-- `format_string_literal` (pico_output.py 220-257). -/
def formatLiteral (isDig : Nat → Bool) (useCtrl complexLong : Bool) (long : Option Bool) (quote : Option Nat) (value : List Nat) :
    List Nat :=
  if long ≠ some false ∧ 0 ∉ value ∧ 13 ∉ value ∧ (complexLong ∨ !hasCloser value 0) then
    if long = some true then formatLong value
    else if (formatLong value).length < (formatQuoted isDig useCtrl quote value).length then formatLong value
    else formatQuoted isDig useCtrl quote value
  else formatQuoted isDig useCtrl quote value

end Verif
