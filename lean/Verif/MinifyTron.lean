import Verif.MinifySource
/-
What `minify_code` does to the literals of Picotron programs (pico_minify.py 483-501), with the formatters of C17 and C19, and what literals mean
there.  Floating point numbers are the 64 bits that represent them; how they are read and written is a parameter here (`Verif/Float.lean`).
-/
namespace Verif.Mini
open Syntax LuaNorm
open Paren (Op Lang)

/-- Reading and writing floating point numbers: `parse_luanum` on lower case text that is no integer (pico_tokenize.py 789-822), `none` if there is
an error, and `format_luanum` (pico_output.py 152-207) on what it gives (which has no sign), again `none` if there is an error. -/
structure Floats where
  parse : List Nat → Option Nat
  format : Nat → Option (List Nat)

/-- `parse_luanum` (pico_tokenize.py 779-826) without sign. -/
inductive TronVal
  | int (v : Int)
  | float (bits : Nat)
  deriving DecidableEq

def tronParse (F : Floats) (s : List Nat) : Option TronVal :=
  match parseLuaAbs (s.map lowerChar) with
  | .int v => some (.int v)
  | .float => (F.parse (s.map lowerChar)).map .float
  | .bad => none

/-- pico_minify.py 486-489. -/
def tronNum (F : Floats) (unary : Bool) (s : String) : NumOut :=
  match tronParse F (codes s) with
  | none => .plain s
  | some (.float b) => .plain (((F.format b).map text).getD s)
  | some (.int v) =>
    match formatLuaInt none true v (if unary then .auto else .plain) with
    | none => .plain s
    | some t => numOut t

/-- Minifying for Picotron. -/
def tron (F : Floats) (isDig : Nat → Bool) (v37 v40 tokens chars : Bool) : Cfg where
  L := .picotron
  v37 := v37
  focus := tokens
  -- pico_minify.py 347-350; no float that is written has a sign
  neg := fun s => match tronParse F (codes s) with
    | some (.int v) => decide (v < 0)
    | _ => false
  fmt := tronNum F
  fstr := strOut false isDig chars v40

/-- A number, written in a unique way. -/
def tronName : TronVal → String
  | .int v => text (105 :: natDigits (v % 2 ^ 64).toNat)
  | .float b => text (102 :: natDigits b)

/-- What the literals of Picotron mean: 64 bits of an integer (`C19_parse_denotes`) or of a floating point number, or characters for strings; `-`
and `~` work on 64 bits before integers; before other numbers they stay. -/
def tronLit (F : Floats) : Lit where
  num := fun s => ((tronParse F (codes s)).map tronName).getD s
  sgn := fun o s =>
    match codes s with
    | 105 :: r => ((parseNat r).bind fun v =>
        if v < 2 ^ 64 then some (text (105 :: natDigits (if o = .minus then (2 ^ 64 - v) % 2 ^ 64 else 2 ^ 64 - 1 - v))) else none).getD
        ((if o = .minus then "-" else "~") ++ s)
    | _ => (if o = .minus then "-" else "~") ++ s
  str := fun s => ((parseLiteral false (codes s)).map text).getD s

/-- What is assumed of floating point numbers: what is written for a number that was read is a numeral on its own, no integer, and read as the same
number. -/
structure Floats.Ok (F : Floats) : Prop where
  out : ∀ {s v}, F.parse s = some v → ∃ t, F.format v = some t ∧ F.parse t = some v ∧ parseLuaAbs t = .float ∧ (∀ c ∈ t, ¬ (65 ≤ c ∧ c ≤ 90)) ∧
    (∀ c ∈ t, c < 256) ∧ Alone false (.number, t)

theorem lower_map {s : List Nat} (h : ∀ c ∈ s, ¬ (65 ≤ c ∧ c ≤ 90)) : s.map lowerChar = s := by
  conv => rhs; rw [← List.map_id s]
  exact List.map_congr_left fun c hc => by simp only [lowerChar, if_neg (h c hc), id]

/-! ### Tokens -/

theorem scan_all {hx : Bool} : ∀ {s : List Nat} {p : Nat}, (∀ c ∈ s, isIdentChar false c = true) → numScan hx p s = s.length
  | [], _, _ => rfl
  | c :: s, p, h => by
    rw [numScan, if_pos (by simp [numGo, h c (by simp)]), scan_all fun d hd => h d (by simp [hd]), List.length_cons]

/-- Letters and digits that begin with a digit are one number. -/
theorem word_alone {c : Nat} {s : List Nat} (hc : isDigit c = true) (h : ∀ d ∈ c :: s, isIdentChar false d = true) : Alone false (.number, c :: s) := by
  have hw : isWspace c = false := by
    cases hw : isWspace c with
    | false => rfl
    | true => rw [isDigit_wspace hw] at hc; cases hc
  have hcls : lexClass false c s.head? = .num := by simp [lexClass, hw, hc]
  have hl : numLen false (c :: s) = (c :: s).length := by simp only [numLen, Bool.false_eq_true, if_false]; exact scan_all h
  simp only [Alone, lexStep, hcls, cutTok, hl, List.take_length, List.drop_length]

/-- What is known of the digits of an integer. -/
structure IntText (m : Nat) (t : List Nat) : Prop where
  token : Alone false (.number, t)
  lower : ∀ c ∈ t, ¬ (65 ≤ c ∧ c ≤ 90)
  small : ∀ c ∈ t, c < 256
  first : ∃ c s, t = c :: s ∧ isDigit c = true
  value : parseLuaAbs t = .int (toLuaInt m)

theorem hex_char {c : Nat} (h : isBaseDigit 16 c = true) : isIdentChar false c = true ∧ c < 256 := by
  obtain ⟨d, -, h'⟩ := (isBaseDigit_iff ..).1 h
  have hc : (48 ≤ c ∧ c ≤ 57) ∨ (97 ≤ c ∧ c ≤ 102) ∨ (65 ≤ c ∧ c ≤ 70) := by
    unfold hexVal at h'
    split at h'
    · omega
    · split at h'
      · omega
      · split at h'
        · omega
        · cases h'
  refine ⟨?_, by omega⟩
  simp [isIdentChar]
  omega

theorem body_text (m : Nat) : ∃ t, luaBody none m = some t ∧ IntText m t := by
  obtain ⟨t, h1, h2⟩ := luaBody_spec (base := none) (.inl rfl) (v := m) nofun
  refine ⟨t, h1, ?_⟩
  have hex : t = [48, 120] ++ natHex m → (∀ c ∈ t, isIdentChar false c = true ∧ c < 256) ∧ ∃ c s, t = c :: s ∧ isDigit c = true := by
    rintro rfl
    refine ⟨?_, _, _, rfl, by decide⟩
    intro c hc
    rcases List.mem_append.1 hc with hc | hc
    · exact (show ∀ c ∈ [48, 120], isIdentChar false c = true ∧ c < 256 by decide) c hc
    · exact hex_char (natHex_digit m c hc)
  have dec : t = natDigits m → (∀ c ∈ t, isIdentChar false c = true ∧ c < 256) ∧ ∃ c s, t = c :: s ∧ isDigit c = true := by
    rintro rfl
    have hd : ∀ c ∈ natDigits m, isDigit c = true := fun c hc => by have := natDigits_digit m c hc; simp [isDigit]; omega
    refine ⟨fun c hc => ⟨isDigit_ident (hd c hc), by have := natDigits_digit m c hc; omega⟩, ?_⟩
    cases h : natDigits m with
    | nil => exact absurd h (natDigits_ne_nil m)
    | cons c s => exact ⟨c, s, rfl, hd c (by simp [h])⟩
  have : (∀ c ∈ t, isIdentChar false c = true ∧ c < 256) ∧ ∃ c s, t = c :: s ∧ isDigit c = true := by
    simp only [luaBody, Option.some.injEq] at h1
    split at h1
    · exact hex h1.symm
    · split at h1
      · exact hex h1.symm
      · exact dec h1.symm
  obtain ⟨h3, c, s, rfl, h4⟩ := this
  exact ⟨word_alone h4 fun d hd => (h3 d hd).1, luaBody_lower h1, fun c hc => (h3 c hc).2, ⟨c, s, rfl, h4⟩, h2⟩

/-- What `format_luanum` gives for an integer. -/
theorem int_cases (v : Int) (u : Bool) : ∃ t, formatLuaInt none true v (if u then .auto else .plain) = some t ∧
    (IntText (v % 2 ^ 64).toNat t ∨ u = true ∧ (∃ n, t = 45 :: n ∧ IntText ((-v) % 2 ^ 64).toNat n) ∨
      u = true ∧ ∃ n, t = 126 :: n ∧ IntText ((-v - 1) % 2 ^ 64).toNat n) := by
  obtain ⟨m, hm, hm1⟩ := body_text (v % 2 ^ 64).toNat
  obtain ⟨n, hn, hn1⟩ := body_text ((-v) % 2 ^ 64).toNat
  obtain ⟨b, hb, hb1⟩ := body_text ((-v - 1) % 2 ^ 64).toNat
  cases u with
  | false =>
    rw [if_neg (by decide)]
    exact ⟨m, by simp only [formatLuaInt, luaSigned]; exact hm, .inl hm1⟩
  | true =>
    have n1 : luaSigned none v .neg = some (45 :: n) := by unfold luaSigned; dsimp only; rw [hn, Option.map_some]
    have b1 : luaSigned none v .bnot = some (126 :: b) := by unfold luaSigned; dsimp only; rw [hb, Option.map_some]
    rw [if_pos rfl]
    simp only [formatLuaInt, hm, n1, b1]
    split
    · generalize e : (if (45 :: n).length < m.length then 45 :: n else m) = mn
      have hmn : mn = m ∨ mn = 45 :: n := by rw [← e]; split <;> simp
      split
      · exact ⟨_, rfl, .inr (.inr ⟨trivial, b, rfl, hb1⟩)⟩
      · rcases hmn with rfl | rfl
        · exact ⟨_, rfl, .inl hm1⟩
        · exact ⟨_, rfl, .inr (.inl ⟨trivial, n, rfl, hn1⟩)⟩
    · exact ⟨_, rfl, .inl hm1⟩

theorem tron_int {F : Floats} {m : Nat} {t : List Nat} (h : IntText m t) : tronParse F (codes (text t)) = some (.int (toLuaInt m)) := by
  rw [codes_text fun c hc => small_valid (h.small c hc), tronParse, lower_map h.lower, h.value]

theorem tronName_mod (m : Nat) (h : m < 2 ^ 64) : tronName (.int (toLuaInt m)) = text (105 :: natDigits m) := by
  have : (toLuaInt m % 2 ^ 64).toNat = m := by
    unfold toLuaInt
    dsimp only
    split <;> omega
  simp only [tronName, this]

theorem numOut_int {m : Nat} {t : List Nat} (h : IntText m t) : numOut t = .plain (text t) := by
  obtain ⟨c, s, rfl, hc⟩ := h.first
  unfold numOut
  split
  · rename_i e; cases e; cases hc
  · rename_i e; cases e; cases hc
  · rfl

theorem codes_name (n : Nat) : codes (text (105 :: natDigits n)) = 105 :: natDigits n :=
  codes_text fun c hc => small_valid (by
    rcases List.mem_cons.1 hc with rfl | hc
    · decide
    · have := natDigits_digit n c hc; omega)

theorem float_parsed {F : Floats} {s : List Nat} {b : Nat} (h : tronParse F s = some (.float b)) : ∃ s', F.parse s' = some b := by
  unfold tronParse at h
  split at h
  · cases h
  · simp only [Option.map_eq_some_iff, TronVal.float.injEq] at h
    obtain ⟨w, h1, rfl⟩ := h
    exact ⟨_, h1⟩
  · cases h

/-- The number that comes out. -/
theorem tronNum_cases {F : Floats} (hF : F.Ok) (u : Bool) (s : String) : (∃ s', tronNum F u s = .plain s' ∧ (tronLit F).num s' = (tronLit F).num s) ∨
    u = true ∧ ∃ o s', tronNum F u s = .signed o s' ∧ (o = .minus ∨ o = .tilde) ∧ (tronLit F).sgn o ((tronLit F).num s') = (tronLit F).num s := by
  unfold tronNum
  cases hp : tronParse F (codes s) with
  | none => exact .inl ⟨s, rfl, rfl⟩
  | some x =>
    have e : (tronLit F).num s = tronName x := by simp [tronLit, hp]
    rw [e]
    cases x with
    | float b =>
      refine .inl ⟨_, rfl, ?_⟩
      obtain ⟨s', hs⟩ := float_parsed hp
      obtain ⟨t, h1, h2, h3, h4, h5, -⟩ := hF.out hs
      have hf : ∀ c ∈ t, Fits c := fun c hc => small_valid (h5 c hc)
      simp only [tronLit, h1, Option.map_some, Option.getD_some, codes_text hf, tronParse, lower_map h4, h3, h2]
    | int v =>
      obtain ⟨t, ht, h⟩ := int_cases v u
      simp only [ht]
      have num : ∀ {m t}, IntText m t → m < 2 ^ 64 → (tronLit F).num (text t) = text (105 :: natDigits m) := by
        intro m t h hm
        simp only [tronLit, tron_int h, Option.map_some, Option.getD_some, tronName_mod m hm]
      rcases h with h | ⟨hu, n, rfl, h⟩ | ⟨hu, n, rfl, h⟩
      · refine .inl ⟨_, numOut_int h, ?_⟩
        rw [num h (by omega), tronName]
      · refine .inr ⟨hu, .minus, text n, rfl, .inl rfl, ?_⟩
        rw [num h (by omega)]
        simp only [tronLit, codes_name, parseNat_natDigits, Option.bind_some, if_true, tronName]
        rw [if_pos (by omega), Option.getD_some]
        congr 3
        omega
      · refine .inr ⟨hu, .tilde, text n, rfl, .inr rfl, ?_⟩
        rw [num h (by omega)]
        simp only [tronLit, codes_name, parseNat_natDigits, Option.bind_some, tronName]
        rw [if_pos (by omega), if_neg (by decide), Option.getD_some]
        congr 3
        omega

/-- The assumptions of C64 hold. -/
theorem tron_ok {F : Floats} (hF : F.Ok) (isDig : Nat → Bool) (v37 v40 tokens chars : Bool) : (tron F isDig v37 v40 tokens chars).Ok where
  sign := by
    intro s o s' h
    rcases tronNum_cases hF false s with ⟨t, e, -⟩ | ⟨h', -⟩
    · exact absurd (e.symm.trans h) nofun
    · cases h'
  parens := by
    intro u s o s' h
    rcases tronNum_cases hF u s with ⟨t, e, -⟩ | ⟨-, o', t, e, -⟩ <;> exact absurd (e.symm.trans h) nofun
  op := by
    intro u s o s' h
    rcases tronNum_cases hF u s with ⟨t, e, -⟩ | ⟨-, o', t, e, ho, -⟩
    · exact absurd (e.symm.trans h) nofun
    · cases e.symm.trans h
      rcases ho with rfl | rfl <;> simp [tron, LuaGrammar.unaryOps]

theorem tron_keeps {F : Floats} (hF : F.Ok) {isDig : Nat → Bool} (hd : AsciiDig isDig) (v37 v40 tokens chars : Bool) :
    (tron F isDig v37 v40 tokens chars).Keeps (tronLit F) where
  plain := by
    intro u s s' h
    rcases tronNum_cases hF u s with ⟨t, e, e'⟩ | ⟨-, o', t, e, -⟩
    · cases e.symm.trans h; exact e'
    · exact absurd (e.symm.trans h) nofun
  signed := by
    intro u s o s' h
    rcases tronNum_cases hF u s with ⟨t, e, -⟩ | ⟨-, o', t, e, h'⟩
    · exact absurd (e.symm.trans h) nofun
    · cases e.symm.trans h; exact h'
  str := strOut_same hd chars v40

/-! ### What is written -/

theorem tron_step {F : Floats} (hF : F.Ok) {isDig : Nat → Bool} (hd : AsciiDig isDig) (v37 v40 tokens chars : Bool) {th : K} :
    Step th (tron F isDig v37 v40 tokens chars) (FromIn false isDig chars v40) (SureIn false) where
  num := by
    intro u s sh h
    have hs := h.1
    show AllT (SureIn false) (prE th sh (tronNum F u s).ex)
    unfold tronNum
    split
    · exact ⟨hs, trivial⟩
    · rename_i b hp
      obtain ⟨s', hs'⟩ := float_parsed hp
      obtain ⟨t, h1, h2, h3, h4, h5, h6⟩ := hF.out hs'
      rw [h1]
      exact ⟨sure_num h6 fun c hc => small_valid (h5 c hc), trivial⟩
    · rename_i v hp
      obtain ⟨t, ht, h⟩ := int_cases v u
      rw [ht]
      dsimp only
      rcases h with h | ⟨-, n, rfl, h⟩ | ⟨-, n, rfl, h⟩
      · rw [numOut_int h]; exact ⟨sure_num h.token fun c hc => small_valid (h.small c hc), trivial⟩
      · exact ⟨by decide +kernel, sure_num h.token fun c hc => small_valid (h.small c hc), trivial⟩
      · exact ⟨by decide +kernel, sure_num h.token fun c hc => small_valid (h.small c hc), trivial⟩
  str := fun h => sure_str hd h.1 (h.2 _ rfl)
  op := by
    intro o h
    have hs := h.1
    unfold canonOp
    split
    · decide +kernel
    · split
      · decide +kernel
      · exact hs
    · show SureIn false (.op .bslash)
      decide +kernel
    · exact hs
  opeq := by
    intro o h
    have hs := h.1
    unfold canonEq
    split
    · show SureIn false (.opeq .bslash)
      decide +kernel
    · exact hs
  keep := fun _ h => h.1
  fixed := sure_fixed

end Verif.Mini
