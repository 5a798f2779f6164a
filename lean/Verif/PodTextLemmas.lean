import Verif.Spec.PodText
import Verif.Props.Lex
import Verif.Props.Num
/-! Lemmas about the text of pods: its tokens, and parsing them. -/
namespace Verif.PodText
open Verif.Pxu (UD)

/-! ### Single tokens -/

/-- What follows a value in the text: nothing, or one of `,` `}` `]` `)`. -/
def Delim (r : List Nat) : Prop := ∀ c, r.head? = some c → c = 44 ∨ c = 125 ∨ c = 93 ∨ c = 41

theorem Delim.nil : Delim [] := by intro c h; cases h

theorem Delim.cons {c : Nat} {r : List Nat} (h : c = 44 ∨ c = 125 ∨ c = 93 ∨ c = 41) : Delim (c :: r) := by
  intro d hd; simp only [List.head?_cons, Option.some.injEq] at hd; subst hd; exact h

theorem Delim.not_ident {r : List Nat} (h : Delim r) : ∀ c, r.head? = some c → isIdentChar false c = false := by
  intro c hc
  rcases h c hc with rfl | rfl | rfl | rfl <;> decide

theorem numScan_delim {hx : Bool} {r : List Nat} (hr : Delim r) : ∀ (s : List Nat) (p : Nat), numScan hx p s = s.length →
    numScan hx p (s ++ r) = s.length
  | [], p, _ => by
    cases r with
    | nil => rfl
    | cons c r =>
      have hi := hr.not_ident c rfl
      have : numGo hx p c = false := by
        unfold numGo
        rcases hr c rfl with rfl | rfl | rfl | rfl <;> (rw [hi]; simp)
      simp [numScan, this]
  | c :: s, p, h => by
    simp only [numScan, List.length_cons] at h
    split at h
    · rename_i hg
      have := numScan_delim (hx := hx) hr s c (by omega)
      simp only [List.cons_append, numScan, hg, if_true, this, List.length_cons]
    · omega

theorem lexStep_num {s r : List Nat} (hs : NumTok s) (hr : Delim r) : lexStep false (s ++ r) = .tok .number s r := by
  obtain ⟨⟨c, t, rfl, hc⟩, hn⟩ := hs
  have hw : isWspace c = false := by
    rcases hc with hc | ⟨rfl, _⟩
    · cases hw : isWspace c with
      | false => rfl
      | true => rw [isDigit_wspace hw] at hc; cases hc
    · decide
  have hcls : lexClass false c (t ++ r).head? = .num := by
    unfold lexClass
    rw [hw]
    rcases hc with hc | ⟨rfl, d, u, rfl, hd⟩
    · simp [hc]
    · simp [headDigit, hd]
  have hlen : numLen false ((c :: t) ++ r) = (c :: t).length := by
    unfold numLen
    simp only [Bool.false_eq_true, if_false]
    have hhex : (((c :: t) ++ r).head? == some 48 && headIn (((c :: t) ++ r).drop 1).head? [120, 88]) =
        ((c :: t).head? == some 48 && headIn ((c :: t).drop 1).head? [120, 88]) := by
      cases t with
      | cons => rfl
      | nil =>
        cases r with
        | nil => rfl
        | cons d r =>
          rcases hr d rfl with rfl | rfl | rfl | rfl <;> simp [headIn]
    rw [hhex]
    exact numScan_delim hr _ _ hn
  rw [List.cons_append] at hlen ⊢
  simp only [lexStep, hcls, hlen]
  rw [← List.cons_append]
  simp [cutTok]

theorem lexStep_word {w r : List Nat} {c : Nat} {t : List Nat} (hw : w = c :: t) (hi : ∀ x ∈ w, isIdentChar false x = true)
    (hd : isDigit c = false) (hr : ∀ x, r.head? = some x → isIdentChar false x = false) :
    lexStep false (w ++ r) = .tok (if keywords.contains w then .keyword else .ident) w r := by
  have hc := hi c (by rw [hw]; simp)
  have hsp : isWspace c = false := by
    cases hsp : isWspace c with
    | false => rfl
    | true => rw [isIdentChar_wspace hsp] at hc; cases hc
  have h46 : c ≠ 46 := by rintro rfl; revert hc; decide
  have hcls : lexClass false c (t ++ r).head? = .ident := by simp [lexClass, hsp, hd, h46, hc]
  have htw : (w ++ r).takeWhile (isIdentChar false) = w := (takeWhile_eq_all hi hr).1
  subst hw
  rw [List.cons_append] at htw ⊢
  simp only [lexStep, hcls, htw]
  rw [← List.cons_append]
  simp [cutTok]

theorem lexStep_str {isDig : Nat → Bool} (hd : AsciiDig isDig) (s r : List Nat) :
    lexStep false (fmtStr isDig s ++ r) = .tok .string (fmtStr isDig s) r := by
  have hf : fmtStr isDig s = 34 :: (litParts isDig true 34 s ++ [34]) := by
    unfold fmtStr formatLiteral
    rw [if_neg (by simp)]
    rfl
  have hs : scanString 34 (litParts isDig true 34 s ++ [34] ++ r) = some r := by
    rw [List.append_assoc]; exact scanString_litParts hd (Or.inl rfl) r s
  rw [hf, List.cons_append]
  have hlen : (34 :: (litParts isDig true 34 s ++ [34] ++ r)).length - r.length = (34 :: (litParts isDig true 34 s ++ [34])).length := by
    simp only [List.length_cons, List.length_append]; omega
  simp only [lexStep, lexClass_quote (Or.inl rfl), hs, hlen]
  rw [show 34 :: (litParts isDig true 34 s ++ [34] ++ r) = (34 :: (litParts isDig true 34 s ++ [34])) ++ r from rfl]
  unfold cutTok
  rw [List.take_left, List.drop_left]

/-- The punctuation marks of pods, each with what must not follow. -/
theorem lexStep_punct {c : Nat} {r : List Nat}
    (hc : c = 123 ∨ c = 125 ∨ c = 40 ∨ c = 41 ∨ c = 93 ∨ c = 44 ∨ (c = 61 ∧ r.head? ≠ some 61) ∨
      (c = 91 ∧ r.head? ≠ some 61 ∧ r.head? ≠ some 91) ∨ (c = 45 ∧ r.head? ≠ some 61 ∧ r.head? ≠ some 45)) :
    lexStep false (c :: r) = .tok .punct [c] r := by
  have key : lexClass false c r.head? = .punct ∧ punctLen false c r = 1 := by
    unfold lexClass punctLen
    rcases hc with rfl | rfl | rfl | rfl | rfl | rfl | ⟨rfl, h⟩ | ⟨rfl, h1, h2⟩ | ⟨rfl, h1, h2⟩
    · simp [isWspace, isDigit, isIdentChar, punctChars]
    · simp [isWspace, isDigit, isIdentChar, punctChars]
    · simp [isWspace, isDigit, isIdentChar, punctChars]
    · simp [isWspace, isDigit, isIdentChar, punctChars]
    · simp [isWspace, isDigit, isIdentChar, punctChars]
    · simp [isWspace, isDigit, isIdentChar, punctChars]
    · simp [isWspace, isDigit, isIdentChar, punctChars, h]
    · simp [isWspace, isDigit, isIdentChar, punctChars, h1, h2]
    · simp [isWspace, isDigit, isIdentChar, punctChars, h1, h2]
  simp only [lexStep, key.1, key.2]
  simp [cutTok]

theorem lex_tok {k : TokKind} {t r : List Nat} (h : lexStep false (t ++ r) = .tok k t r) {ts : List Tk} {x : Option (List Tk)}
    (hx : lexAll false r = x.map (ts ++ ·)) : lexAll false (t ++ r) = x.map ((k, t) :: ts ++ ·) := by
  rw [lexAll_tok h, hx, Option.map_map]
  rfl

/-! ### Tokens of a pod -/

set_option linter.unusedSectionVars false

variable {F : Type} [DecidableEq F]

/-- The tokens of a number with an optional minus sign. -/
def toksNum (neg : Bool) (s : List Nat) : List Tk := if neg then [(.punct, [45]), (.number, s)] else [(.number, s)]

def toksInt (v : Int) : List Tk := toksNum (decide (v < 0)) (natDigits v.natAbs)

def toksFloat (fl : Floats F) (f : F) : List Tk := toksNum (fl.fmt f).1 (fl.fmt f).2

def toksBool (b : Bool) : List Tk := [(.keyword, fmtBool b)]

/-- A way to write strings as literals that are read back. -/
structure Lits (sf : List Nat → List Nat) : Prop where
  tok : ∀ s r, lexStep false (sf s ++ r) = .tok .string (sf s) r
  back : ∀ s, parseLiteral false (sf s) = some s
  head : ∀ s, ∃ t, sf s = 34 :: t

theorem fmtStr_eq (isDig : Nat → Bool) (s : List Nat) : fmtStr isDig s = 34 :: (litParts isDig true 34 s ++ [34]) := by
  unfold fmtStr formatLiteral
  rw [if_neg (by simp)]
  rfl

theorem lits_fmtStr {isDig : Nat → Bool} (hd : AsciiDig isDig) : Lits (fmtStr isDig) where
  tok := lexStep_str hd
  back s := C17_any_parse hd false true true (some false) (by intro x hx; cases hx; simp) s
  head s := ⟨_, fmtStr_eq isDig s⟩

def toksUd (sf : List Nat → List Nat) (u : UD) : List Tk :=
  (.ident, txt "userdata") :: (.punct, [40]) :: (.string, sf u.type) :: (.punct, [44]) :: (toksInt u.width ++
    ((if u.height ≠ 0 then (.punct, [44]) :: toksInt u.height else []) ++ [(.punct, [44]), (.string, sf u.data), (.punct, [41])]))

def toksKey (fl : Floats F) (sf : List Nat → List Nat) : Key F → List Tk
  | .bool b => toksBool b
  | .int v => toksInt v
  | .float f => toksFloat fl f
  | .str s => [(.string, sf s)]

def toksBracket (fl : Floats F) (sf : List Nat → List Nat) (k : Key F) : List Tk :=
  (.punct, [91]) :: (toksKey fl sf k ++ [(.punct, [93]), (.punct, [61])])

def toksHead (fl : Floats F) (sf : List Nat → List Nat) : Key F → List Tk
  | .str s => if isIdentifier false s then [(.ident, s), (.punct, [61])] else toksBracket fl sf (.str s)
  | k => toksBracket fl sf k

/-- What stands for a userdata that was taken out. -/
def udCall : List Nat := txt "userdata()"

def toksCall : List Tk := [(.ident, txt "userdata"), (.punct, [40]), (.punct, [41])]

/-- The tokens of parts, each with a comma before it. -/
def toksTail : List (List Tk) → List Tk
  | [] => []
  | a :: l => (.punct, [44]) :: (a ++ toksTail l)

def toksCommas : List (List Tk) → List Tk
  | [] => []
  | a :: l => a ++ toksTail l

mutual
def toksVal (fl : Floats F) (sf : List Nat → List Nat) (b : UD → Bool) : Val F → List Tk
  | .nil => [(.keyword, txt "nil")]
  | .bool b => toksBool b
  | .int v => toksInt v
  | .float f => toksFloat fl f
  | .str s => [(.string, sf s)]
  | .ud u => if b u then toksCall else toksUd sf u
  | .table items => (.punct, [123]) :: (toksCommas (toksItems fl sf b 1 items) ++ [(.punct, [125])])
def toksItems (fl : Floats F) (sf : List Nat → List Nat) (b : UD → Bool) (index : Int) : Items F → List (List Tk)
  | .nil => []
  | .cons k v r =>
    if k.norm fl = .int index then toksVal fl sf b v :: toksItems fl sf b (index + 1) r
    else (toksHead fl sf k ++ toksVal fl sf b v) :: toksItems fl sf b index r
end

/-- The text of parts, each with a comma before it. -/
def tailText : List (List Nat) → List Nat
  | [] => []
  | a :: l => 44 :: (a ++ tailText l)

theorem commas_cons (a : List Nat) : ∀ l, commas (a :: l) = a ++ tailText l
  | [] => by simp [commas, tailText]
  | b :: l => by rw [commas, commas_cons b l]; rfl

mutual
/-- The userdata that are taken out, in order. -/
def Val.taken (b : UD → Bool) : Val F → List UD
  | .ud u => if b u then [u] else []
  | .table items => items.taken b
  | _ => []
def Items.taken (b : UD → Bool) : Items F → List UD
  | .nil => []
  | .cons _ v r => v.taken b ++ r.taken b
end

/-- The placeholder as it is when parsing. -/
def phCall (b : UD → Bool) (u : UD) : Option (List Nat) := if b u then some udCall else none

/-! ### Numbers -/

theorem natDigits_numTok (n : Nat) : NumTok (natDigits n) := by
  have hd : ∀ c ∈ natDigits n, 48 ≤ c ∧ c ≤ 57 := natDigits_digit n
  have hne := natDigits_ne_nil n
  have hscan : ∀ (s : List Nat), (∀ c ∈ s, 48 ≤ c ∧ c ≤ 57) → ∀ hx p, numScan hx p s = s.length := by
    intro s
    induction s with
    | nil => intro _ _ _; rfl
    | cons c s ih =>
      intro hs hx p
      have hc := hs c (by simp)
      have : numGo hx p c = true := by unfold numGo isIdentChar; simp [hc]
      simp only [numScan, this, if_true, List.length_cons, ih (fun x hx => hs x (List.mem_cons_of_mem _ hx))]
  refine ⟨?_, hscan _ hd _ _⟩
  cases h : natDigits n with
  | nil => exact absurd h hne
  | cons c t =>
    refine ⟨c, t, rfl, Or.inl ?_⟩
    have := hd c (by rw [h]; simp)
    simp [isDigit, this]

theorem fmtInt_eq {v : Int} (h : IntOk v) : fmtInt v = (if decide (v < 0) then [45] else []) ++ natDigits v.natAbs := by
  obtain ⟨h1, h2⟩ := h
  unfold fmtInt formatLuaInt
  have hb : luaBody (some 10) (v % 2 ^ 64).toNat = some (natDigits (v % 2 ^ 64).toNat) := rfl
  by_cases hv : 0 ≤ v
  · have e : (v % 2 ^ 64).toNat = v.natAbs := by omega
    simp only [hb]
    rw [if_neg (by omega), e, decide_eq_false (by omega)]
    rfl
  · have hn : luaSigned (some 10) v .neg = some (45 :: natDigits ((-v) % 2 ^ 64).toNat) := rfl
    have hx : luaSigned (some 10) v .bnot = some (126 :: natDigits ((-v - 1) % 2 ^ 64).toNat) := rfl
    have hlong : 20 ≤ (natDigits (v % 2 ^ 64).toNat).length := natDigits_length_ge 19 _ (by omega)
    have hshort := natDigits_length_le 17 ((-v) % 2 ^ 64).toNat (by omega)
    have e : ((-v) % 2 ^ 64).toNat = v.natAbs := by omega
    rw [e] at hn hshort
    simp only [hb, hn, hx]
    rw [if_pos (by omega), if_neg (by simp), if_pos (by simp only [List.length_cons]; omega), decide_eq_true (by omega)]
    rfl

theorem lower_digits (n : Nat) : (natDigits n).map lowerChar = natDigits n := by
  have hd : ∀ c ∈ natDigits n, 48 ≤ c ∧ c ≤ 57 := natDigits_digit n
  conv => rhs; rw [← List.map_id (natDigits n)]
  apply List.map_congr_left
  intro c hc
  exact lowerChar_digit (by have := hd c hc; omega)

theorem numVal_digits (fl : Floats F) {n : Nat} (h : n < 2 ^ 63) : numVal fl (natDigits n) = some (.int n) := by
  unfold numVal
  rw [lower_digits, luaDec_spec, if_pos h, toLuaInt_id (by omega) (by omega)]

/-! ### From text to tokens -/

theorem lex_num {neg : Bool} {s r : List Nat} (hs : NumTok s) (hr : Delim r) :
    lexAll false (((if neg then [45] else []) ++ s) ++ r) = (lexAll false r).map (toksNum neg s ++ ·) := by
  have h1 : lexAll false (s ++ r) = (lexAll false r).map ([(.number, s)] ++ ·) := by rw [lexAll_tok (lexStep_num hs hr)]; rfl
  cases neg with
  | false => exact h1
  | true =>
    have hp : lexStep false ([45] ++ (s ++ r)) = .tok .punct [45] (s ++ r) := by
      obtain ⟨⟨c, t, rfl, hc⟩, -⟩ := hs
      apply lexStep_punct
      refine Or.inr (Or.inr (Or.inr (Or.inr (Or.inr (Or.inr (Or.inr (Or.inr ⟨rfl, ?_⟩)))))))
      show some c ≠ some 61 ∧ some c ≠ some 45
      simp only [ne_eq, Option.some.injEq]
      rcases hc with hc | ⟨rfl, _⟩
      · simp only [isDigit, Bool.and_eq_true, decide_eq_true_eq] at hc; omega
      · decide
    rw [if_pos rfl, List.append_assoc]
    exact lex_tok hp h1

theorem lex_int {v : Int} {r : List Nat} (hv : IntOk v) (hr : Delim r) :
    lexAll false (fmtInt v ++ r) = (lexAll false r).map (toksInt v ++ ·) := by
  rw [fmtInt_eq hv]
  exact lex_num (natDigits_numTok _) hr

theorem lex_float {fl : Floats F} {f : F} {r : List Nat} (hf : FloatOk fl f) (hr : Delim r) :
    lexAll false (fmtFloat fl f ++ r) = (lexAll false r).map (toksFloat fl f ++ ·) := lex_num hf.tok hr

theorem lex_str {sf : List Nat → List Nat} (hd : Lits sf) (s r : List Nat) :
    lexAll false (sf s ++ r) = (lexAll false r).map ([(.string, sf s)] ++ ·) := lexAll_tok (hd.tok s r)

theorem lex_bool (b : Bool) {r : List Nat} (hr : Delim r) :
    lexAll false (fmtBool b ++ r) = (lexAll false r).map (toksBool b ++ ·) := by
  have h : lexStep false (fmtBool b ++ r) = .tok .keyword (fmtBool b) r := by
    cases b
    · exact (lexStep_word (w := txt "false") (c := 102) (t := txt "alse") rfl (by decide) (by decide) hr.not_ident).trans (by rw [if_pos (by decide)]; rfl)
    · exact (lexStep_word (w := txt "true") (c := 116) (t := txt "rue") rfl (by decide) (by decide) hr.not_ident).trans (by rw [if_pos (by decide)]; rfl)
  exact lexAll_tok h

theorem lex_nil {r : List Nat} (hr : Delim r) : lexAll false (txt "nil" ++ r) = (lexAll false r).map ([(.keyword, txt "nil")] ++ ·) := by
  have h : lexStep false (txt "nil" ++ r) = .tok .keyword (txt "nil") r :=
    (lexStep_word (w := txt "nil") (c := 110) (t := txt "il") rfl (by decide) (by decide) hr.not_ident).trans (by rw [if_pos (by decide)])
  exact lexAll_tok h

/-- A mark that does not depend on what follows. -/
theorem lex_mark {c : Nat} (hc : c = 123 ∨ c = 125 ∨ c = 40 ∨ c = 41 ∨ c = 93 ∨ c = 44) (r : List Nat) :
    lexAll false (c :: r) = (lexAll false r).map ([(.punct, [c])] ++ ·) := by
  refine lexAll_tok (t := [c]) (lexStep_punct ?_)
  rcases hc with h | h | h | h | h | h <;> simp [h]

theorem lex_word_call (r : List Nat) :
    lexAll false (txt "userdata(" ++ r) = (lexAll false r).map ([(.ident, txt "userdata"), (.punct, [40])] ++ ·) := by
  have h : lexStep false (txt "userdata" ++ (40 :: r)) = .tok .ident (txt "userdata") (40 :: r) :=
    (lexStep_word (w := txt "userdata") (c := 117) (t := txt "serdata") rfl (by decide) (by decide)
      (by intro x hx; simp only [List.head?_cons, Option.some.injEq] at hx; subst hx; decide)).trans (by rw [if_neg (by decide)])
  rw [show txt "userdata(" ++ r = txt "userdata" ++ (40 :: r) from rfl, lexAll_tok h, lex_mark (by simp), Option.map_map]
  rfl

theorem map_toks (x : Option (List Tk)) (a b : List Tk) : (x.map (b ++ ·)).map (a ++ ·) = x.map ((a ++ b) ++ ·) := by
  rw [Option.map_map]; congr 1; funext t; simp

theorem lex_ud {sf : List Nat → List Nat} (hd : Lits sf) {u : UD} (hw : IntOk u.width) (hh : IntOk u.height) (r : List Nat) :
    lexAll false (fmtUd sf u ++ r) = (lexAll false r).map (toksUd sf u ++ ·) := by
  have hend : lexAll false ([44] ++ (sf u.data ++ ([41] ++ r))) =
      (lexAll false r).map ([(.punct, [44]), (.string, sf u.data), (.punct, [41])] ++ ·) := by
    rw [List.singleton_append, lex_mark (by simp), lex_str hd, List.singleton_append, lex_mark (by simp), map_toks, map_toks]
    rfl
  have hmid : lexAll false ((if u.height ≠ 0 then 44 :: fmtInt u.height else []) ++ ([44] ++ (sf u.data ++ ([41] ++ r)))) =
      (lexAll false r).map (((if u.height ≠ 0 then (.punct, [44]) :: toksInt u.height else []) ++
        [(.punct, [44]), (.string, sf u.data), (.punct, [41])]) ++ ·) := by
    by_cases h0 : u.height = 0
    · rw [if_neg (by simp [h0]), if_neg (by simp [h0]), List.nil_append, hend]; rfl
    · rw [if_pos (by simp [h0]), if_pos (by simp [h0]), List.cons_append, lex_mark (by simp), lex_int hh (r := [44] ++ (sf u.data ++ ([41] ++ r))) (Delim.cons (by simp)), hend,
        map_toks, map_toks]
      rfl
  unfold fmtUd toksUd
  simp only [List.append_assoc]
  rw [lex_word_call, lex_str hd, List.singleton_append, lex_mark (by simp), lex_int hw, hmid, map_toks, map_toks, map_toks, map_toks]
  · simp
  · by_cases h0 : u.height = 0
    · rw [if_neg (by simp [h0])]; exact (show Delim (44 :: _) from Delim.cons (by simp))
    · rw [if_pos (by simp [h0])]; exact (show Delim (44 :: _) from Delim.cons (by simp))

theorem lex_key {fl : Floats F} {sf : List Nat → List Nat} (hd : Lits sf) {k : Key F} (hk : k.Ok fl) {r : List Nat} (hr : Delim r) :
    lexAll false (fmtKey fl sf k ++ r) = (lexAll false r).map (toksKey fl sf k ++ ·) := by
  cases k with
  | bool b => exact lex_bool b hr
  | int v => exact lex_int hk hr
  | float f => exact lex_float hk.1 hr
  | str s => exact lex_str hd s r

/-- The first character of a value. -/
def Start (c : Nat) : Prop := c ≠ 61 ∧ c ≠ 91

theorem start_num {neg : Bool} {s r : List Nat} (hs : NumTok s) :
    ∃ c t, (if neg then [45] else []) ++ s ++ r = c :: t ∧ Start c := by
  cases neg with
  | true => exact ⟨45, s ++ r, rfl, by unfold Start; decide⟩
  | false =>
    obtain ⟨⟨c, t, rfl, hc⟩, -⟩ := hs
    refine ⟨c, t ++ r, rfl, ?_⟩
    unfold Start
    rcases hc with hc | ⟨rfl, _⟩
    · simp only [isDigit, Bool.and_eq_true, decide_eq_true_eq] at hc; omega
    · decide

theorem start_key {fl : Floats F} {sf : List Nat → List Nat} (hd : Lits sf) {k : Key F} (hk : k.Ok fl) (r : List Nat) :
    ∃ c t, fmtKey fl sf k ++ r = c :: t ∧ Start c := by
  cases k with
  | bool b => cases b <;> exact ⟨_, _, rfl, by unfold Start; decide⟩
  | int v =>
    show ∃ c t, fmtInt v ++ r = c :: t ∧ Start c
    rw [fmtInt_eq hk]; exact start_num (natDigits_numTok _)
  | float f => exact start_num hk.1.tok
  | str s =>
    show ∃ c t, sf s ++ r = c :: t ∧ Start c
    obtain ⟨t, ht⟩ := hd.head s; rw [ht]; exact ⟨_, _, rfl, by unfold Start; decide⟩

theorem start_val {fl : Floats F} {sf : List Nat → List Nat} (hd : Lits sf) {b : UD → Bool} {v : Val F} (hv : v.Ok fl) (r : List Nat) :
    ∃ c t, fmtVal fl sf (phCall b) v ++ r = c :: t ∧ Start c := by
  cases v with
  | nil => exact ⟨_, _, rfl, by unfold Start; decide⟩
  | bool b => cases b <;> exact ⟨_, _, rfl, by unfold Start; decide⟩
  | int v =>
    show ∃ c t, fmtInt v ++ r = c :: t ∧ Start c
    rw [Val.Ok] at hv
    rw [fmtInt_eq hv]; exact start_num (natDigits_numTok _)
  | float f => rw [Val.Ok] at hv; exact start_num hv.tok
  | str s =>
    show ∃ c t, sf s ++ r = c :: t ∧ Start c
    obtain ⟨t, ht⟩ := hd.head s; rw [ht]; exact ⟨_, _, rfl, by unfold Start; decide⟩
  | ud u =>
    show ∃ c t, (phCall b u).getD (fmtUd sf u) ++ r = c :: t ∧ Start c
    unfold phCall
    split <;> exact ⟨117, _, rfl, by unfold Start; decide⟩
  | table t => exact ⟨123, _, rfl, by unfold Start; decide⟩

theorem lex_bracket {fl : Floats F} {sf : List Nat → List Nat} (hd : Lits sf) {k : Key F} (hk : k.Ok fl) {r : List Nat}
    (hr : r.head? ≠ some 61) :
    lexAll false (91 :: (fmtKey fl sf k ++ [93, 61]) ++ r) = (lexAll false r).map (toksBracket fl sf k ++ ·) := by
  have h1 : lexAll false ([61] ++ r) = (lexAll false r).map ([(.punct, [61])] ++ ·) := lexAll_tok (lexStep_punct (by simp [hr]))
  have h2 : lexAll false (fmtKey fl sf k ++ (93 :: ([61] ++ r))) =
      (lexAll false r).map ((toksKey fl sf k ++ ([(.punct, [93])] ++ [(.punct, [61])])) ++ ·) := by
    rw [lex_key hd hk (Delim.cons (by simp)), lex_mark (by simp), h1, map_toks, map_toks, List.append_assoc]
  have h3 : lexStep false ([91] ++ (fmtKey fl sf k ++ (93 :: ([61] ++ r)))) = .tok .punct [91] (fmtKey fl sf k ++ (93 :: ([61] ++ r))) := by
    obtain ⟨c, t, hc, hs⟩ := start_key hd hk (93 :: ([61] ++ r))
    rw [hc]
    exact lexStep_punct (by simp [hs.1, hs.2])
  rw [show 91 :: (fmtKey fl sf k ++ [93, 61]) ++ r = [91] ++ (fmtKey fl sf k ++ (93 :: ([61] ++ r))) by simp, lex_tok h3 h2]
  rfl

theorem ident_ne_digit {s : List Nat} (h : isIdentifier false s = true) :
    ∃ c t, s = c :: t ∧ isDigit c = false ∧ (∀ x ∈ s, isIdentChar false x = true) ∧ keywords.contains s = false := by
  unfold isIdentifier at h
  cases s with
  | nil => simp at h
  | cons c s =>
    simp only [Bool.and_eq_true, Bool.not_eq_true', List.all_eq_true] at h
    obtain ⟨⟨⟨_, h1⟩, h2⟩, h3⟩ := h
    refine ⟨c, s, rfl, ?_, h1, h3⟩
    simp only [isDigitChar, Bool.or_eq_false_iff] at h2
    exact h2.1.1.1

theorem lex_head {fl : Floats F} {sf : List Nat → List Nat} (hd : Lits sf) {k : Key F} (hk : k.Ok fl) {r : List Nat}
    (hr : r.head? ≠ some 61) :
    lexAll false (fmtHead fl sf k ++ r) = (lexAll false r).map (toksHead fl sf k ++ ·) := by
  cases k with
  | bool b => exact lex_bracket hd hk hr
  | int v => exact lex_bracket hd hk hr
  | float f => exact lex_bracket hd hk hr
  | str s =>
    simp only [fmtHead, toksHead]
    by_cases hi : isIdentifier false s = true
    · rw [if_pos hi, if_pos hi]
      obtain ⟨c, t, hs, h1, h2, h3⟩ := ident_ne_digit hi
      have h4 : lexStep false (s ++ ([61] ++ r)) = .tok .ident s ([61] ++ r) := by
        have := lexStep_word (w := s) (r := [61] ++ r) hs h2 h1 (by
          intro x hx; simp only [List.singleton_append, List.head?_cons, Option.some.injEq] at hx; subst hx; decide)
        rw [this, if_neg (by simp only [h3]; decide)]
      have h5 : lexAll false ([61] ++ r) = (lexAll false r).map ([(.punct, [61])] ++ ·) := lexAll_tok (lexStep_punct (by simp [hr]))
      rw [List.append_assoc, lex_tok h4 h5]
    · rw [if_neg hi, if_neg hi]
      exact lex_bracket (k := .str s) hd hk hr

theorem lex_call {r : List Nat} : lexAll false (udCall ++ r) = (lexAll false r).map (toksCall ++ ·) := by
  rw [show udCall ++ r = txt "userdata(" ++ (41 :: r) from rfl, lex_word_call, lex_mark (by simp), map_toks]
  rfl

mutual
/-- The text of a value has the expected tokens. -/
theorem lex_val {fl : Floats F} {sf : List Nat → List Nat} (hd : Lits sf) (b : UD → Bool) : ∀ (v : Val F), v.Ok fl → ∀ (r : List Nat),
    Delim r → lexAll false (fmtVal fl sf (phCall b) v ++ r) = (lexAll false r).map (toksVal fl sf b v ++ ·)
  | .nil, _, r, hr => by rw [fmtVal, toksVal]; exact lex_nil hr
  | .bool x, _, r, hr => by rw [fmtVal, toksVal]; exact lex_bool x hr
  | .int v, h, r, hr => by rw [fmtVal, toksVal]; rw [Val.Ok] at h; exact lex_int h hr
  | .float f, h, r, hr => by rw [fmtVal, toksVal]; rw [Val.Ok] at h; exact lex_float h hr
  | .str s, _, r, hr => by rw [fmtVal, toksVal]; exact lex_str hd s r
  | .ud u, h, r, hr => by
    rw [fmtVal, toksVal, phCall]
    rw [Val.Ok] at h
    split
    · exact lex_call
    · exact lex_ud hd h.1 h.2 r
  | .table .nil, _, r, hr => by
    rw [fmtVal, toksVal, fmtItems, toksItems]
    show lexAll false (123 :: (125 :: r)) = _
    rw [lex_mark (by simp), lex_mark (by simp), map_toks]
    rfl
  | .table (.cons k v t), h, r, hr => by
    rw [Val.Ok, Items.Ok] at h
    obtain ⟨h1, -, h2, -, h3⟩ := h
    rw [fmtVal, toksVal, fmtItems, toksItems]
    have hstart : ∀ x, (fmtVal fl sf (phCall b) v ++ x).head? ≠ some 61 := by
      intro x
      obtain ⟨c, u, hc, hs⟩ := start_val hd (b := b) h2 x
      rw [hc]; simp [hs.1]
    have hdel : ∀ (i : Int), Delim (tailText (fmtItems fl sf (phCall b) i t) ++ (125 :: r)) := by
      intro i
      cases hx : fmtItems fl sf (phCall b) i t with
      | nil => exact Delim.cons (by simp)
      | cons => exact Delim.cons (by simp)
    split
    · rw [commas_cons, toksCommas]
      rw [show 123 :: (fmtVal fl sf (phCall b) v ++ tailText (fmtItems fl sf (phCall b) (1 + 1) t) ++ [125]) ++ r =
        123 :: (fmtVal fl sf (phCall b) v ++ (tailText (fmtItems fl sf (phCall b) (1 + 1) t) ++ (125 :: r))) by simp]
      rw [lex_mark (by simp), lex_val hd b v h2 _ (hdel _), lex_tail hd b t h3 _ r hr, map_toks, map_toks]
      simp
    · rw [commas_cons, toksCommas]
      rw [show 123 :: (fmtHead fl sf k ++ fmtVal fl sf (phCall b) v ++ tailText (fmtItems fl sf (phCall b) 1 t) ++ [125]) ++ r =
        123 :: (fmtHead fl sf k ++ (fmtVal fl sf (phCall b) v ++ (tailText (fmtItems fl sf (phCall b) 1 t) ++ (125 :: r)))) by simp]
      rw [lex_mark (by simp), lex_head hd h1 (hstart _), lex_val hd b v h2 _ (hdel _), lex_tail hd b t h3 _ r hr, map_toks, map_toks, map_toks]
      simp
theorem lex_tail {fl : Floats F} {sf : List Nat → List Nat} (hd : Lits sf) (b : UD → Bool) : ∀ (t : Items F), t.Ok fl → ∀ (i : Int) (r : List Nat),
    Delim r → lexAll false (tailText (fmtItems fl sf (phCall b) i t) ++ (125 :: r)) =
      (lexAll false r).map ((toksTail (toksItems fl sf b i t) ++ [(.punct, [125])]) ++ ·)
  | .nil, _, i, r, hr => by
    rw [fmtItems, toksItems]
    exact lex_mark (by simp) r
  | .cons k v t, h, i, r, hr => by
    rw [Items.Ok] at h
    obtain ⟨h1, -, h2, -, h3⟩ := h
    rw [fmtItems, toksItems]
    have hstart : ∀ x, (fmtVal fl sf (phCall b) v ++ x).head? ≠ some 61 := by
      intro x
      obtain ⟨c, u, hc, hs⟩ := start_val hd (b := b) h2 x
      rw [hc]; simp [hs.1]
    have hdel : ∀ (i : Int), Delim (tailText (fmtItems fl sf (phCall b) i t) ++ (125 :: r)) := by
      intro i
      cases hx : fmtItems fl sf (phCall b) i t with
      | nil => exact Delim.cons (by simp)
      | cons => exact Delim.cons (by simp)
    split
    · rw [tailText, toksTail]
      rw [show 44 :: (fmtVal fl sf (phCall b) v ++ tailText (fmtItems fl sf (phCall b) (i + 1) t)) ++ (125 :: r) =
        44 :: (fmtVal fl sf (phCall b) v ++ (tailText (fmtItems fl sf (phCall b) (i + 1) t) ++ (125 :: r))) by simp]
      rw [lex_mark (by simp), lex_val hd b v h2 _ (hdel _), lex_tail hd b t h3 _ r hr, map_toks, map_toks]
      simp
    · rw [tailText, toksTail]
      rw [show 44 :: (fmtHead fl sf k ++ fmtVal fl sf (phCall b) v ++ tailText (fmtItems fl sf (phCall b) i t)) ++ (125 :: r) =
        44 :: (fmtHead fl sf k ++ (fmtVal fl sf (phCall b) v ++ (tailText (fmtItems fl sf (phCall b) i t) ++ (125 :: r)))) by simp]
      rw [lex_mark (by simp), lex_head hd h1 (hstart _), lex_val hd b v h2 _ (hdel _), lex_tail hd b t h3 _ r hr, map_toks, map_toks, map_toks]
      simp
end

end Verif.PodText
