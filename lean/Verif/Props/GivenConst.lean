import Verif.GivenConst
import Verif.Spec.GivenConst
import Verif.Props.Charset
import Verif.Props.NumDen
import Verif.Props.StrDen
import Verif.Props.Lex
/-! C90: constants given on the command line have the value they have in Lua. -/
namespace Verif.GivenConst
open Verif.NumSpec Verif.GivenSpec

theorem blank_wspace {w : List Nat} (h : Blank w) : ∀ c ∈ w, isWspace c = true := by
  intro c hc
  rcases h c hc with rfl | rfl | rfl | rfl <;> decide

theorem compat_blank {w : List Nat} (h : Blank w) : Compat (List.head? ([] : List Nat)) w.head? := by
  cases w with
  | nil => exact Or.inl rfl
  | cons c w => exact Or.inr (Or.inr ⟨c, blank_wspace h c (by simp), rfl⟩)

theorem lexAll_blank {p8 : Bool} {w : List Nat} (h : Blank w) : lexAll p8 w = some [] := by
  have := lexAll_space (p8 := p8) (r := []) (blank_wspace h)
  rw [List.append_nil] at this
  rw [this, lexAll_nil]

theorem lex_then {p8 : Bool} {k : TokKind} {t w : List Nat} (h : lexStep p8 t = .tok k t []) (hw : Blank w) : lexAll p8 (t ++ w) = some [(k, t)] := by
  have h' : lexStep p8 (t ++ []) = .tok k t [] := by rw [List.append_nil]; exact h
  rw [lexAll_tok (lexStep_local (compat_blank hw) h').2, lexAll_blank hw]
  rfl

theorem lex_one {p8 : Bool} {k : TokKind} {t w1 w2 : List Nat} (h : lexStep p8 t = .tok k t []) (h1 : Blank w1) (h2 : Blank w2) :
    lexAll p8 (w1 ++ t ++ w2) = some [(k, t)] := by
  rw [List.append_assoc, lexAll_space (blank_wspace h1), lex_then h h2]

/-- A sign before white space or a number is a token. -/
theorem lex_sign {p8 : Bool} {a : Nat} (ha : a = 45 ∨ a = 126) {r : List Nat} (hr : ∀ c, r.head? = some c → c ≠ 45 ∧ c ≠ 61) :
    lexStep p8 (a :: r) = .tok .punct [a] r := by
  have hcls : lexClass p8 a r.head? = .punct := by
    cases hh : r.head? with
    | none => rcases ha with rfl | rfl <;> cases p8 <;> decide
    | some c =>
      have h45 := (hr c hh).1
      rcases ha with rfl | rfl
      · have : ((some c : Option Nat) == some 45) = false := by simpa using h45
        unfold lexClass
        rw [this]
        cases p8 <;> simp [isWspace, isDigit, isIdentChar, punctChars]
      · cases p8 <;> simp [lexClass, isWspace, isDigit, isIdentChar, punctChars]
  have hlen : punctLen p8 a r = 1 := by
    have : (r.head? == some 61) = false := by
      cases hh : r.head? with
      | none => rfl
      | some c => simpa using (hr c hh).2
    unfold punctLen
    rw [this]
    rcases ha with rfl | rfl <;> simp
  rw [lexStep, hcls]
  simp only [cutTok, hlen, List.take_succ_cons, List.take_zero, List.drop_succ_cons, List.drop_zero]

theorem lex_signed {p8 : Bool} {a : Nat} (ha : a = 45 ∨ a = 126) {k : TokKind} {t w w1 w2 : List Nat} (h : lexStep p8 t = .tok k t [])
    (ht : ∀ c, t.head? = some c → c ≠ 45 ∧ c ≠ 61) (hw : Blank w) (h1 : Blank w1) (h2 : Blank w2) :
    lexAll p8 (w1 ++ a :: (w ++ t) ++ w2) = some [(.punct, [a]), (k, t)] := by
  have hr : ∀ c, (w ++ (t ++ w2)).head? = some c → c ≠ 45 ∧ c ≠ 61 := by
    intro c hc
    cases w with
    | cons x w =>
      simp only [List.cons_append, List.head?_cons, Option.some.injEq] at hc
      have := hw x (by simp)
      omega
    | nil =>
      cases t with
      | nil => simp [lexStep] at h
      | cons x t => exact ht c (by simpa using hc)
  rw [List.append_assoc, lexAll_space (blank_wspace h1), show a :: (w ++ t) ++ w2 = [a] ++ (w ++ (t ++ w2)) by simp,
    lexAll_tok (lex_sign ha hr), lexAll_space (blank_wspace hw), lex_then h h2]
  rfl

/-! ### Numbers -/

theorem digits_mem {base : Nat} {t : List Nat} {n : Nat} (h : Digits base t n) : ∀ c ∈ t, ∃ d, IsDigit base c d := by
  induction h with
  | nil => simp
  | snoc h hd ih =>
    intro c hc
    rcases List.mem_append.mp hc with hc | hc
    · exact ih c hc
    · simp only [List.mem_singleton] at hc; subst hc; exact ⟨_, hd⟩

/-- The characters of a number after its prefix. -/
def BaseChars (base : Nat) (t : List Nat) : Prop := ∀ c ∈ t, c = 46 ∨ ∃ d, IsDigit base c d

theorem fixAbs_chars {t : List Nat} {v : Nat} (h : FixAbs t v) : ∃ p base u, Prefix p base ∧ t = p ++ u ∧ BaseChars base u := by
  cases h with
  | int hp h hv => exact ⟨_, _, _, hp, rfl, fun c hc => Or.inr (digits_mem h c hc)⟩
  | frac hp h1 h2 hw hw' hv =>
    refine ⟨_, _, _, hp, by rw [List.append_assoc, List.append_assoc], ?_⟩
    intro c hc
    rcases List.mem_append.mp hc with hc | hc
    · exact Or.inr (digits_mem h1 c hc)
    · rcases List.mem_append.mp hc with hc | hc
      · exact Or.inl (by simpa using hc)
      · exact Or.inr (digits_mem h2 c hc)

theorem baseChars_all {base : Nat} (hb : base = 2 ∨ base = 10 ∨ base = 16) {t : List Nat} (h : BaseChars base t) :
    t.takeWhile (numDigit base) = t := by
  induction t with
  | nil => rfl
  | cons c t ih =>
    have hc : numDigit base c = true := by
      rcases h c (by simp) with rfl | ⟨d, h1, h2⟩
      · simp [numDigit]
      · rcases hb with rfl | rfl | rfl <;> simp [numDigit, isDigit] <;> omega
    rw [List.takeWhile_cons_of_pos hc, ih fun x hx => h x (by simp [hx])]

theorem numLen_fix {t : List Nat} {v : Nat} (h : FixAbs t v) : numLen true t = t.length := by
  obtain ⟨p, base, u, hp, rfl, hu⟩ := fixAbs_chars h
  cases hp with
  | dec =>
    have h1 : ∀ c ∈ u, c = 46 ∨ 48 ≤ c ∧ c ≤ 57 := by
      intro c hc
      rcases hu c hc with h | ⟨d, h1, h2⟩
      · exact Or.inl h
      · right; omega
    have hx : ∀ cs : List Nat, (∀ x ∈ cs, x ≠ 46 ∧ ¬ (48 ≤ x ∧ x ≤ 57)) → headIn (u.drop 1).head? cs = false := by
      intro cs hcs
      cases hh : (u.drop 1).head? with
      | none => rfl
      | some x =>
        have hm : x ∈ u := List.mem_of_mem_drop (List.mem_of_mem_head? hh)
        simp only [headIn]
        cases hc : cs.contains x with
        | false => rfl
        | true =>
          have := hcs x (by simpa using hc)
          have := h1 x hm
          omega
    simp only [List.nil_append, numLen, if_true]
    rw [hx [98, 66] (by simp), hx [120, 88] (by simp)]
    simp only [Bool.and_false, Bool.false_eq_true, if_false]
    rw [baseChars_all (by simp) hu]
  | hex hx =>
    have e : u.takeWhile (numDigit 16) = u := baseChars_all (by simp) hu
    rcases hx with rfl | rfl <;> simp [numLen, headIn, e] <;> omega
  | bin hx =>
    have e : u.takeWhile (numDigit 2) = u := baseChars_all (by simp) hu
    rcases hx with rfl | rfl <;> simp [numLen, headIn, e] <;> omega

theorem numeral_class {p8 : Bool} {c : Nat} {r : List Nat} (h : Numeral (c :: r)) : lexClass p8 c r.head? = .num := by
  obtain ⟨x, y, e, h⟩ := h
  cases e
  unfold lexClass
  rcases h with h | ⟨rfl, d, u, rfl, h⟩
  · rw [if_neg (by simp [isWspace]; omega), if_pos (by simp [isDigit]; omega)]
  · rw [if_neg (by simp [isWspace]), if_pos (by simp [headDigit, isDigit]; omega)]

theorem numeral_lex {p8 : Bool} {t : List Nat} (h : Numeral t) (hl : numLen p8 t = t.length) : lexStep p8 t = .tok .number t [] := by
  cases t with
  | nil => obtain ⟨c, r, e, _⟩ := h; cases e
  | cons c r =>
    rw [lexStep, numeral_class h]
    simp only [cutTok, hl, List.take_length, List.drop_length]

theorem numeral_head {t : List Nat} (h : Numeral t) : ∀ c, t.head? = some c → c ≠ 45 ∧ c ≠ 61 := by
  obtain ⟨x, y, rfl, h⟩ := h
  intro c hc
  cases hc
  omega

theorem intAbs_chars {t : List Nat} {v : Int} (h : IntAbs t v) : Numeral t ∧ numLen false t = t.length := by
  have scan : ∀ {b : Bool} {l : List Nat} {p : Nat}, (∀ c ∈ l, isIdentChar false c = true) → numScan b p l = l.length := by
    intro b l
    induction l with
    | nil => intros; rfl
    | cons c l ih =>
      intro p hl
      rw [numScan, if_pos (by simp [numGo, hl c (by simp)]), ih fun x hx => hl x (by simp [hx])]
      rfl
  have dig : ∀ {base c d : Nat}, IsDigit base c d → isIdentChar false c = true := by
    intro base c d h
    obtain ⟨_, h⟩ := h
    simp [isIdentChar]; omega
  cases h with
  | dec hne h hn =>
    have hm := digits_mem h
    refine ⟨?_, scan fun c hc => (hm c hc).elim fun d hd => dig hd⟩
    cases t with
    | nil => exact absurd rfl hne
    | cons c r =>
      obtain ⟨d, h1, h2⟩ := hm c (by simp)
      exact ⟨c, r, rfl, Or.inl (by omega)⟩
  | other hp hb hne h hv =>
    have hm := digits_mem h
    have hu := fun c hc => (hm c hc).elim fun d hd => dig hd
    cases hp with
    | dec => exact absurd rfl hb
    | hex hx =>
      refine ⟨⟨48, _, rfl, Or.inl (by omega)⟩, scan ?_⟩
      intro c hc
      simp only [List.cons_append, List.nil_append, List.mem_cons] at hc
      rcases hc with rfl | rfl | hc
      · decide
      · rcases hx with rfl | rfl <;> decide
      · exact hu c hc
    | bin hx =>
      refine ⟨⟨48, _, rfl, Or.inl (by omega)⟩, scan ?_⟩
      intro c hc
      simp only [List.cons_append, List.nil_append, List.mem_cons] at hc
      rcases hc with rfl | rfl | hc
      · decide
      · rcases hx with rfl | rfl <;> decide
      · exact hu c hc

/-- Capital letters make no difference. -/
theorem intAbs_lower {t : List Nat} {v : Int} (h : IntAbs t v) : IntAbs (t.map lowerChar) v := by
  have dg : ∀ {base : Nat} {t : List Nat} {n : Nat}, Digits base t n → Digits base (t.map lowerChar) n := by
    intro base t n h
    induction h with
    | nil => exact .nil
    | snoc h hd ih =>
      rw [List.map_append]
      refine .snoc ih ?_
      unfold lowerChar
      obtain ⟨h1, h2⟩ := hd
      refine ⟨h1, ?_⟩
      split <;> omega
  cases h with
  | dec hne h hn => exact .dec (by simpa using hne) (dg h) hn
  | other hp hb hne h hv =>
    rw [List.map_append]
    refine .other ?_ hb (by simpa using hne) (dg h) hv
    cases hp with
    | dec => exact .dec
    | hex hx => rcases hx with rfl | rfl <;> exact .hex (Or.inl rfl)
    | bin hx => rcases hx with rfl | rfl <;> exact .bin (Or.inl rfl)

theorem lower_noCaps (t : List Nat) : ∀ c ∈ t.map lowerChar, ¬ (65 ≤ c ∧ c ≤ 90) := by
  intro c hc
  obtain ⟨x, _, rfl⟩ := List.mem_map.mp hc
  unfold lowerChar; split <;> omega

/-! ### C90 -/

/-- The values as the code has them. -/
def ofValue : Value → Given
  | .nil => .val .nil
  | .bool b => .val (.bool b)
  | .fix n => .val (.fix n)
  | .int i => .val (.int i)
  | .str s => .val (.str s)

theorem parseLuanum_pos {t : List Nat} {v : Int} (h : IntAbs t v) : parseLuanum t = some (.val (.int v)) := by
  have hl := intAbs_lower h
  have hd := (C19_parse_denotes _ (lower_noCaps t) v).2 (.pos hl)
  have hs := intAbs_sign hl
  have e : luaDenotes (t.map lowerChar) = parseLuaAbs (t.map lowerChar) := by
    unfold luaDenotes
    split
    · rename_i heq; exact absurd rfl (hs 45 (by rw [heq]; rfl)).1
    · rename_i heq; exact absurd rfl (hs 126 (by rw [heq]; rfl)).2
    · rfl
  have hn : ((t.map lowerChar).head? == some 45) = false := by
    cases hh : (t.map lowerChar).head? with
    | none => rfl
    | some c => simpa using (hs c hh).1
  rw [e] at hd
  unfold parseLuanum
  simp only [hn, Bool.false_eq_true, if_false, hd, LV.mkInt]
  rw [toLuaInt_id (intAbs_range h).1 (intAbs_range h).2]

theorem parseLuanum_neg {t : List Nat} {u v : Int} (h : IntAbs t u) (hv : Wraps (-u) v) : parseLuanum (45 :: t) = some (.val (.int v)) := by
  have hl := intAbs_lower h
  have hd : luaDenotes (45 :: t.map lowerChar) = .int v :=
    (C19_parse_denotes (45 :: t.map lowerChar) (by
      intro c hc
      rcases List.mem_cons.mp hc with rfl | hc
      · omega
      · exact lower_noCaps t c hc) v).2 (.neg hl hv)
  have hp := (C19_parse_denotes _ (lower_noCaps t) u).2 (.pos hl)
  have hs := intAbs_sign hl
  have e : luaDenotes (t.map lowerChar) = parseLuaAbs (t.map lowerChar) := by
    unfold luaDenotes
    split
    · rename_i heq; exact absurd rfl (hs 45 (by rw [heq]; rfl)).1
    · rename_i heq; exact absurd rfl (hs 126 (by rw [heq]; rfl)).2
    · rfl
  rw [e] at hp
  simp only [luaDenotes, hp, LuaLit.int.injEq] at hd
  unfold parseLuanum
  simp only [List.map_cons, show lowerChar 45 = 45 from rfl, List.head?_cons, beq_self_eq_true, if_true, List.drop_succ_cons, List.drop_zero, hp, LV.mkInt, hd]

theorem written_ascii {p8 : Bool} {t : List Nat} {v : Value} (h : Written p8 t v) : ∀ c ∈ t, c < 0x80 := by
  have dg : ∀ {base c d : Nat}, IsDigit base c d → c < 0x80 := fun h => by obtain ⟨_, h⟩ := h; omega
  have fx : ∀ {t : List Nat} {v : Nat}, FixAbs t v → ∀ c ∈ t, c < 0x80 := by
    intro t v h
    obtain ⟨p, base, u, hp, rfl, hu⟩ := fixAbs_chars h
    intro c hc
    rcases List.mem_append.mp hc with hc | hc
    · cases hp <;> simp at hc <;> omega
    · rcases hu c hc with rfl | ⟨d, hd⟩
      · omega
      · exact dg hd
  have it : ∀ {t : List Nat} {v : Int}, IntAbs t v → ∀ c ∈ t, c < 0x80 := by
    intro t v h
    cases h with
    | dec hne h hn => exact fun c hc => (digits_mem h c hc).elim fun d hd => dg hd
    | other hp hb hne h hv =>
      intro c hc
      rcases List.mem_append.mp hc with hc | hc
      · cases hp <;> simp at hc <;> omega
      · exact (digits_mem h c hc).elim fun d hd => dg hd
  have bl : ∀ {w : List Nat}, Blank w → ∀ c ∈ w, c < 0x80 := fun h c hc => by have := h c hc; omega
  have sg : ∀ {a : Nat} {w t : List Nat}, a < 0x80 → Blank w → (∀ c ∈ t, c < 0x80) → ∀ c ∈ a :: (w ++ t), c < 0x80 := by
    intro a w t ha hw ht c hc
    rcases List.mem_cons.mp hc with rfl | hc
    · exact ha
    · rcases List.mem_append.mp hc with hc | hc
      · exact bl hw c hc
      · exact ht c hc
  cases h with
  | nil => decide
  | yes => decide
  | no => decide
  | fix hp ht h => exact fx h
  | negFix hp hw ht h hv e => exact sg (by omega) hw (fx h)
  | notFix hp hw ht h e => exact sg (by omega) hw (fx h)
  | int hp h => exact it h
  | negInt hp hw h hv => exact sg (by omega) hw (it h)

/-- **C90.** A constant that is written as in Lua, maybe between white space, is accepted and has the value that it has in Lua. -/
theorem C90_read {p8 : Bool} {t w1 w2 : List Nat} {v : Value} (h : Written p8 t v) (h1 : Blank w1) (h2 : Blank w2) :
    parseConstant p8 false (w1 ++ t ++ w2) = some (ofValue v) := by
  have ha : ∀ c ∈ w1 ++ t ++ w2, c < 0x80 := by
    intro c hc
    rcases List.mem_append.mp hc with hc | hc
    · rcases List.mem_append.mp hc with hc | hc
      · have := h1 c hc; omega
      · exact written_ascii h c hc
    · have := h2 c hc; omega
  have hs : toLangstr p8 (w1 ++ t ++ w2) = some (w1 ++ t ++ w2) := by
    unfold toLangstr
    split
    · exact C16_ascii_unchanged ha
    · rfl
  have key : ∀ {ts : List Tk} {tk : Tk}, lexAll p8 (w1 ++ t ++ w2) = some ts → takeToken ts = some tk →
      parseConstant p8 false (w1 ++ t ++ w2) = constOf p8 tk := by
    intro ts tk e1 e2
    simp only [parseConstant, hs, Option.bind_some, Bool.false_eq_true, if_false, e1, e2]
  cases h with
  | nil => rw [key (lex_one (k := .keyword) (by cases p8 <;> decide) h1 h2) rfl]; rfl
  | yes => rw [key (lex_one (k := .keyword) (by cases p8 <;> decide) h1 h2) rfl]; rfl
  | no => rw [key (lex_one (k := .keyword) (by cases p8 <;> decide) h1 h2) rfl]; rfl
  | fix hp ht h =>
    subst hp
    rw [key (lex_one (numeral_lex ht (numLen_fix h)) h1 h2) rfl]
    simp only [constOf, if_true, (C18_parse_denotes _ _).2 (.pos h), Option.map_some, ofValue]
  | negFix hp hw ht h hv e =>
    subst hp
    rw [key (lex_signed (Or.inl rfl) (numeral_lex ht (numLen_fix h)) (numeral_head ht) hw h1 h2) (by simp [takeToken]; rfl)]
    simp only [constOf, if_true, (C18_parse_denotes _ _).2 (.neg h hv e), Option.map_some, ofValue]
  | notFix hp hw ht h e =>
    subst hp
    rw [key (lex_signed (Or.inr rfl) (numeral_lex ht (numLen_fix h)) (numeral_head ht) hw h1 h2) (by simp [takeToken]; rfl)]
    simp only [constOf, if_true, (C18_parse_denotes _ _).2 (.bnot h e), Option.map_some, ofValue]
  | int hp h =>
    subst hp
    rw [key (lex_one (numeral_lex (intAbs_chars h).1 (intAbs_chars h).2) h1 h2) rfl]
    simp only [constOf, Bool.false_eq_true, if_false, parseLuanum_pos h, ofValue]
  | negInt hp hw h hv =>
    subst hp
    rw [key (lex_signed (Or.inl rfl) (numeral_lex (intAbs_chars h).1 (intAbs_chars h).2) (numeral_head (intAbs_chars h).1) hw h1 h2) (by simp [takeToken]; rfl)]
    simp only [constOf, Bool.false_eq_true, if_false, parseLuanum_neg h hv, ofValue]

theorem not_blank {c : Nat} (h : ¬ Blank [c]) : isWspace c = false := by
  cases hw : isWspace c with
  | false => rfl
  | true =>
    refine absurd ?_ h
    intro x hx
    simp only [List.mem_singleton] at hx
    subst hx
    rcases isWspace_cases hw with h | h | h | h <;> simp [h]

theorem closed_scan {q : Nat} (hq : q = 34 ∨ q = 39) {body : List Nat} (h : Closed q body) (r : List Nat) : scanString q (body ++ q :: r) = some r := by
  induction h with
  | nil =>
    rw [List.nil_append, scanString.eq_def]
    rcases hq with rfl | rfl <;> simp
  | char h1 h2 h3 h ih =>
    rw [List.cons_append, scanString.eq_def]
    simp only [h1, h2, h3, if_false, ih]
  | escape h1 h ih =>
    rw [List.cons_append, List.cons_append, scanString.eq_def]
    simp only [show ¬ (92 : Nat) = 10 by decide, if_false, if_true, h1, ih]
  | @skip w s hw hs h ih =>
    have hd : (w ++ s ++ q :: r).dropWhile isWspace = s ++ q :: r := by
      have : ∀ x : List Nat, (∀ c, x.head? = some c → isWspace c = false) → (w ++ x).dropWhile isWspace = x := by
        intro x hx
        clear hs h ih
        induction w with
        | nil =>
          cases x with
          | nil => rfl
          | cons c x => rw [List.nil_append, List.dropWhile_cons_of_neg (by simp [hx c rfl])]
        | cons c w ih => rw [List.cons_append, List.dropWhile_cons_of_pos (blank_wspace hw c (by simp)), ih fun c hc => hw c (by simp [hc])]
      rw [List.append_assoc, this]
      intro c hc
      cases s with
      | nil => cases hc; rcases hq with rfl | rfl <;> decide
      | cons a s => exact not_blank (hs c (by simpa using hc))
    rw [List.cons_append, List.cons_append, scanString.eq_def]
    simp only [show ¬ (92 : Nat) = 10 by decide, if_false, if_true, hd, ih]

/-- **C90.** So is a string in quotes (that does not end with `\z`, see C17). -/
theorem C90_string {p8 : Bool} {q : Nat} (hq : q = 34 ∨ q = 39) {value body v w1 w2 : List Nat} (hc : Closed q body)
    (hd : StrSpec.Denotes p8 utf8Bytes body v) (hz : ¬ EndsInZ body) (h1 : Blank w1) (h2 : Blank w2)
    (ht : toLangstr p8 value = some (w1 ++ q :: (body ++ [q]) ++ w2)) : parseConstant p8 false value = some (ofValue (.str v)) := by
  have hb : parseBody p8 body = some v := (C17_parser_complete hd).resolve_right fun h => hz h.2
  have hcls : ∀ h, lexClass p8 q h = .str := by
    intro h
    rcases hq with rfl | rfl <;> cases p8 <;> simp [lexClass, isWspace, isDigit, isIdentChar]
  have hlex : lexStep p8 (q :: (body ++ [q])) = .tok .string (q :: (body ++ [q])) [] := by
    rw [lexStep, hcls]
    simp only [closed_scan hq hc [], cutTok, List.length_nil, Nat.sub_zero, List.take_length, List.drop_length]
  simp only [parseConstant, ht, Option.bind_some, Bool.false_eq_true, if_false, lex_one hlex h1 h2, takeToken, constOf]
  have : parseLiteral p8 (q :: (body ++ [q])) = parseBody p8 body := by
    unfold parseLiteral
    split
    · rename_i heq; cases heq; omega
    · rename_i heq; simp
  rw [this, hb]
  rfl

/-- **C90.** With `--str-const`, the value is the string as it is given. -/
theorem C90_text (p8 : Bool) (value : List Nat) : parseConstant p8 true value = (toLangstr p8 value).map fun s => ofValue (.str s) := by
  unfold parseConstant
  cases toLangstr p8 value <;> rfl

/-- **C90.** For PICO-8, every character is given as the text that shows it; for Picotron, the text is taken as it is. -/
theorem C90_characters : (∀ d : List Nat, (∀ c ∈ d, c < 256) → parseConstant true true (fromP8str false d) = some (ofValue (.str d))) ∧
    ∀ value, parseConstant false true value = some (ofValue (.str value)) := by
  refine ⟨fun d hd => ?_, fun value => by rw [C90_text]; rfl⟩
  rw [C90_text]
  unfold toLangstr
  rw [if_pos rfl, C16_roundtrip hd false]
  rfl

example : parseConstant true true [0x2B05, 0xFE0F] = some (ofValue (.str [139])) := by decide +kernel

/-- What a list of tokens is worth as a constant. -/
inductive Means (p8 : Bool) : List Tk → Given → Prop
  | word {k : TokKind} {t : List Nat} {v : Value} (hk : k ≠ .number ∧ k ≠ .string)
      (h : t = word "nil" ∧ v = .nil ∨ t = word "true" ∧ v = .bool true ∨ t = word "false" ∧ v = .bool false) : Means p8 [(k, t)] (ofValue v)
  | fix {t : List Nat} {v : Nat} (hp : p8 = true) (h : Fix t v) : Means p8 [(.number, t)] (ofValue (.fix v))
  | signFix {k : TokKind} {a : Nat} {t : List Nat} {v : Nat} (hp : p8 = true) (ha : a = 45 ∨ a = 126) (h : Fix (a :: t) v) :
      Means p8 [(k, [a]), (.number, t)] (ofValue (.fix v))
  | int {t : List Nat} {v : Int} (hp : p8 = false) (h : LuaInt (t.map lowerChar) v) : Means p8 [(.number, t)] (ofValue (.int v))
  | negInt {k : TokKind} {t : List Nat} {v : Int} (hp : p8 = false) (h : LuaInt (45 :: t.map lowerChar) v) : Means p8 [(k, [45]), (.number, t)] (ofValue (.int v))
  | float {t : List Nat} (hp : p8 = false) : Means p8 [(.number, t)] (.float t)
  | negFloat {k : TokKind} {t : List Nat} (hp : p8 = false) : Means p8 [(k, [45]), (.number, t)] (.float (45 :: t))
  | str {t v : List Nat} (h : parseLiteral p8 t = some v) : Means p8 [(.string, t)] (ofValue (.str v))

theorem abs_not {r : List Nat} {v : Int} : parseLuaAbs (126 :: r) ≠ .int v := by
  unfold parseLuaAbs
  rw [if_neg (by simp), if_neg (by simp)]
  split
  · simp
  · rw [if_neg (by simp [isBaseDigit, hexVal])]
    simp

theorem parseLuanum_sound {s : List Nat} {g : Given} (h : parseLuanum s = some g) :
    s.head? ≠ some 126 ∧ (g = .float s ∨ ∃ v, g = .val (.int v) ∧ LuaInt (s.map lowerChar) v) := by
  have h126 : s.head? ≠ some 126 := by
    intro hs
    cases s with
    | nil => cases hs
    | cons c s =>
      simp only [List.head?_cons, Option.some.injEq] at hs
      subst hs
      simp only [parseLuanum, List.map_cons, show lowerChar 126 = 126 from rfl, List.head?_cons, show ((some 126 : Option Nat) == some 45) = false from rfl,
        Bool.false_eq_true, if_false, beq_self_eq_true, if_true] at h
      split at h
      · rename_i v hv
        exact abs_not hv
      · cases h
      · cases h
  refine ⟨h126, ?_⟩
  have h126' : (s.map lowerChar).head? ≠ some 126 := by
    intro hs
    cases s with
    | nil => cases hs
    | cons c s =>
      have h1 : lowerChar c = 126 := by simpa using hs
      have h2 : c ≠ 126 := by simpa using h126
      unfold lowerChar at h1
      split at h1 <;> omega
  have hcaps := lower_noCaps s
  unfold parseLuanum at h
  simp only at h
  generalize s.map lowerChar = t at h h126' hcaps ⊢
  split at h
  · rename_i v hv
    right
    simp only [Option.some.injEq] at h
    subst h
    refine ⟨_, rfl, ?_⟩
    rw [← C19_parse_denotes _ hcaps]
    cases t with
    | nil => simp [parseLuaAbs] at hv
    | cons c t =>
      by_cases hc : c = 45
      · subst hc
        simp only [List.head?_cons, beq_self_eq_true, if_true, List.drop_succ_cons, List.drop_zero] at hv ⊢
        simp only [luaDenotes, hv]
      · have e : ((c :: t).head? == some 45) = false := by simpa using hc
        simp only [e, Bool.false_eq_true, if_false] at hv ⊢
        have e2 : luaDenotes (c :: t) = parseLuaAbs (c :: t) := by
          unfold luaDenotes
          split
          · rename_i heq; cases heq; exact absurd rfl hc
          · rename_i heq; cases heq; exact absurd rfl h126'
          · rfl
        rw [e2, hv]
        have h3 := (C19_parse_denotes _ hcaps v).1 (e2.trans hv)
        congr 1
        cases h3 with
        | pos h => exact (toLuaInt_id (intAbs_range h).1 (intAbs_range h).2).symm
        | neg h hw => exact absurd rfl hc
        | bnot h => exact absurd rfl h126'
  · split at h
    · cases h
    · left; cases h; rfl
  · cases h

/-- **C90.** Nothing else is accepted: the text must be a single constant, or a sign and a number. -/
theorem C90_sound {p8 : Bool} {value : List Nat} {g : Given} (h : parseConstant p8 false value = some g) :
    ∃ s ts, toLangstr p8 value = some s ∧ lexAll p8 s = some ts ∧ Means p8 ts g := by
  unfold parseConstant at h
  cases hs : toLangstr p8 value with
  | none => rw [hs] at h; cases h
  | some s =>
  simp only [hs, Option.bind_some, Bool.false_eq_true, if_false] at h
  cases hts : lexAll p8 s with
  | none => rw [hts] at h; cases h
  | some ts =>
  rw [hts, Option.bind_some] at h
  refine ⟨s, ts, rfl, hts, ?_⟩
  match ts, h with
  | [(k, t)], h =>
    simp only [takeToken, Option.bind_some] at h
    have other : k ≠ .number ∧ k ≠ .string → Means p8 [(k, t)] g := by
      intro hk
      have h' : (if t = [110, 105, 108] then some (.val .nil) else if t = [116, 114, 117, 101] then some (.val (.bool true))
          else if t = [102, 97, 108, 115, 101] then some (Given.val (.bool false)) else none) = some g := by
        cases k <;> first | exact absurd rfl hk.1 | exact absurd rfl hk.2 | exact h
      split at h'
      · rename_i e; cases h'; exact .word (v := .nil) hk (Or.inl ⟨e, rfl⟩)
      · split at h'
        · rename_i e; cases h'; exact .word (v := .bool true) hk (Or.inr (Or.inl ⟨e, rfl⟩))
        · split at h'
          · rename_i e; cases h'; exact .word (v := .bool false) hk (Or.inr (Or.inr ⟨e, rfl⟩))
          · cases h'
    cases k with
    | number =>
      simp only [constOf] at h
      cases p8 with
      | true =>
        simp only [if_true, Option.map_eq_some_iff] at h
        obtain ⟨v, hv, rfl⟩ := h
        exact .fix rfl ((C18_parse_denotes _ _).1 hv)
      | false =>
        simp only [Bool.false_eq_true, if_false] at h
        rcases (parseLuanum_sound h).2 with rfl | ⟨v, rfl, hv⟩
        · exact .float rfl
        · exact .int rfl hv
    | string =>
      simp only [constOf, Option.map_eq_some_iff] at h
      obtain ⟨v, hv, rfl⟩ := h
      exact .str hv
    | ident => exact other (by simp)
    | keyword => exact other (by simp)
    | punct => exact other (by simp)
  | [(k, a), (k', t)], h =>
    simp only [takeToken] at h
    split at h
    · rename_i hc
      obtain ⟨ha, rfl⟩ := hc
      simp only [Option.bind_some, constOf] at h
      obtain ⟨x, hx, rfl⟩ : ∃ x, (x = 45 ∨ x = 126) ∧ a = [x] := by
        rcases ha with rfl | rfl
        · exact ⟨45, Or.inl rfl, rfl⟩
        · exact ⟨126, Or.inr rfl, rfl⟩
      cases p8 with
      | true =>
        simp only [if_true, Option.map_eq_some_iff] at h
        obtain ⟨v, hv, rfl⟩ := h
        exact .signFix rfl hx ((C18_parse_denotes _ _).1 hv)
      | false =>
        simp only [Bool.false_eq_true, if_false] at h
        obtain ⟨h1, h2⟩ := parseLuanum_sound h
        have hx : x = 45 := hx.resolve_right fun e => h1 (by rw [e]; rfl)
        subst hx
        rcases h2 with rfl | ⟨v, rfl, hv⟩
        · exact .negFloat rfl
        · exact .negInt rfl hv
    · cases h
  | [], h => cases h
  | _ :: _ :: _ :: _, h => cases h

theorem fixAbs_numeral {t : List Nat} {v : Nat} (h : FixAbs t v) (hv : v ≠ 0) : Numeral t := by
  have zero : ∀ {base : Nat} {m : Nat}, Digits base [] m → m = 0 := by
    intro base m h
    generalize e : ([] : List Nat) = l at h
    cases h with
    | nil => rfl
    | snoc h hd => simp at e
  have dig : ∀ {u : List Nat} {m : Nat}, Digits 10 u m → u = [] ∨ ∃ c r, u = c :: r ∧ 48 ≤ c ∧ c ≤ 57 := by
    intro u m h
    cases u with
    | nil => exact Or.inl rfl
    | cons c r =>
      obtain ⟨d, h1, h2⟩ := digits_mem h c (by simp)
      exact Or.inr ⟨c, r, rfl, by omega⟩
  cases h with
  | int hp h e =>
    cases hp with
    | dec =>
      rcases dig h with rfl | ⟨c, r, rfl, hc⟩
      · rw [zero h] at e; exact absurd e hv
      · exact ⟨c, r, rfl, Or.inl hc⟩
    | hex hx => exact ⟨48, _, rfl, Or.inl (by omega)⟩
    | bin hx => exact ⟨48, _, rfl, Or.inl (by omega)⟩
  | frac hp h1 h2 hw hw' e =>
    cases hp with
    | dec =>
      rcases dig h1 with rfl | ⟨c, r, rfl, hc⟩
      · rcases dig h2 with rfl | ⟨c, r, rfl, hc⟩
        · rw [zero h1, zero h2] at hw
          simp only [List.length_nil, Nat.pow_zero] at hw
          exfalso; omega
        · exact ⟨46, _, rfl, Or.inr ⟨rfl, c, r, by simp, hc⟩⟩
      · exact ⟨c, _, rfl, Or.inl hc⟩
    | hex hx => exact ⟨48, _, rfl, Or.inl (by omega)⟩
    | bin hx => exact ⟨48, _, rfl, Or.inl (by omega)⟩

/-- **C90.** Every PICO-8 number, as the tool writes it (C18), can be given as a constant. -/
theorem C90_number {base : Option Nat} (hb : BaseOk base) {v : Nat} (hv : v < 2 ^ 32) (sign : SignOpt) :
    ∃ t, formatFixnum base v sign = some t ∧ parseConstant true false t = some (ofValue (.fix v)) := by
  obtain ⟨t, ht, hf⟩ := C18_denotes hb hv sign
  refine ⟨t, ht, ?_⟩
  have bl : Blank [] := by simp [Blank]
  have fin : Written true t (.fix v) → parseConstant true false t = some (ofValue (.fix v)) := by
    intro h
    have := C90_read (w1 := []) (w2 := []) h bl bl
    simpa using this
  by_cases h0 : v = 0
  · subst h0
    have key : (formatFixnum base 0 sign).bind (parseConstant true false) = some (ofValue (.fix 0)) := by
      rcases hb with rfl | rfl | rfl <;> cases sign <;> decide +kernel
    rw [ht] at key
    exact key
  by_cases h1 : v = 2 ^ 32 - 1
  · subst h1
    have key : (formatFixnum base (2 ^ 32 - 1) sign).bind (parseConstant true false) = some (ofValue (.fix (2 ^ 32 - 1))) := by
      rcases hb with rfl | rfl | rfl <;> cases sign <;> decide +kernel
    rw [ht] at key
    exact key
  cases hf with
  | pos h => exact fin (.fix rfl (fixAbs_numeral h h0) h)
  | @neg t u _ h hw e => exact fin (.negFix (w := []) rfl bl (fixAbs_numeral h (by omega)) h hv e)
  | @bnot t u _ h e => exact fin (.notFix (w := []) rfl bl (fixAbs_numeral h (by omega)) h e)

/-- The text last given for a name. -/
def lastOf (name : List Nat) (l : List (List Nat × List Nat)) : Option (List Nat) := ((l.filter fun p => p.1 == name).getLast?).map (·.2)

theorem lastOf_cons (name : List Nat) (p : List Nat × List Nat) (l : List (List Nat × List Nat)) :
    lastOf name (p :: l) = ((lastOf name l).or (if p.1 = name then some p.2 else none)) := by
  unfold lastOf
  by_cases h : p.1 = name
  · rw [List.filter_cons_of_pos (by simpa using h), if_pos h, List.getLast?_cons]
    cases (l.filter fun p => p.1 == name).getLast? <;> rfl
  · rw [List.filter_cons_of_neg (by simpa using h), if_neg h]
    cases (l.filter fun p => p.1 == name).getLast? <;> rfl

theorem addAll_lookup {p8 b : Bool} : ∀ {l : List (List Nat × List Nat)} {m m' : Consts}, addAll p8 b m l = some m' → ∀ name,
    m'.lookup name = match lastOf name l with
      | some t => parseConstant p8 b t
      | none => m.lookup name
  | [], m, m', h, name => by cases h; rfl
  | (n, t) :: l, m, m', h, name => by
    rw [addAll] at h
    cases hv : parseConstant p8 b t with
    | none => rw [hv] at h; cases h
    | some v =>
      rw [hv, Option.bind_some] at h
      rw [addAll_lookup h name, lastOf_cons]
      cases lastOf name l with
      | some x => rfl
      | none =>
        simp only [Option.none_or]
        by_cases hn : n = name
        · subst hn; simp [hv]
        · rw [if_neg hn, List.lookup_cons, show (name == n) = false from by simpa using fun e => hn e.symm]

/-- **C90.** Of several values for a name, the last one of `--str-const` is taken, or else the last one of `--const`; names that are not given have none. -/
theorem C90_given {p8 : Bool} {consts strs : List (List Nat × List Nat)} {m : Consts} (h : given p8 consts strs = some m) (name : List Nat) :
    m.lookup name = match lastOf name strs with
      | some t => parseConstant p8 true t
      | none => (lastOf name consts).bind (parseConstant p8 false) := by
  unfold given at h
  cases h1 : addAll p8 false [] consts with
  | none => rw [h1] at h; cases h
  | some m1 =>
    rw [h1, Option.bind_some] at h
    rw [addAll_lookup h name, addAll_lookup h1 name]
    cases lastOf name strs <;> cases lastOf name consts <;> rfl

theorem addAll_fails {p8 b : Bool} : ∀ {l : List (List Nat × List Nat)} {m : Consts}, addAll p8 b m l = none ↔ ∃ p ∈ l, parseConstant p8 b p.2 = none
  | [], m => by simp [addAll]
  | (n, t) :: l, m => by
    rw [addAll]
    cases hv : parseConstant p8 b t with
    | none => simp [hv]
    | some v => rw [Option.bind_some, addAll_fails]; simp [hv]

/-- **C90.** There is an error exactly if one of the constants cannot be read. -/
theorem C90_fails {p8 : Bool} {consts strs : List (List Nat × List Nat)} :
    given p8 consts strs = none ↔ (∃ p ∈ consts, parseConstant p8 false p.2 = none) ∨ ∃ p ∈ strs, parseConstant p8 true p.2 = none := by
  unfold given
  cases h : addAll p8 false [] consts with
  | none => simp only [Option.bind_none, true_iff]; exact Or.inl (addAll_fails.1 h)
  | some m =>
    rw [Option.bind_some, addAll_fails]
    constructor
    · exact Or.inr
    · rintro (h' | h')
      · rw [addAll_fails.2 h'] at h; cases h
      · exact h'

/-- Picotron constants cannot be complements: `~5` is refused, although it is a constant in Lua (the one with the value -6). -/
theorem C90_bnot_counterexample : LuaInt (word "~5") (-6) ∧ parseConstant false false (word "~5") = none ∧
    parseConstant true false (word "~5") = some (ofValue (.fix (2 ^ 32 - 1 - 5 * 65536))) := by
  refine ⟨?_, by decide +kernel, by decide +kernel⟩
  exact .bnot (t := [53]) (v := 5) (.dec (n := 5) (by simp) (.snoc (t := []) (n := 0) (d := 5) .nil (by simp [IsDigit])) (by decide))

/-! Cases meeting the hypotheses: `  - 0x1.8`, `'a\'b'`, `1 2`, an empty text, a name, and a name given twice. -/
example : parseConstant true false (word "  - 0x1.8") = some (ofValue (.fix (2 ^ 32 - 0x18000))) := by decide +kernel
example : parseConstant false false (word "-0XfF ") = some (ofValue (.int (-255))) := by decide +kernel
example : Written true (word "1.5") (.fix 0x18000) :=
  .fix rfl ⟨49, [46, 53], rfl, by omega⟩ (.frac (p := []) (t := [49]) (u := [53]) (n := 1) (m := 5) (w := 0x18000) .dec
    (.snoc (t := []) (n := 0) (d := 1) .nil (by simp [IsDigit])) (.snoc (t := []) (n := 0) (d := 5) .nil (by simp [IsDigit])) (by decide) (by decide) (by decide))
example : Closed 39 (word "a\\'b") := .char (by decide) (by decide) (by decide) (.escape (by decide) (.char (by decide) (by decide) (by decide) .nil))
example : parseConstant true false (word "'a\\'b'") = some (ofValue (.str (word "a'b"))) := by decide +kernel
example : parseConstant true false (word "1 2") = none ∧ parseConstant true false [] = none ∧ parseConstant true false (word "x") = none := by decide +kernel
example : (given true [(word "a", word "1"), (word "a", word "true")] [(word "b", word "1")]).map (fun m => (m.lookup (word "a"), m.lookup (word "b"))) =
    some (some (ofValue (.bool true)), some (ofValue (.str (word "1")))) := by decide +kernel

end Verif.GivenConst
