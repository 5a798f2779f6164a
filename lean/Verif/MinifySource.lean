import Verif.MinifyTokens
import Verif.MinifyText
/-
The tokens that minified PICO-8 programs are made of stand on their own.
-/
namespace Verif.Mini
open Syntax LuaNorm
open Paren (Op Lang)

/-! ### Numbers -/

theorem digit_num {b c : Nat} (hb : b = 2 ∨ b = 10 ∨ b = 16) (h : isBaseDigit b c = true) : numDigit b c = true := by
  have hd := (isBaseDigit_iff ..).1 h
  obtain ⟨d, hd, h'⟩ := hd
  clear h
  have hc : (48 ≤ c ∧ c ≤ 57 ∧ d = c - 48) ∨ (97 ≤ c ∧ c ≤ 102 ∧ d = c - 87) ∨ (65 ≤ c ∧ c ≤ 70 ∧ d = c - 55) := by
    unfold hexVal at h'
    split at h'
    · cases h'; omega
    · split at h'
      · cases h'; omega
      · split at h'
        · cases h'; omega
        · cases h'
  rcases hb with rfl | rfl | rfl <;> simp [numDigit, isDigit] <;> omega

theorem abs_digits {b : Nat} (hb : b = 2 ∨ b = 10 ∨ b = 16) {s : List Nat}
    (h : s.dropWhile (isBaseDigit b) = [] ∨ ∃ r, s.dropWhile (isBaseDigit b) = 46 :: r ∧ r.dropWhile (isBaseDigit b) = []) :
    ∀ c ∈ s, numDigit b c = true := by
  have key : ∀ {s : List Nat}, s.dropWhile (isBaseDigit b) = [] → ∀ c ∈ s, isBaseDigit b c = true := by
    intro s hs c hc
    have := List.takeWhile_append_dropWhile (p := isBaseDigit b) (l := s)
    rw [hs, List.append_nil] at this
    rw [← this] at hc
    exact lex_mem_takeWhile hc
  intro c hc
  rcases h with h | ⟨r, h, hr⟩
  · exact digit_num hb (key h c hc)
  · rw [← List.takeWhile_append_dropWhile (p := isBaseDigit b) (l := s), h] at hc
    rcases List.mem_append.1 hc with hc | hc
    · exact digit_num hb (lex_mem_takeWhile hc)
    · rcases List.mem_cons.1 hc with rfl | hc
      · simp [numDigit]
      · exact digit_num hb (key hr c hc)

theorem takeWhile_eq {p : Nat → Bool} : ∀ {s : List Nat}, (∀ c ∈ s, p c = true) → s.takeWhile p = s
  | [], _ => rfl
  | c :: s, h => by rw [List.takeWhile_cons, if_pos (h c (by simp)), takeWhile_eq fun x hx => h x (by simp [hx])]

/-- A numeral that can be parsed is one token, but for the empty one and the point. -/
theorem num_alone {t : List Nat} {v : Nat} (h : parseFixAbs t = some v) (h0 : t ≠ []) (h1 : t ≠ [46]) : Alone true (.number, t) := by
  have parts : ∀ {b : Nat} {s : List Nat} {v : Nat},
      (match s.dropWhile (isBaseDigit b) with
        | [] => some (digitsVal b (s.takeWhile (isBaseDigit b)) * 65536 % 2 ^ 32)
        | c :: r =>
          if c = 46 ∧ r.dropWhile (isBaseDigit b) = [] then
            some ((digitsVal b (s.takeWhile (isBaseDigit b)) * b ^ (r.takeWhile (isBaseDigit b)).length + digitsVal b (r.takeWhile (isBaseDigit b))) * 65536 /
              b ^ (r.takeWhile (isBaseDigit b)).length % 2 ^ 32)
          else none) = some v →
      s.dropWhile (isBaseDigit b) = [] ∨ ∃ r, s.dropWhile (isBaseDigit b) = 46 :: r ∧ r.dropWhile (isBaseDigit b) = [] := by
    intro b s v h
    split at h
    · left; assumption
    · next c r hd =>
      split at h
      · next hc => right; exact ⟨r, by rw [hd, hc.1], hc.2⟩
      · cases h
  have first : ∀ {c : Nat} {r : List Nat}, t = c :: r → (isDigit c = true ∨ c = 46 ∧ headDigit r.head? = true) → numLen true t = t.length → Alone true (.number, t) := by
    intro c r ht hc hl
    have hcls : lexClass true c r.head? = .num := by
      have hw : isWspace c = false := by
        rcases hc with hc | ⟨rfl, -⟩
        · cases hw : isWspace c with
          | false => rfl
          | true => rw [isDigit_wspace hw] at hc; cases hc
        · decide
      rcases hc with hc | ⟨rfl, hc⟩ <;> simp [lexClass, hw, hc]
    subst ht
    simp only [Alone, lexStep, hcls, cutTok, hl, List.take_length, List.drop_length]
  unfold parseFixAbs at h
  by_cases hx : t.take 2 = [48, 120]
  · rw [if_pos hx] at h
    have ht : t = 48 :: 120 :: t.drop 2 := by exact (List.take_append_drop 2 t).symm.trans (by rw [hx]; rfl)
    have := abs_digits (b := 16) (by simp) (parts h)
    refine first ht (.inl (by decide)) ?_
    rw [ht]
    simp [numLen, headIn, takeWhile_eq this]
    omega
  · rw [if_neg hx] at h
    by_cases hy : t.take 2 = [48, 98]
    · rw [if_pos hy] at h
      have ht : t = 48 :: 98 :: t.drop 2 := by exact (List.take_append_drop 2 t).symm.trans (by rw [hy]; rfl)
      have := abs_digits (b := 2) (by simp) (parts h)
      refine first ht (.inl (by decide)) ?_
      rw [ht]
      simp [numLen, headIn, takeWhile_eq this]
      omega
    · rw [if_neg hy] at h
      have hd := abs_digits (b := 10) (by simp) (parts h)
      cases t with
      | nil => exact absurd rfl h0
      | cons c r =>
        refine first rfl ?_ ?_
        · by_cases hc : isBaseDigit 10 c = true
          · left; rw [isBaseDigit_ten] at hc; simp [isDigit, hc]
          · rcases parts h with h | ⟨r', h, hr⟩
            · rw [List.dropWhile_cons, if_neg hc] at h; cases h
            · rw [List.dropWhile_cons, if_neg hc] at h
              cases h
              refine .inr ⟨rfl, ?_⟩
              cases r with
              | nil => exact absurd rfl h1
              | cons d r =>
                by_cases hd : isBaseDigit 10 d = true
                · rw [isBaseDigit_ten] at hd; simp [headDigit, isDigit, hd]
                · rw [List.dropWhile_cons, if_neg hd] at hr; cases hr
        · have hh : ∀ cs : List Nat, (∀ x ∈ cs, numDigit 10 x = false) → headIn r.head? cs = false := by
            intro cs hcs
            cases r with
            | nil => rfl
            | cons d r =>
              have := hd d (by simp)
              simp only [headIn, List.head?_cons]
              cases hx : cs.contains d with
              | false => rfl
              | true => rw [hcs d (by simpa using hx)] at this; cases this
          have e1 := hh [98, 66] (by decide)
          have e2 := hh [120, 88] (by decide)
          simp only [numLen, if_true, List.head?_cons, List.drop_succ_cons, List.drop_zero, e1, e2, Bool.and_false, Bool.false_eq_true, if_false]
          rw [takeWhile_eq hd]

theorem fixBody_ne {v : Nat} {t : List Nat} (hv : v < 2 ^ 32) (h : fixBody none v = some t) :
    (t ≠ [] ∧ t ≠ [46]) ∧ parseFixAbs t = some v ∧ ∀ c ∈ t, NumChar c := by
  obtain ⟨t', h1, h2, h3⟩ := fixBody_spec (base := none) (.inl rfl) hv
  cases h1.symm.trans h
  refine ⟨?_, h2, h3⟩
  have e0 : parseFixAbs [] = some 0 := by decide
  have e1 : parseFixAbs [46] = some 0 := by decide
  by_cases hz : v = 0
  · subst hz
    have : fixBody none 0 = some [48] := by decide +kernel
    cases this.symm.trans h
    decide
  · constructor
    · rintro rfl; cases e0.symm.trans h2; exact hz rfl
    · rintro rfl; cases e1.symm.trans h2; exact hz rfl

theorem body_alone {v : Nat} {t : List Nat} (hv : v < 2 ^ 32) (h : fixBody none v = some t) : Alone true (.number, t) ∧ ∀ c ∈ t, NumChar c := by
  have ⟨h1, h2, h3⟩ := fixBody_ne hv h
  exact ⟨num_alone h2 h1.1 h1.2, h3⟩

/-- Whatever `format_fixnum` gives is one token, perhaps after a sign. -/
theorem format_alone {v : Nat} (hv : v < 2 ^ 32) {u : Bool} {t : List Nat} (h : formatFixnum none v (if u then .auto else .plain) = some t) :
    ∃ n, (t = n ∨ t = 45 :: n ∨ t = 126 :: n) ∧ Alone true (.number, n) ∧ ∀ c ∈ n, NumChar c := by
  obtain ⟨m, hm, -⟩ := fixBody_spec (base := none) (.inl rfl) hv
  obtain ⟨n, hn, -⟩ := fixBody_spec (base := none) (.inl rfl) (v := (2 ^ 32 - v) % 2 ^ 32) (Nat.mod_lt _ (by decide))
  obtain ⟨b, hb, -⟩ := fixBody_spec (base := none) (.inl rfl) (v := 2 ^ 32 - 1 - v) (by omega)
  have am := body_alone hv hm
  have an := body_alone (Nat.mod_lt _ (by decide)) hn
  have ab := body_alone (by omega) hb
  have n1 : fixSigned none v .neg = some (45 :: n) := by unfold fixSigned; dsimp only; rw [hn, Option.map_some]
  have b1 : fixSigned none v .bnot = some (126 :: b) := by unfold fixSigned; dsimp only; rw [hb, Option.map_some]
  have : t = m ∨ t = 45 :: n ∨ t = 126 :: b := by
    cases u with
    | false =>
      rw [if_neg (by decide)] at h
      simp only [formatFixnum, fixSigned] at h
      exact .inl (Option.some.inj (h.symm.trans hm))
    | true =>
      rw [if_pos rfl] at h
      simp only [formatFixnum, hm, n1, b1] at h
      generalize e : (if (45 :: n).length < m.length then 45 :: n else m) = mn at h
      have hmn : mn = m ∨ mn = 45 :: n := by rw [← e]; split <;> simp
      split at h
      · split at h
        · cases h; simp
        · cases h; rcases hmn with h | h <;> simp [h]
      · cases h; simp
  rcases this with rfl | rfl | rfl
  · exact ⟨_, .inl rfl, am⟩
  · exact ⟨_, .inr (.inl rfl), an⟩
  · exact ⟨_, .inr (.inr rfl), ab⟩

/-! ### Tokens and what the parser takes them for -/

theorem lookup_mem' {l : List (Nm × K)} {s : Nm} {k : K} (h : l.lookup s = some k) : (s, k) ∈ l := by
  induction l with
  | nil => cases h
  | cons p l ih =>
    obtain ⟨a, b⟩ := p
    rw [List.lookup_cons] at h
    by_cases hs : s = a
    · subst hs; simp at h; simp [h]
    · rw [show (s == a) = false from by simpa using hs] at h
      exact List.mem_cons_of_mem _ (ih h)

theorem word_tk : ∀ p ∈ wordTable, tkOf p.2 = (.keyword, p.1) := by decide
theorem sign_tk : ∀ p ∈ signTable, tkOf p.2 = (.punct, p.1) := by decide

/-- The token of what it is taken for. -/
theorem tk_kOf {t : Tk} {k : K} (h : kOf t = some k) (hv : ∀ c ∈ t.2, Fits c) : tkOf k = t := by
  obtain ⟨kind, s⟩ := t
  cases kind with
  | ident => cases h; rfl
  | number => cases h; simp only [tkOf, codes_text hv]
  | string => cases h; simp only [tkOf, codes_text hv]
  | keyword => exact word_tk _ (lookup_mem' h)
  | punct => exact sign_tk _ (lookup_mem' h)

/-- A token that stands on its own, and is taken for what it is. -/
def SureIn (p8 : Bool) (k : K) : Prop := Alone p8 (tkOf k) ∧ kOf (tkOf k) = some k

instance (p8 : Bool) (k : K) : Decidable (SureIn p8 k) := by unfold SureIn Alone; infer_instance

abbrev Sure := SureIn true

theorem sure_fixed {p8 : Bool} : ∀ k, Fixed k → SureIn p8 k := by
  intro k h
  cases p8 <;> cases k <;> first | exact h.elim | decide +kernel

theorem text_codes (s : String) : text (codes s) = s := by
  unfold text codes
  rw [List.map_map]
  conv => rhs; rw [← String.ofList_toList (s := s)]
  congr 1
  conv => rhs; rw [← List.map_id s.toList]
  refine List.map_congr_left fun c _ => ?_
  have : c.toNat.isValidChar := c.valid
  unfold Nat.isValidChar at this
  simp only [Function.comp, id]
  by_cases hc : c.toNat < 0xd800
  · rw [if_pos hc, if_pos hc, Char.ofNat_toNat]
  · rw [if_neg hc, if_neg (by omega), Nat.sub_add_cancel (by omega), Char.ofNat_toNat]

theorem sure_num {p8 : Bool} {n : List Nat} (h : Alone p8 (.number, n)) (hn : ∀ c ∈ n, Fits c) : SureIn p8 (.num (text n)) := by
  unfold SureIn
  simp only [tkOf, codes_text hn, kOf]
  exact ⟨h, trivial⟩

theorem num_fits {n : List Nat} (h : ∀ c ∈ n, NumChar c) : ∀ c ∈ n, Fits c := fun c hc => small_valid (numChar_lt (h c hc))

/-- The literal that is written for a string is not a long one that ends too early (`C54_counterexample`). -/
def StringIn (p8 : Bool) (isDig : Nat → Bool) (chars v40 : Bool) (s : String) : Prop :=
  ∀ v, parseLiteral p8 (codes s) = some v → codes (strOut p8 isDig chars v40 s) = formatLong v → ¬ (93 :: List.replicate (longEqs v) 61) <:+ v

abbrev StringOk := StringIn true

theorem sure_str {p8 : Bool} {isDig : Nat → Bool} (hd : AsciiDig isDig) {chars v40 : Bool} {s : String} (h : SureIn p8 (.str s)) (ho : StringIn p8 isDig chars v40 s) :
    SureIn p8 (.str (strOut p8 isDig chars v40 s)) := by
  refine ⟨?_, by simp only [tkOf, kOf, text_codes]⟩
  have key : ∀ {v : List Nat} {u x : Bool} {l : Option Bool}, parseLiteral p8 (codes s) = some v →
      codes (strOut p8 isDig chars v40 s) = formatLiteral isDig u x l none v → Alone p8 (.string, codes (strOut p8 isDig chars v40 s)) := by
    intro v u x l hp e
    have ho := ho v hp
    have quoted : codes (strOut p8 isDig chars v40 s) = formatQuoted isDig u none v → Alone p8 (.string, codes (strOut p8 isDig chars v40 s)) := by
      intro e'
      rw [e']
      exact lexAll_single (a := (.string, _)) (C30_quoted_string hd p8 u (quote := none) nofun v)
    have long : codes (strOut p8 isDig chars v40 s) = formatLong v → Alone p8 (.string, codes (strOut p8 isDig chars v40 s)) := by
      intro e'
      have := ho e'
      rw [e']
      exact lexAll_single (a := (.string, _)) (C30_long_string p8 v this)
    unfold formatLiteral at e
    split at e
    · split at e
      · exact long e
      · split at e
        · exact long e
        · exact quoted e
    · exact quoted e
  simp only [tkOf]
  cases hp : parseLiteral p8 (codes s) with
  | none =>
    have : strOut p8 isDig chars v40 s = s := by unfold strOut; rw [hp]
    rw [this]; exact h.1
  | some v =>
    have hv := literal_valid hp (codes_valid s)
    by_cases hc : chars = true
    · exact key hp (u := true) (x := v40) (l := none) (by unfold strOut; simp only [hp]; rw [if_pos hc, codes_text (format_valid hd hv)])
    · exact key hp (u := true) (x := true) (l := some ((codes s).head? == some 91))
        (by unfold strOut; simp only [hp]; rw [if_neg hc, codes_text (format_valid hd hv)])

/-- What is known of the tokens of the source. -/
def FromIn (p8 : Bool) (isDig : Nat → Bool) (chars v40 : Bool) (k : K) : Prop := SureIn p8 k ∧ ∀ s, k = .str s → StringIn p8 isDig chars v40 s

abbrev FromSource := FromIn true

theorem pico_step {isDig : Nat → Bool} (hd : AsciiDig isDig) (v37 v40 tokens chars : Bool) {th : K} :
    Step th (pico isDig v37 v40 tokens chars) (FromSource isDig chars v40) Sure where
  num := by
    intro u s sh h
    have hs := h.1
    show AllT Sure (prE th sh (picoNum u s).ex)
    unfold picoNum
    cases hp : parseFixnum (codes s) with
    | none => exact ⟨hs, trivial⟩
    | some v =>
      dsimp only
      cases hf : formatFixnum none v (if u then .auto else .plain) with
      | none => exact ⟨hs, trivial⟩
      | some t =>
        obtain ⟨n, ht, h1, h2⟩ := format_alone (parse_lt hp) hf
        dsimp only
        rcases ht with rfl | rfl | rfl
        · rw [numOut_plain h2]; exact ⟨sure_num h1 (num_fits h2), trivial⟩
        · exact ⟨by decide +kernel, sure_num h1 (num_fits h2), trivial⟩
        · exact ⟨by decide +kernel, sure_num h1 (num_fits h2), trivial⟩
  str := fun h => sure_str hd h.1 (h.2 _ rfl)
  op := by
    intro o h
    have hs := h.1
    unfold canonOp
    split
    · decide +kernel
    · split
      · decide +kernel
      · exact hs
    · exact hs
    · exact hs
  opeq := by
    intro o h
    have hs := h.1
    unfold canonEq
    split
    · exact hs
    · exact hs
  keep := fun _ h => h.1
  fixed := sure_fixed

end Verif.Mini
