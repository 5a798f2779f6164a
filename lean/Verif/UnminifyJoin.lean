import Verif.UnminifyLex
import Verif.Fine
/-
Which tokens `unminify_code` puts side by side, and why they are told apart.
-/
set_option linter.unusedVariables false
set_option linter.unusedSimpArgs false
namespace Verif.Unmin
open Syntax Mini
open LuaGrammar (unaryOps)
open Paren (Op Lang)

/-! ### Ends of expressions -/

/-- The first token of an expression. -/
def fk : Ex → K
  | .var x => .id x
  | .num s => .num s
  | .str s => .str s
  | .cst s => .cst s
  | .vararg => .dots
  | .func _ _ => .kFunction
  | .group _ => .lp
  | .un o _ => .op o
  | .bin _ l _ => fk l
  | .member b _ => fk b
  | .index b _ => fk b
  | .call b _ _ => fk b
  | .method b _ _ _ => fk b
  | .table _ => .lc

mutual
/-- The last token of an expression. -/
def lk : Ex → K
  | .var x => .id x
  | .num s => .num s
  | .str s => .str s
  | .cst s => .cst s
  | .vararg => .dots
  | .func _ _ => .kEnd
  | .group _ => .rp
  | .un _ e => lk e
  | .bin _ _ r => lk r
  | .member _ x => .id x
  | .index _ _ => .rb
  | .call _ false _ => .rp
  | .call _ true as => lks as
  | .method _ _ false _ => .rp
  | .method _ _ true as => lks as
  | .table _ => .rc
/-- The last token of a list. -/
def lks : Exs → K
  | .nil => .comma
  | .cons e .nil => lk e
  | .cons _ (.cons f es) => lks (.cons f es)
end

/-- The first token of a list. -/
def fks : Exs → K
  | .nil => .rp
  | .cons e _ => fk e

def startK : K → Bool
  | .id _ | .num _ | .str _ | .cst _ | .dots | .kFunction | .lp | .lc | .op _ => true
  | _ => false

def endK : K → Bool
  | .id _ | .num _ | .str _ | .cst _ | .dots | .kEnd | .rp | .rb | .rc => true
  | _ => false

theorem start_fk : ∀ e, startK (fk e) = true
  | .var _ | .num _ | .str _ | .cst _ | .vararg | .func _ _ | .group _ | .un _ _ | .table _ => rfl
  | .bin _ l _ => start_fk l
  | .member b _ => start_fk b
  | .index b _ => start_fk b
  | .call b _ _ => start_fk b
  | .method b _ _ _ => start_fk b

/-! ### Single joints -/

theorem jc_lp (c : Nat) : Jc .lp c := rfl
theorem jc_lc (c : Nat) : Jc .lc c := rfl
theorem jc_rp (c : Nat) : Jc .rp c := rfl
theorem jc_rb (c : Nat) : Jc .rb c := rfl
theorem jc_rc (c : Nat) : Jc .rc c := rfl
theorem jc_dots (c : Nat) : Jc .dots c := rfl
theorem jc_quest (c : Nat) : Jc .quest c := rfl
theorem jc_dcolon (c : Nat) : Jc .dcolon c := rfl
theorem jc_hash (c : Nat) : Jc (.op .hash) c := rfl
theorem jc_at (c : Nat) : Jc (.op .at_) c := rfl
theorem jc_dollar (c : Nat) : Jc (.op .dollar) c := rfl
theorem jc_lb {c : Nat} (h : c ≠ 91 ∧ c ≠ 61) : Jc .lb c := by
  have e : tkOf .lb = (.punct, [91]) := by decide +kernel
  simp [Jc, e, lexStep, lexClass, headIn, punctLen, cutTok, isWspace, isDigit, isIdentChar, h, show 91 ∈ punctChars from by decide +kernel]
theorem jc_dot {c : Nat} (h : c ≠ 46 ∧ isDigit c = false) : Jc .dot c := by
  have e : tkOf .dot = (.punct, [46]) := by decide +kernel
  simp [Jc, e, lexStep, lexClass, headIn, headDigit, punctLen, cutTok, isWspace, isIdentChar, h, show isDigit 46 = false from rfl, show 46 ∈ punctChars from by decide +kernel]
theorem jc_colon {c : Nat} (h : c ≠ 58) : Jc .colon c := by
  have e : tkOf .colon = (.punct, [58]) := by decide +kernel
  simp [Jc, e, lexStep, lexClass, headIn, headDigit, punctLen, cutTok, isWspace, isIdentChar, h, show isDigit 58 = false from rfl, show 58 ∈ punctChars from by decide +kernel]
theorem jc_minus {c : Nat} (h : c ≠ 45 ∧ c ≠ 61) : Jc (.op .minus) c := by
  have e : tkOf (.op .minus) = (.punct, [45]) := by decide +kernel
  simp [Jc, e, lexStep, lexClass, headIn, headDigit, punctLen, cutTok, isWspace, isIdentChar, h, show isDigit 45 = false from rfl, show 45 ∈ punctChars from by decide +kernel]
theorem jc_tilde {c : Nat} (h : c ≠ 61) : Jc (.op .tilde) c := by
  have e : tkOf (.op .tilde) = (.punct, [126]) := by decide +kernel
  simp [Jc, e, lexStep, lexClass, headIn, headDigit, punctLen, cutTok, isWspace, isIdentChar, h, show isDigit 126 = false from rfl, show 126 ∈ punctChars from by decide +kernel]
theorem jc_percent {c : Nat} (h : c ≠ 61) : Jc (.op .percent) c := by
  have e : tkOf (.op .percent) = (.punct, [37]) := by decide +kernel
  simp [Jc, e, lexStep, lexClass, headIn, headDigit, punctLen, cutTok, isWspace, isIdentChar, h, show isDigit 37 = false from rfl, show 37 ∈ punctChars from by decide +kernel]
theorem jc_word {k : K} {c : Nat} (h : Sure k) (hk : (tkOf k).1 = .ident ∨ (tkOf k).1 = .keyword) (hc : isIdentChar true c = false) : Jc k c :=
  word_before h.1 hk hc
theorem jc_num {s : String} {c : Nat} (h : Sure (.num s)) (hc : isIdentChar true c = false) (h46 : c ≠ 46) : Jc (.num s) c :=
  num_before h.1 hc h46
theorem jc_str {s : String} {c : Nat} (h : Sure (.str s)) : Jc (.str s) c := str_before h.1

theorem cst_kind {s : String} (h : Sure (.cst s)) : (tkOf (.cst s)).1 = .keyword := by
  have h1 := sure_ne h
  simp only [tkOf] at h1 ⊢
  split at h1
  · rfl
  · exfalso; apply h1; rfl

/-- After an expression anything may come, except for `.` after a number. -/
theorem ok_end {a k : K} (ha : endK a = true) (hs : Sure a) (hd : k = .dot → ∀ s, a ≠ .num s) : Ok (.tight a false) k := by
  by_cases hsp : spaced a false k = true
  · exact .inl hsp
  refine .inr fun c hc => ?_
  have hcs : isIdentChar true c = false ∧ (c = 46 → k = .dot) := by
    have hk : tightSuf k = true ∨ opens k = true := by
      have : tightPre a = false := by cases a <;> first | rfl | cases ha
      simp [spaced, this] at hsp
      cases h : tightSuf k
      · exact .inr (hsp h).1
      · exact .inl rfl
    cases k <;> (first | (exfalso; rcases hk with hk | hk <;> cases hk; done) | skip)
    all_goals
      revert hc
      simp only [show tkOf .lp = (.punct, [40]) from by decide +kernel, show tkOf .rp = (.punct, [41]) from by decide +kernel,
        show tkOf .lb = (.punct, [91]) from by decide +kernel, show tkOf .rb = (.punct, [93]) from by decide +kernel,
        show tkOf .rc = (.punct, [125]) from by decide +kernel, show tkOf .comma = (.punct, [44]) from by decide +kernel,
        show tkOf .semi = (.punct, [59]) from by decide +kernel, show tkOf .dot = (.punct, [46]) from by decide +kernel,
        show tkOf .colon = (.punct, [58]) from by decide +kernel, show tkOf .dcolon = (.punct, [58, 58]) from by decide +kernel,
        List.head?_cons, Option.some.injEq]
      rintro rfl
      exact ⟨by decide, by simp⟩
  cases a with
  | id x => exact jc_word hs (.inl rfl) hcs.1
  | cst s => exact jc_word hs (.inr (cst_kind hs)) hcs.1
  | kEnd => exact jc_word hs (.inr (by decide +kernel)) hcs.1
  | num s => exact jc_num hs hcs.1 fun h => hd (hcs.2 h) s rfl
  | str s => exact jc_str hs
  | dots => exact jc_dots c
  | rp => exact jc_rp c
  | rb => exact jc_rb c
  | rc => exact jc_rc c
  | _ => cases ha

/-- Tokens that a space goes after. -/
def sepK (a : K) : Bool := !tightPre a && !callee a

theorem ok_sep {a k : K} (ha : sepK a = true) (hk : startK k = true) : Ok (.tight a false) k := by
  simp only [sepK, Bool.and_eq_true, Bool.not_eq_true'] at ha
  refine .inl ?_
  have : tightSuf k = false := by cases k <;> first | rfl | cases hk
  simp [spaced, ha, this]

/-- Any expression may start here. -/
def Opn (s : Sta) : Prop := ∀ k, startK k = true → Ok s k

theorem opn_clear : Opn .clear := fun _ _ => trivial
theorem opn_sep {a : K} (ha : sepK a = true) : Opn (.tight a false) := fun _ hk => ok_sep ha hk
theorem ok_lp (k : K) : Ok (.tight .lp false) k := .inr fun c _ => jc_lp c
theorem ok_lc (k : K) : Ok (.tight .lc false) k := .inr fun c _ => jc_lc c
theorem ok_quest (k : K) : Ok (.tight .quest false) k := .inr fun c _ => jc_quest c
theorem ok_dcolon (k : K) : Ok (.tight .dcolon false) k := .inr fun c _ => jc_dcolon c

theorem lexClass_ident' {c : Nat} {h : Option Nat} (hk : lexClass true c h = .ident) : isDigit c = false := by
  unfold lexClass at hk; grind
theorem lexClass_str {c : Nat} {h : Option Nat} (hk : lexClass true c h = .str) : c = 34 ∨ c = 39 := by
  unfold lexClass at hk; grind
theorem lexClass_long {c : Nat} {h : Option Nat} (hk : lexClass true c h = .long) : c = 91 := by
  unfold lexClass at hk; grind

theorem id_char {x : Nm} (h : Sure (.id x)) {c : Nat} (hc : x.head? = some c) : isIdentChar true c = true ∧ isDigit c = false := by
  cases x with
  | nil => cases hc
  | cons d x =>
    cases hc
    have h1 := class_ident (k := .ident) h.1 (.inl rfl)
    exact ⟨lexClass_ident h1, lexClass_ident' h1⟩

theorem ident_ne {c : Nat} (h : isIdentChar true c = true) : c ≠ 46 ∧ c ≠ 58 ∧ c ≠ 61 ∧ c ≠ 45 ∧ c ≠ 91 := by
  refine ⟨?_, ?_, ?_, ?_, ?_⟩ <;> (rintro rfl; revert h; decide)

theorem ok_dot {x : Nm} (h : Sure (.id x)) : Ok (.tight .dot false) (.id x) :=
  .inr fun c hc => jc_dot ⟨(ident_ne (id_char h hc).1).1, (id_char h hc).2⟩

theorem ok_colon {x : Nm} (h : Sure (.id x)) : Ok (.tight .colon false) (.id x) :=
  .inr fun c hc => jc_colon (ident_ne (id_char h hc).1).2.1

theorem ok_function (k : K) (hk : k = .lp ∨ startK k = true) : Ok (.tight .kFunction false) k := by
  rcases hk with rfl | hk
  · exact .inr fun c hc => by
      have : (tkOf .lp).2.head? = some 40 := by decide +kernel
      rw [this] at hc; cases hc
      exact jc_word (sure_fixed _ trivial) (.inr (by decide +kernel)) (by decide)
  · by_cases h : k = .lp
    · subst h
      exact .inr fun c hc => by
        have : (tkOf .lp).2.head? = some 40 := by decide +kernel
        rw [this] at hc; cases hc
        exact jc_word (sure_fixed _ trivial) (.inr (by decide +kernel)) (by decide)
    · refine .inl ?_
      cases k <;> first | exact absurd rfl h | rfl | cases hk

/-! ### The start of an expression -/

theorem num_char {s : String} (h : Sure (.num s)) {c : Nat} (hc : (codes s).head? = some c) : isDigit c = true ∨ c = 46 := by
  have h1 : lexStep true (codes s) = .tok .number (codes s) [] := h.1
  cases hs : codes s with
  | nil => rw [hs] at hc; cases hc
  | cons d x =>
    rw [hs] at h1 hc
    cases hc
    have h2 := class_num h1
    exact (lexClass_num h2).imp id And.left

theorem str_char {s : String} (h : Sure (.str s)) {c : Nat} (hc : (codes s).head? = some c) : c = 34 ∨ c = 39 ∨ c = 91 := by
  have h1 : lexStep true (codes s) = .tok .string (codes s) [] := h.1
  cases hs : codes s with
  | nil => rw [hs] at hc; cases hc
  | cons d x =>
    rw [hs] at h1 hc
    cases hc
    simp only [lexStep] at h1
    split at h1
    · cases h1
    · simp only [cutTok, LexStep.tok.injEq] at h1; cases h1.1
    · simp only [cutTok, LexStep.tok.injEq] at h1; have := h1.1; split at this <;> cases this
    · next hk =>
      rcases lexClass_str hk with rfl | rfl <;> simp
    · next hk => simp [lexClass_long hk]
    · unfold lexComment at h1; split at h1 <;> (try split at h1) <;> cases h1
    · cases h1
    · simp only [cutTok, LexStep.tok.injEq] at h1; cases h1.1
    · simp only [cutTok, LexStep.tok.injEq] at h1; cases h1.1
    · cases h1

theorem start_char {k : K} (hs : Sure k) (hk : startK k = true) (hu : ∀ o, k = .op o → o ∈ unaryOps .pico8) {c : Nat}
    (hc : (tkOf k).2.head? = some c) : c ≠ 61 ∧ (c = 45 → k = .op .minus) ∧ (c = 91 → ∃ s, k = .str s ∧ s.toList.head? = some '[') := by
  have word : (tkOf k).1 = .ident ∨ (tkOf k).1 = .keyword → isIdentChar true c = true := by
    intro hw
    have h1 := hs.1
    unfold Alone at h1
    cases ht : (tkOf k).2 with
    | nil => rw [ht] at hc; cases hc
    | cons d t =>
      rw [ht] at h1 hc
      cases hc
      exact lexClass_ident (class_ident h1 hw)
  have ofw : isIdentChar true c = true → c ≠ 61 ∧ (c = 45 → k = .op .minus) ∧ (c = 91 → ∃ s, k = .str s ∧ s.toList.head? = some '[') := by
    intro h
    have := ident_ne h
    exact ⟨this.2.2.1, fun h => absurd h this.2.2.2.1, fun h => absurd h this.2.2.2.2⟩
  cases k with
  | id x => exact ofw (word (.inl rfl))
  | cst s => exact ofw (word (.inr (cst_kind hs)))
  | kFunction => exact ofw (word (.inr (by decide +kernel)))
  | num s =>
    rcases num_char hs hc with h | rfl
    · simp only [isDigit, Bool.and_eq_true, decide_eq_true_eq] at h
      exact ⟨by omega, fun _ => by omega, fun _ => by omega⟩
    · exact ⟨by omega, fun _ => by omega, fun _ => by omega⟩
  | str s =>
    refine ⟨(by rcases str_char hs hc with rfl | rfl | rfl <;> decide), fun h => (by rcases str_char hs hc with rfl | rfl | rfl <;> cases h), fun h => ⟨s, rfl, ?_⟩⟩
    subst h
    simp only [tkOf, codes] at hc
    cases hl : s.toList with
    | nil => rw [hl] at hc; cases hc
    | cons d t =>
      rw [hl] at hc
      simp only [List.map_cons, List.head?_cons, Option.some.injEq] at hc ⊢
      have hc : d.toNat = 91 := by split at hc <;> omega
      rw [← Char.ofNat_toNat d, hc]
  | dots => rw [show (tkOf .dots).2.head? = some 46 from by decide +kernel] at hc; cases hc; simp
  | lp => rw [show (tkOf .lp).2.head? = some 40 from by decide +kernel] at hc; cases hc; simp
  | lc => rw [show (tkOf .lc).2.head? = some 123 from by decide +kernel] at hc; cases hc; simp
  | op o =>
    have := hu o rfl
    simp only [unaryOps, List.mem_cons, List.not_mem_nil, or_false] at this
    rcases this with rfl | rfl | rfl | rfl | rfl | rfl | rfl
    · rw [show (tkOf (.op .not_)).2.head? = some 110 from by decide +kernel] at hc; cases hc; simp
    · rw [show (tkOf (.op .hash)).2.head? = some 35 from by decide +kernel] at hc; cases hc; simp
    · rw [show (tkOf (.op .minus)).2.head? = some 45 from by decide +kernel] at hc; cases hc; simp
    · rw [show (tkOf (.op .tilde)).2.head? = some 126 from by decide +kernel] at hc; cases hc; simp
    · rw [show (tkOf (.op .at_)).2.head? = some 64 from by decide +kernel] at hc; cases hc; simp
    · rw [show (tkOf (.op .percent)).2.head? = some 37 from by decide +kernel] at hc; cases hc; simp
    · rw [show (tkOf (.op .dollar)).2.head? = some 36 from by decide +kernel] at hc; cases hc; simp
  | _ => cases hk

/-- After a unary operator. -/
theorem ok_un {o : Op} (ho : o ∈ unaryOps .pico8) {k : K} (hs : Sure k) (hk : startK k = true) (hu : ∀ o, k = .op o → o ∈ unaryOps .pico8)
    (hm : o = .minus → k ≠ .op .minus) : Ok (.tight (.op o) true) k := by
  simp only [unaryOps, List.mem_cons, List.not_mem_nil, or_false] at ho
  rcases ho with rfl | rfl | rfl | rfl | rfl | rfl | rfl
  · left; cases k <;> first | rfl | cases hk
  · exact .inr fun c _ => jc_hash c
  · exact .inr fun c hc => jc_minus ⟨fun h => hm rfl ((start_char hs hk hu hc).2.1 h), (start_char hs hk hu hc).1⟩
  · exact .inr fun c hc => jc_tilde (start_char hs hk hu hc).1
  · exact .inr fun c _ => jc_at c
  · exact .inr fun c hc => jc_percent (start_char hs hk hu hc).1
  · exact .inr fun c _ => jc_dollar c

/-- After `[`. -/
theorem ok_lb {k : K} (hs : Sure k) (hk : startK k = true) (hu : ∀ o, k = .op o → o ∈ unaryOps .pico8)
    (hm : ∀ s : String, k = .str s → s.toList.head? ≠ some '[') : Ok (.tight .lb false) k :=
  .inr fun c hc => jc_lb ⟨fun h => by obtain ⟨s, hs', hb⟩ := (start_char hs hk hu hc).2.2 h; exact hm s hs' hb, (start_char hs hk hu hc).1⟩

end Verif.Unmin
