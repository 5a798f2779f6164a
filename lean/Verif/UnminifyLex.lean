import Verif.Unminify
import Verif.MinifySource
/-
What `unminify_code` puts out is read as its tokens, if tokens without a space between them can stand side by side.
-/
set_option linter.unusedTactic false
namespace Verif.Unmin
open Syntax Mini
open Paren (Op Lang)

/-! ### Tokens side by side -/

/-- The token is found in front of this character. -/
def Jc (k : K) (c : Nat) : Prop := lexStep true ((tkOf k).2 ++ [c]) = .tok (tkOf k).1 (tkOf k).2 [c]

theorem takeWhile_more {p : Nat → Bool} {c : Nat} (hc : p c = false) : ∀ t : List Nat, (t ++ [c]).takeWhile p = t.takeWhile p
  | [] => by simp [hc]
  | x :: t => by simp only [List.cons_append, List.takeWhile_cons, takeWhile_more hc t]

theorem cut_nil {k k' : TokKind} {n c0 : Nat} {t : List Nat} (h : cutTok k n (c0 :: t) = .tok k' (c0 :: t) [])
    (hn : n ≤ (c0 :: t).length) : k = k' ∧ n = t.length + 1 :=
  (cutTok_cons (t := t) (r := []) (by simpa using hn)).mp (by simpa using h)

theorem class_ident {t : List Nat} {c0 : Nat} {k : TokKind} {r : List Nat} (h : lexStep true (c0 :: t) = .tok k (c0 :: t) r) (hk : k = .ident ∨ k = .keyword) :
    lexClass true c0 t.head? = .ident := by
  simp only [lexStep, cutTok] at h
  split at h <;> first
    | assumption
    | (exfalso; cases h)
    | (exfalso; split at h <;> first | (cases h) | (simp only [LexStep.tok.injEq] at h; rw [← h.1] at hk; simp at hk))
    | (exfalso; simp only [LexStep.tok.injEq] at h; rw [← h.1] at hk; simp at hk)
    | (exfalso; unfold lexComment at h; split at h <;> (try split at h) <;> cases h)

theorem class_num {t : List Nat} {c0 : Nat} {r : List Nat} (h : lexStep true (c0 :: t) = .tok .number (c0 :: t) r) :
    lexClass true c0 t.head? = .num := by
  simp only [lexStep, cutTok] at h
  split at h <;> first
    | assumption
    | (exfalso; cases h)
    | (exfalso; split at h <;> first | (cases h) | (simp only [LexStep.tok.injEq] at h; have := h.1; cases this))
    | (exfalso; simp only [LexStep.tok.injEq] at h; have := h.1; split at this <;> cases this)
    | (exfalso; unfold lexComment at h; split at h <;> (try split at h) <;> cases h)

/-- A word in front of a character that is none of a word. -/
theorem word_before {k : TokKind} {t : List Nat} {c : Nat} (h : lexStep true t = .tok k t []) (hk : k = .ident ∨ k = .keyword)
    (hc : isIdentChar true c = false) : lexStep true (t ++ [c]) = .tok k t [c] := by
  cases t with
  | nil => cases h
  | cons c0 t =>
    have hcls := class_ident h hk
    have hcls' : lexClass true c0 (t ++ [c]).head? = .ident := by
      cases t with
      | cons d t => exact hcls
      | nil =>
        have hi := lexClass_ident hcls
        simp only [List.nil_append, List.head?_cons, List.head?_nil] at hcls ⊢
        have hd : ¬ isDigit c0 = true := by
          intro hd; unfold lexClass at hcls; simp [hd] at hcls; split at hcls <;> cases hcls
        have h46 : c0 ≠ 46 := by rintro rfl; revert hi; decide
        have hw : ¬ isWspace c0 = true := by
          intro hw; rw [isIdentChar_wspace hw] at hi; cases hi
        simp [lexClass, hd, h46, hw, hi]
    simp only [List.cons_append, lexStep, hcls'] 
    simp only [lexStep, hcls] at h
    have h1 := cut_nil h takeWhile_len_le
    have e := takeWhile_more hc (c0 :: t)
    rw [List.cons_append] at e
    rw [e, cutTok_cons]
    · exact h1
    · have := takeWhile_len_le (p := isIdentChar true) (l := c0 :: t)
      simp only [List.length_cons, List.length_append] at this ⊢
      omega

theorem numDigit_of {b c : Nat} (hc : isIdentChar true c = false) (h46 : c ≠ 46) : numDigit b c = false := by
  simp only [isIdentChar, Bool.or_eq_false_iff, Bool.and_eq_false_iff, decide_eq_false_iff_not, beq_eq_false_iff_ne] at hc
  unfold numDigit
  simp only [isDigit]
  split
  · simp; omega
  · split <;> simp <;> omega

/-- A number in front of a character that is neither one of a word nor a point. -/
theorem num_before {t : List Nat} {c : Nat} (h : lexStep true t = .tok .number t []) (hc : isIdentChar true c = false) (h46 : c ≠ 46) :
    lexStep true (t ++ [c]) = .tok .number t [c] := by
  cases t with
  | nil => cases h
  | cons c0 t =>
    have hcls := class_num h
    have hcls' : lexClass true c0 (t ++ [c]).head? = .num := by
      cases t with
      | cons d t => exact hcls
      | nil =>
        have hd : isDigit c0 = true := by
          rcases lexClass_num hcls with h | ⟨-, h⟩
          · exact h
          · cases h
        have hw : ¬ isWspace c0 = true := by
          intro hw; rw [isDigit_wspace hw] at hd; cases hd
        simp [lexClass, hd, hw]
    have hd := (lexClass_num hcls).imp id And.left
    simp only [lexStep, hcls] at h
    have h1 := cut_nil h (numLen_bounds hd).2
    simp only [List.cons_append, lexStep, hcls']
    rw [cutTok_cons (numLen_bounds hd).2]
    refine ⟨rfl, ?_⟩
    rw [← h1.2]
    have tw : ∀ b (l : List Nat), ((l ++ [c]).takeWhile (numDigit b)).length = (l.takeWhile (numDigit b)).length := fun b l => by
      rw [takeWhile_more (numDigit_of hc h46)]
    cases t with
    | cons d t =>
      have e := tw 10 (c0 :: d :: t)
      simp only [List.cons_append] at e
      simp [numLen, tw, e]
    | nil =>
      have hb : headIn (some c) [98, 66] = false := by
        simp only [headIn, List.contains_cons, List.contains_nil, Bool.or_false, Bool.or_eq_false_iff, beq_eq_false_iff_ne]
        constructor <;> (rintro rfl; revert hc; decide)
      have hx : headIn (some c) [120, 88] = false := by
        simp only [headIn, List.contains_cons, List.contains_nil, Bool.or_false, Bool.or_eq_false_iff, beq_eq_false_iff_ne]
        constructor <;> (rintro rfl; revert hc; decide)
      have hb' : headIn none [98, 66] = false := rfl
      have hx' : headIn none [120, 88] = false := rfl
      have e := tw 10 [c0]
      simp only [List.cons_append, List.nil_append] at e
      simp [numLen, hb, hx, hb', hx', e]

/-- A string in front of any character. -/
theorem str_before {t : List Nat} {c : Nat} (h : lexStep true t = .tok .string t []) : lexStep true (t ++ [c]) = .tok .string t [c] := by
  cases t with
  | nil => cases h
  | cons c0 t =>
    simp only [lexStep] at h
    split at h
    · cases h
    · simp only [cutTok, LexStep.tok.injEq] at h; cases h.1
    · simp only [cutTok, LexStep.tok.injEq] at h; have := h.1; split at this <;> cases this
    · next hk =>
      have hk' : lexClass true c0 (t ++ [c]).head? = .str := by
        cases t with
        | cons => exact hk
        | nil =>
          split at h
          · next rest hs =>
            obtain ⟨p, hp, hs, _⟩ := scanString_local _ rfl hs
            have := congrArg List.length hs
            have h5 : 0 < p.length := List.length_pos_iff.mpr hp
            simp at this; omega
          · cases h
      split at h
      · next rest hs =>
        obtain ⟨p, hp, hs, hall⟩ := scanString_local _ rfl hs
        have h1 := cut_nil h (by simp)
        have h2 : rest = [] := by
          have := congrArg List.length hs
          simp only [List.length_append, List.length_cons] at this h1
          exact List.length_eq_zero_iff.1 (by omega)
        subst h2
        rw [List.append_nil] at hs
        subst hs
        simp only [List.cons_append, lexStep, hk', hall]
        rw [cutTok_cons (by simp)]
        simp
      · cases h
    · next hk =>
      have hk' : lexClass true c0 (t ++ [c]).head? = .long := by
        cases t with
        | cons => exact hk
        | nil =>
          split at h
          · next rest hs =>
            obtain ⟨p, hp, hs, _⟩ := scanLong_local hs
            have := congrArg List.length hs
            simp at this; omega
          · cases h
      split at h
      · next body rest hs =>
        obtain ⟨p, hp, hs, hall⟩ := scanLong_local hs
        have h1 := cut_nil h (by simp)
        have h2 : rest = [] := by
          have := congrArg List.length hs
          simp only [List.length_append, List.length_cons] at this h1
          exact List.length_eq_zero_iff.1 (by omega)
        subst h2
        rw [List.append_nil] at hs
        subst hs
        have h3 := hall [c]
        simp only [List.cons_append] at h3
        simp only [List.cons_append, lexStep, hk', h3]
        rw [cutTok_cons (by simp)]
        simp
      · cases h
    · unfold lexComment at h; split at h <;> (try split at h) <;> cases h
    · cases h
    · simp only [cutTok, LexStep.tok.injEq] at h; cases h.1
    · simp only [cutTok, LexStep.tok.injEq] at h; cases h.1
    · cases h

/-! ### Chains -/

/-- What came last: white space, a token, or an added keyword. -/
inductive Sta
  | clear
  | tight (k : K) (un : Bool)
  | stop

/-- The token may come next. -/
def Ok : Sta → K → Prop
  | .clear, _ => True
  | .tight a un, b => spaced a un b = true ∨ ∀ c, (tkOf b).2.head? = some c → Jc a c
  | .stop, _ => False

/-- From one state to another. -/
def Lk : Sta → List U → Sta → Prop
  | s, [], s' => s = s'
  | s, .tok k un :: us, s' => Ok s k ∧ Sure k ∧ Lk (.tight k un) us s'
  | s, .raw w :: us, s' => (∀ c ∈ w, isWspace c = true) ∧ (w = [] → s = .clear) ∧ Lk .clear us s'
  | s, .word lead k :: us, s' => (lead = true ∨ s = .clear) ∧ Sure k ∧ Lk .stop us s'
  | _, .crash :: _, _ => False

theorem Lk.append {vs : List U} {s' s'' : Sta} (h' : Lk s' vs s'') : ∀ {us : List U} {s : Sta}, Lk s us s' → Lk s (us ++ vs) s'' := by
  intro us
  induction us with
  | nil => intro s h; cases h; exact h'
  | cons u us ih =>
    intro s h
    cases u <;> simp only [Lk] at h <;> simp only [List.cons_append, Lk]
    all_goals first | exact h | exact ⟨h.1, h.2.1, ih h.2.2⟩

/-- The kinds of the tokens. -/
def kus : List U → List K
  | [] => []
  | .tok k _ :: us => k :: kus us
  | .word _ k :: us => k :: kus us
  | .raw _ :: us => kus us
  | .crash :: us => kus us

theorem kus_append : ∀ a b : List U, kus (a ++ b) = kus a ++ kus b
  | [], _ => rfl
  | .tok _ _ :: a, b => congrArg _ (kus_append a b)
  | .word _ _ :: a, b => congrArg _ (kus_append a b)
  | .raw _ :: a, b => kus_append a b
  | .crash :: a, b => kus_append a b

/-- What may follow. -/
def Foll (s : Sta) (w : List Nat) : Prop :=
  ∀ k, (s = .stop ∨ ∃ un, s = .tight k un) → Sure k → lexStep true ((tkOf k).2 ++ w) = .tok (tkOf k).1 (tkOf k).2 w

theorem alone_before {k : K} {w : List Nat} (h : Sure k) (hw : w = [] ∨ ∃ c, isWspace c = true ∧ w.head? = some c) :
    lexStep true ((tkOf k).2 ++ w) = .tok (tkOf k).1 (tkOf k).2 w := by
  have h1 : lexStep true ((tkOf k).2 ++ []) = .tok (tkOf k).1 (tkOf k).2 [] := by rw [List.append_nil]; exact h.1
  refine (lexStep_local ?_ h1).2
  rcases hw with rfl | ⟨c, hc, hw⟩
  · exact .inl rfl
  · exact .inr (.inr ⟨c, hc, hw⟩)

theorem sure_ne {k : K} (h : Sure k) : (tkOf k).2 ≠ [] := by
  have h1 : lexStep true ((tkOf k).2 ++ []) = .tok (tkOf k).1 (tkOf k).2 [] := by rw [List.append_nil]; exact h.1
  exact (lexStep_local (.inl rfl) h1).1

/-- What the previous token is. -/
def Pv : Sta → Option (K × Bool) → Prop
  | .clear, p => p = none
  | .tight k un, p => p = some (k, un)
  | .stop, _ => True

/-- A chain is put out, and its tokens are read. -/
theorem put_read {us : List U} : ∀ {s s' : Sta} {p : Option (K × Bool)}, Lk s us s' → Pv s p →
    ∃ w, put p us = some w ∧ Foll s w ∧ ∀ n, ∃ ts, lexLines true n w = some ts ∧ ts.map (·.1) = (kus us).map tkOf := by
  induction us with
  | nil => intro s _ p _ _; exact ⟨[], rfl, fun k _ hk => alone_before hk (.inl rfl), fun n => ⟨[], lexLines_nil, rfl⟩⟩
  | cons u us put_read =>
  intro s s' p h hp
  cases u with
  | crash => exact h.elim
  | tok k un =>
    obtain ⟨ho, hk, h⟩ := h
    obtain ⟨w, h1, h2, h3⟩ := put_read (p := some (k, un)) h rfl
    have ht := h2 k (.inr ⟨un, rfl⟩) hk
    have hg : ∀ c ∈ gap p k, isWspace c = true := by
      intro c hc
      unfold gap at hc
      split at hc
      · cases hc
      · split at hc
        · simp at hc; subst hc; decide
        · cases hc
    refine ⟨gap p k ++ (tkOf k).2 ++ w, by simp [put, h1], ?_, ?_⟩
    · intro a ha hs
      cases s with
      | clear => rcases ha with ha | ⟨_, ha⟩ <;> cases ha
      | stop => exact ho.elim
      | tight a' un' =>
        obtain ⟨⟩ : a' = a := by rcases ha with ha | ⟨_, ha⟩ <;> cases ha; rfl
        cases hp
        cases hsp : spaced a un' k with
        | true =>
          refine alone_before hs (.inr ⟨32, by decide, ?_⟩)
          simp [gap, hsp]
        | false =>
          rcases ho with ho | ho
          · rw [hsp] at ho; cases ho
          · obtain ⟨c, t, hc⟩ : ∃ c t, (tkOf k).2 = c :: t := List.exists_cons_of_ne_nil (sure_ne hk)
            have h4 := ho c (by rw [hc]; rfl)
            unfold Jc at h4
            refine (lexStep_local ?_ h4).2
            simp [gap, hsp, hc, Compat]
    · intro n
      obtain ⟨ts, h4, h5⟩ := h3 (n + (gap p k).count 10)
      refine ⟨(tkOf k, n + (gap p k).count 10) :: ts, ?_, ?_⟩
      · rw [List.append_assoc, lexLines_space hg, lexLines_tok ht, h4]; rfl
      · simp [kus, h5]
  | raw v =>
    obtain ⟨hv, hc, h⟩ := h
    obtain ⟨w, h1, h2, h3⟩ := put_read (p := none) h rfl
    refine ⟨v ++ w, by simp [put, h1], ?_, ?_⟩
    · intro a ha hs
      cases v with
      | nil => rw [hc rfl] at ha; rcases ha with ha | ⟨_, ha⟩ <;> cases ha
      | cons c v => exact alone_before hs (.inr ⟨c, hv c (by simp), rfl⟩)
    · intro n
      obtain ⟨ts, h4, h5⟩ := h3 (n + v.count 10)
      exact ⟨ts, by rw [lexLines_space hv, h4], by simp [kus, h5]⟩
  | word lead k =>
    obtain ⟨hl, hk, h⟩ := h
    obtain ⟨w, h1, h2, h3⟩ := put_read (p := p) h trivial
    have ht := h2 k (.inl rfl) hk
    have hg : ∀ c ∈ (if lead then [32] else []), isWspace c = true := by
      intro c hc
      split at hc
      · simp at hc; subst hc; decide
      · cases hc
    refine ⟨(if lead then [32] else []) ++ (tkOf k).2 ++ w, by simp [put, h1], ?_, ?_⟩
    · intro a ha hs
      rcases hl with rfl | rfl
      · exact alone_before hs (.inr ⟨32, by decide, rfl⟩)
      · rcases ha with ha | ⟨_, ha⟩ <;> cases ha
    · intro n
      obtain ⟨ts, h4, h5⟩ := h3 (n + List.count 10 (if lead then [32] else []))
      refine ⟨((tkOf k), n + List.count 10 (if lead then [32] else [])) :: ts, ?_, ?_⟩
      · rw [List.append_assoc, lexLines_space hg, lexLines_tok ht, h4]; rfl
      · simp [kus, h5]

end Verif.Unmin
