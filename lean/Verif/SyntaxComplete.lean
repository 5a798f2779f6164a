import Verif.SyntaxSound
/-! What is in the grammar is read by the parser. -/
namespace Verif.Syntax
open Paren (Op Lang isUn isBin prec unPrec accepts rightOp)
open LuaGrammar

/-- For all sufficiently large fuel. -/
def Ev {α : Type} (f : Nat → Option α) (x : α) : Prop := ∃ k, ∀ n, k ≤ n → f n = some x

theorem Ev.succ {α : Type} {f : Nat → Option α} {x : α} (h : Ev (fun n => f (n + 1)) x) : Ev f x := by
  obtain ⟨k, hk⟩ := h
  refine ⟨k + 1, fun n hn => ?_⟩
  obtain ⟨m, rfl⟩ : ∃ m, n = m + 1 := ⟨n - 1, by omega⟩
  exact hk m (by omega)

theorem Ev.const {α : Type} {x : α} : Ev (fun _ => some x) x := ⟨0, fun _ _ => rfl⟩

theorem Ev.bind {α β : Type} {g : Nat → Option β} {k : Nat → β → Option α} {y : β} {x : α} (h1 : Ev g y) (h2 : Ev (fun n => k n y) x) :
    Ev (fun n => (g n).bind (k n)) x := by
  obtain ⟨a, ha⟩ := h1
  obtain ⟨b, hb⟩ := h2
  refine ⟨max a b, fun n hn => ?_⟩
  show (g n).bind (k n) = some x
  rw [ha n (by omega)]
  exact hb n (by omega)

theorem Ev.map {α β : Type} {g : Nat → Option β} {k : β → α} {y : β} (h1 : Ev g y) : Ev (fun n => (g n).map k) (k y) := by
  obtain ⟨a, ha⟩ := h1
  refine ⟨a, fun n hn => ?_⟩
  show (g n).map k = some (k y)
  rw [ha n hn]; rfl

theorem Ev.congr {α : Type} {f g : Nat → Option α} {x : α} (h : Ev f x) (hg : ∀ n, g n = f n) : Ev g x := by
  obtain ⟨a, ha⟩ := h
  exact ⟨a, fun n hn => by rw [hg]; exact ha n hn⟩

theorem Ev.unique {α : Type} {f : Nat → Option α} {x y : α} (h1 : Ev f x) (h2 : Ev f y) : x = y := by
  obtain ⟨a, ha⟩ := h1
  obtain ⟨b, hb⟩ := h2
  have := (ha (max a b) (by omega)).symm.trans (hb (max a b) (by omega))
  simpa using this

variable {L : Lang}

/-- Tokens that expressions start with. -/
def Start : K → Bool
  | .cst _ | .num _ | .str _ | .dots | .lc | .kFunction | .id _ | .lp | .op _ => true
  | _ => false

/-- The tokens start like an expression that ends before `r`. -/
def Begins (i r : List T) : Prop := ∃ t s, i = t :: s ∧ Start t.k = true ∧ (hd s = some .eq → r = s)

theorem Begins.of {i m r : List T} (h : Begins i m) (hm : hd m ≠ some .eq) : Begins i r := by
  obtain ⟨t, s, rfl, h1, h2⟩ := h
  exact ⟨t, s, rfl, h1, fun h => absurd ((h2 h) ▸ h) hm⟩

theorem Begins.ne {i r : List T} (h : Begins i r) : hd i ≠ some .eq := by
  obtain ⟨t, s, rfl, h1, -⟩ := h
  intro h
  simp only [hd, List.head?_cons, Option.map_some, Option.some.injEq] at h
  rw [h] at h1; simp [Start] at h1

mutual
theorem E_begins : ∀ {k : Nat} {i r : List T} {e : Ex}, E L k i r e → Begins i r
  | _, _, _, _, .up h => E_begins h
  | _, _, _, _, .left _ _ h _ => (E_begins h).of (by simp [hd])
  | _, _, _, _, .concat h _ => (E_begins h).of (by simp [hd])
  | _, _, _, _, .un _ h => ⟨_, _, rfl, rfl, fun he => absurd he (E_begins h).ne⟩
  | _, _, _, _, .pow h _ => (E_begins h).of (by simp [hd])
  | _, _, _, _, .cst => ⟨_, _, rfl, rfl, fun _ => rfl⟩
  | _, _, _, _, .num => ⟨_, _, rfl, rfl, fun _ => rfl⟩
  | _, _, _, _, .str => ⟨_, _, rfl, rfl, fun _ => rfl⟩
  | _, _, _, _, .dots => ⟨_, _, rfl, rfl, fun _ => rfl⟩
  | _, _, _, _, .table h => ⟨_, _, rfl, rfl, fun he => absurd he (Items_begins h)⟩
  | _, _, _, _, .func h => ⟨_, _, rfl, rfl, fun he => by cases h; simp [hd] at he⟩
  | _, _, _, _, .pre h => P_begins h
theorem P_begins : ∀ {i r : List T} {e : Ex}, P L i r e → Begins i r
  | _, _, _, .var => ⟨_, _, rfl, rfl, fun _ => rfl⟩
  | _, _, _, .group h => ⟨_, _, rfl, rfl, fun he => absurd he (E_begins h).ne⟩
  | _, _, _, .member h => (P_begins h).of (by simp [hd])
  | _, _, _, .index h _ => (P_begins h).of (by simp [hd])
  | _, _, _, .call h _ => (P_begins h).of (by simp [hd])
  | _, _, _, .callBare h b => (P_begins h).of (by cases b <;> simp [hd])
  | _, _, _, .method h _ => (P_begins h).of (by simp [hd])
  | _, _, _, .methodBare h _ => (P_begins h).of (by simp [hd])
theorem Items_begins : ∀ {i r : List T} {t : Its}, Items L i r t → hd i ≠ some .eq
  | _, _, _, .nil => by simp [hd]
  | _, _, _, .pos h _ => (E_begins h).ne
  | _, _, _, .named _ _ => by simp [hd]
  | _, _, _, .keyed _ _ _ => by simp [hd]
end

theorem Es_begins {i r : List T} {es : Exs} (h : Es L i r es) : ∃ t s, i = t :: s ∧ Start t.k = true := by
  cases h with
  | one h => obtain ⟨t, s, h1, h2, -⟩ := E_begins h; exact ⟨t, s, h1, h2⟩
  | cons h _ => obtain ⟨t, s, h1, h2, -⟩ := E_begins h; exact ⟨t, s, h1, h2⟩

theorem P_pre {i r : List T} {e : Ex} (h : P L i r e) : isPre e = true := by cases h <;> rfl

theorem pre_open {e : Ex} (h : isPre e = true) : openEnd e = true := by cases e <;> simp_all [isPre, openEnd]

/-- The claim for expressions. -/
def CE (L : Lang) (k : Nat) (i r : List T) (e : Ex) : Prop :=
  ∀ p x, lvl p ≤ k → (∀ o l m, r = ⟨.op o, l⟩ :: m → isBin L o = true → leftLvl o ≤ k) → (openEnd e = true → ¬ Next Suffix r) →
    Ev (fun n => loop L n p e r) x → Ev (fun n => expr L n p i) x

/-- The claim for prefix expressions. -/
def CP (L : Lang) (i r : List T) (e : Ex) : Prop :=
  ∀ p x, Ev (fun n => loop L n p e r) x → Ev (fun n => expr L n p i) x

theorem loop_stop {p : Option Nat} {e : Ex} {r : List T} (h1 : ∀ o l m, r = ⟨.op o, l⟩ :: m → isBin L o = true → accepts o p = false)
    (h2 : isPre e = true → ¬ Next Suffix r) : Ev (fun n => loop L n p e r) (e, r) := by
  refine .succ ⟨0, fun n _ => ?_⟩
  cases r with
  | nil => rfl
  | cons t r =>
    obtain ⟨k, l⟩ := t
    rw [next_cons] at h2
    cases hp : isPre e with
    | true =>
      have h2 := h2 hp
      cases k with
      | op o => simp only [loop]; rw [if_neg]; simpa using h1 o l r rfl
      | _ => simp_all [loop, Suffix]
    | false =>
      cases k with
      | op o => simp only [loop]; rw [if_neg]; simpa using h1 o l r rfl
      | _ => simp_all [loop]

theorem accepts_iff {o : Op} {q : Nat} : accepts o (some q) = true ↔ (rightOp o = true ∧ q ≤ prec o) ∨ q < prec o := by
  cases hr : rightOp o
  · simp [accepts, hr]
  · simp only [accepts, hr, if_true, decide_eq_true_eq, true_and]; omega

theorem left_facts (o : Op) : (rightOp o = false ∧ leftLvl o = prec o) ∨ (leftLvl o = 9 ∧ prec o = 8) ∨ (leftLvl o = 13 ∧ prec o = 12) := by
  cases o <;> simp [rightOp, leftLvl, prec]

theorem accepts_stop {o : Op} {k : Nat} (h : leftLvl o ≤ k) (hk : k ≤ 12) : accepts o (some k) = false := by
  rw [Bool.eq_false_iff, ne_eq, accepts_iff]
  rcases left_facts o with ⟨h1, h2⟩ | ⟨h1, h2⟩ | ⟨h1, h2⟩
  · rw [h1]; simp; omega
  · omega
  · omega

theorem accepts_left {o : Op} {k : Nat} {p : Option Nat} (h : o ∈ leftOps k) (hp : lvl p ≤ k) : accepts o p = true ∧ prec o = k ∧ leftLvl o = k := by
  have hk : prec o = k ∧ leftLvl o = k ∧ rightOp o = false ∧ k ≠ 8 ∧ k ≤ 10 := by
    unfold leftOps at h
    split at h <;> simp at h
    all_goals first
      | (subst h; simp [prec, leftLvl, rightOp]; done)
      | (rcases h with h | h <;> subst h <;> simp [prec, leftLvl, rightOp]; done)
      | (rcases h with h | h | h | h | h <;> subst h <;> simp [prec, leftLvl, rightOp]; done)
      | (rcases h with h | h | h | h | h | h | h <;> subst h <;> simp [prec, leftLvl, rightOp]; done)
  refine ⟨?_, hk.1, hk.2.1⟩
  cases p with
  | none => rfl
  | some q =>
    simp only [accepts, hk.2.2.1, Bool.false_eq_true, if_false, decide_eq_true_eq]
    unfold lvl at hp
    dsimp only at hp
    split at hp
    · omega
    · split at hp <;> omega

theorem left_bin {o : Op} {k : Nat} (h : o ∈ leftOps k) (hl : inLang L o = true) : isBin L o = true :=
  binary_iff.2 ⟨hl, .inr (.inr ⟨k, h⟩)⟩

/-- The right operand of an operator. -/
theorem right_ev {k q : Nat} {m r : List T} {f : Ex} (h : CE L k m r f) (hq : lvl (some q) ≤ k) (hq2 : q ≤ 12)
    (h1 : ∀ o l m, r = ⟨.op o, l⟩ :: m → isBin L o = true → leftLvl o ≤ k ∧ leftLvl o ≤ q) (h2 : openEnd f = true → ¬ Next Suffix r) :
    Ev (fun n => expr L n (some q) m) (f, r) :=
  h (some q) (f, r) hq (fun o l m hr hb => (h1 o l m hr hb).1) h2
    (loop_stop (fun o l m hr hb => accepts_stop (h1 o l m hr hb).2 hq2) fun hp => h2 (pre_open hp))

theorem op_suffix {o : Op} {l : Nat} {m : List T} : ¬ Next Suffix (⟨.op o, l⟩ :: m) := by rw [next_cons]; simp [Suffix]

theorem ce_up {k : Nat} {i r : List T} {e : Ex} (h : CE L (k + 1) i r e) : CE L k i r e :=
  fun p x hp h1 h2 h3 => h p x (by omega) (fun o l m hr hb => by have := h1 o l m hr hb; omega) h2 h3

theorem loop_bin {p : Option Nat} {o : Op} {l : Nat} {m r : List T} {e f : Ex} {x : Ex × List T} (hb : isBin L o = true) (ha : accepts o p = true)
    (h1 : Ev (fun n => expr L n (some (prec o)) m) (f, r)) (h2 : Ev (fun n => loop L n p (.bin o e f) r) x) :
    Ev (fun n => loop L n p e (⟨.op o, l⟩ :: m)) x := by
  refine .succ ?_
  simp only [loop, hb, ha, Bool.and_self, if_true]
  exact .bind h1 h2

theorem ce_left {k : Nat} {o : Op} {l : Nat} {i m r : List T} {e f : Ex} (ho : o ∈ leftOps k) (hl : inLang L o = true)
    (h1 : CE L k i (⟨.op o, l⟩ :: m) e) (h2 : CE L (k + 1) m r f) : CE L k i r (.bin o e f) := by
  intro p x hp h3 h4 h5
  have hk : k ≤ 10 := by
    unfold leftOps at ho
    split at ho <;> first | omega | simp at ho
  obtain ⟨ha, hpr, hlv⟩ := accepts_left ho hp
  refine h1 p x hp ?_ (fun _ => op_suffix) (loop_bin (left_bin ho hl) ha (hpr ▸ right_ev h2 ?_ (by omega) (fun o2 l2 m2 hr hb => ?_) h4) h5)
  · rintro o2 l2 m2 hr hb
    simp only [List.cons.injEq, T.mk.injEq, K.op.injEq] at hr
    rw [← hr.1.1, hlv]; exact Nat.le_refl _
  · have := (bin_cases (left_bin ho hl)).2
    rcases this with rfl | rfl | h
    · unfold leftOps at ho; split at ho <;> simp at ho
    · unfold leftOps at ho; split at ho <;> simp at ho
    · rw [← hpr, h.2.2]; exact Nat.le_refl _
  · have := h3 o2 l2 m2 hr hb
    omega

theorem ce_concat {l : Nat} {i m r : List T} {e f : Ex} (h1 : CE L 9 i (⟨.op .concat, l⟩ :: m) e) (h2 : CE L 8 m r f) :
    CE L 8 i r (.bin .concat e f) := by
  intro p x hp h3 h4 h5
  refine h1 p x (by omega) ?_ (fun _ => op_suffix) (loop_bin (by cases L <;> rfl) ?_ (right_ev h2 (by decide) (by decide) (fun o2 l2 m2 hr hb => ?_) h4) h5)
  · rintro o2 l2 m2 hr hb
    simp only [List.cons.injEq, T.mk.injEq, K.op.injEq] at hr
    rw [← hr.1.1]; decide
  · cases p with
    | none => rfl
    | some q =>
      rw [accepts_iff]
      simp only [rightOp, prec, true_and]
      unfold lvl at hp
      dsimp only at hp
      split at hp
      · omega
      · split at hp <;> omega
  · exact ⟨h3 _ _ _ hr hb, h3 _ _ _ hr hb⟩

theorem ce_pow {l : Nat} {i m r : List T} {e f : Ex} (h1 : CE L 13 i (⟨.op .caret, l⟩ :: m) e) (h2 : CE L 11 m r f) :
    CE L 12 i r (.bin .caret e f) := by
  intro p x hp h3 h4 h5
  refine h1 p x (by omega) ?_ (fun _ => op_suffix) (loop_bin (by cases L <;> rfl) ?_ (right_ev h2 (by decide) (by decide) (fun o2 l2 m2 hr hb => ?_) h4) h5)
  · rintro o2 l2 m2 hr hb
    simp only [List.cons.injEq, T.mk.injEq, K.op.injEq] at hr
    rw [← hr.1.1]; decide
  · cases p with
    | none => rfl
    | some q =>
      rw [accepts_iff]
      simp only [rightOp, prec, true_and]
      unfold lvl at hp
      dsimp only at hp
      split at hp
      · omega
      · split at hp <;> omega
  · have := h3 _ _ _ hr hb
    refine ⟨?_, this⟩
    revert this
    cases o2 <;> simp [leftLvl, prec]

theorem ce_un {o : Op} {l : Nat} {m r : List T} {e : Ex} (ho : o ∈ unaryOps L) (h : CE L 11 m r e) : CE L 11 (⟨.op o, l⟩ :: m) r (.un o e) := by
  intro p x hp h3 h4 h5
  refine .succ ?_
  simp only [expr]
  refine .bind (y := (.un o e, r)) ?_ h5
  refine .succ ?_
  simp only [core, unary_iff.2 ho, if_true]
  exact .map (right_ev h (by decide) (by decide) (fun o2 l2 m2 hr hb => ⟨h3 _ _ _ hr hb, h3 _ _ _ hr hb⟩) h4)

theorem expr_core {i r : List T} {e : Ex} {p : Option Nat} {x : Ex × List T} (h : Ev (fun n => core L n i) (e, r)) (h5 : Ev (fun n => loop L n p e r) x) :
    Ev (fun n => expr L n p i) x := by
  refine .succ ?_
  simp only [expr]
  exact .bind h h5

theorem ce_core {i r : List T} {e : Ex} (h : Ev (fun n => core L n i) (e, r)) : CE L 13 i r e := fun _ _ _ _ _ h5 => expr_core h h5

theorem ce_pre {i r : List T} {e : Ex} (h : CP L i r e) : CE L 13 i r e := fun p x _ _ _ h5 => h p x h5

theorem ce_done {m r : List T} {e : Ex} (h : CE L 1 m r e) (hd : Done L e r) : Ev (fun n => expr L n none m) (e, r) := by
  have hop : ∀ o l m', r = ⟨.op o, l⟩ :: m' → isBin L o = true → False := by
    rintro o l m' rfl hb
    exact hd.1 ⟨_, _, rfl, o, rfl, binary_iff.1 hb⟩
  exact h none (e, r) (by decide) (fun o l m' hr hb => (hop o l m' hr hb).elim) hd.2
    (loop_stop (fun o l m' hr hb => (hop o l m' hr hb).elim) fun hp => hd.2 (pre_open hp))

/-- Tokens that nothing goes on with. -/
def Plain : K → Bool
  | .op _ | .dot | .lb | .lp | .lc | .colon | .str _ => false
  | _ => true

theorem done_plain {k : K} {l : Nat} {r : List T} {e : Ex} (h : Plain k = true) : Done L e (⟨k, l⟩ :: r) := by
  refine ⟨?_, fun _ => ?_⟩
  · rw [next_cons]; rintro ⟨o, rfl, -⟩; simp [Plain] at h
  · rw [next_cons]; rintro (h' | h' | h' | h' | h' | ⟨s, h'⟩) <;> simp only at h' <;> subst h' <;> simp [Plain] at h

theorem ce_plain {m r : List T} {e : Ex} {k : K} {l : Nat} (h : CE L 1 m (⟨k, l⟩ :: r) e) (hk : Plain k = true) :
    Ev (fun n => expr L n none m) (e, ⟨k, l⟩ :: r) := ce_done h (done_plain hk)

theorem doneList_of {r : List T} (h : ∀ e, Done L e r) (h2 : ¬ Next (· = .comma) r) : ∀ es : Exs, DoneList L es r
  | .nil => trivial
  | .cons e .nil => ⟨h e, h2⟩
  | .cons _ (.cons f fs) => doneList_of h h2 (.cons f fs)

theorem doneList_plain {k : K} {l : Nat} {r : List T} (h : Plain k = true) (h2 : k ≠ .comma) (es : Exs) : DoneList L es (⟨k, l⟩ :: r) :=
  doneList_of (fun _ => done_plain h) (by rw [next_cons]; exact h2) es

theorem doneList_tail {e f : Ex} {fs : Exs} {r : List T} (h : DoneList L (.cons e (.cons f fs)) r) : DoneList L (.cons f fs) r := h

theorem cp_var {x : Nm} {l : Nat} {r : List T} : CP L (⟨.id x, l⟩ :: r) r (.var x) :=
  fun _ _ h => expr_core (.succ .const) h

theorem cp_group {l l' : Nat} {m r : List T} {e : Ex} (h : CE L 1 m (⟨.rp, l'⟩ :: r) e) : CP L (⟨.lp, l⟩ :: m) r (.group e) := by
  intro p x h5
  refine expr_core (.succ ?_) h5
  simp only [core]
  exact .bind (ce_plain h rfl) (by simp only [req, if_true]; exact .const)

theorem cp_member {i r : List T} {l l' : Nat} {x : Nm} {b : Ex} (hb : isPre b = true) (h : CP L i (⟨.dot, l⟩ :: ⟨.id x, l'⟩ :: r) b) :
    CP L i r (.member b x) := by
  intro p y h5
  refine h p y (.succ ?_)
  simp only [loop, hb, if_true, ident, Option.bind_some]
  exact h5

theorem cp_index {i m r : List T} {l l' : Nat} {b e : Ex} (hb : isPre b = true) (h : CP L i (⟨.lb, l⟩ :: m) b) (he : CE L 1 m (⟨.rb, l'⟩ :: r) e) :
    CP L i r (.index b e) := by
  intro p y h5
  refine h p y (.succ ?_)
  simp only [loop, hb, if_true]
  refine .bind (ce_plain he rfl) ?_
  simp only [req, if_true, Option.bind_some]
  exact h5

theorem cp_call {i m r : List T} {l : Nat} {b : Ex} {a : Exs} (hb : isPre b = true) (h : CP L i (⟨.lp, l⟩ :: m) b)
    (ha : Ev (fun n => args L n m) (a, r)) : CP L i r (.call b false a) := by
  intro p y h5
  refine h p y (.succ ?_)
  simp only [loop, hb, if_true]
  exact .bind ha h5

theorem cp_callBare {i m r : List T} {b e : Ex} (hb : isPre b = true) (h : CP L i m b) (hs : bareStart (hd m) = true)
    (ha : Ev (fun n => core L n m) (e, r)) : CP L i r (.call b true (.cons e .nil)) := by
  intro p y h5
  refine h p y (.succ ?_)
  cases m with
  | nil => simp [hd, bareStart] at hs
  | cons t m =>
    obtain ⟨k, l⟩ := t
    cases k with
    | lc =>
      simp only [loop, hb, if_true]
      exact .bind ha h5
    | str s =>
      simp only [loop, hb, if_true]
      exact .bind ha h5
    | _ => simp [hd, bareStart] at hs

theorem cp_method {i m r : List T} {l l' l'' : Nat} {x : Nm} {b : Ex} {a : Exs} (hb : isPre b = true)
    (h : CP L i (⟨.colon, l⟩ :: ⟨.id x, l'⟩ :: ⟨.lp, l''⟩ :: m) b) (ha : Ev (fun n => args L n m) (a, r)) : CP L i r (.method b x false a) := by
  intro p y h5
  refine h p y (.succ ?_)
  simp only [loop, hb, if_true, ident, Option.bind_some, hd, List.head?_cons, Option.map_some, bareStart, Bool.false_eq_true, if_false, req]
  exact .bind ha h5

theorem cp_methodBare {i m r : List T} {l l' : Nat} {x : Nm} {b e : Ex} (hb : isPre b = true)
    (h : CP L i (⟨.colon, l⟩ :: ⟨.id x, l'⟩ :: m) b) (hs : bareStart (hd m) = true) (ha : Ev (fun n => core L n m) (e, r)) :
    CP L i r (.method b x true (.cons e .nil)) := by
  intro p y h5
  refine h p y (.succ ?_)
  simp only [loop, hb, if_true, ident, Option.bind_some, hs]
  exact .bind ha h5

theorem bare_start {i r : List T} {e : Ex} (h : Bare L i r e) : bareStart (hd i) = true := by cases h <;> rfl

theorem core_table {l : Nat} {m r : List T} {t : Its} (h : Ev (fun n => items L n m) (t, r)) : Ev (fun n => core L n (⟨.lc, l⟩ :: m)) (.table t, r) := by
  refine .succ ?_
  simp only [core]
  exact .map h

theorem core_func {l : Nat} {m r : List T} {ps : List Param} {b : Block} (h : Ev (fun n => func L n m) ((ps, b), r)) :
    Ev (fun n => core L n (⟨.kFunction, l⟩ :: m)) (.func ps b, r) := by
  refine .succ ?_
  simp only [core]
  exact .map h

theorem args_nil {l : Nat} {r : List T} : Ev (fun n => args L n (⟨.rp, l⟩ :: r)) (.nil, r) := by
  refine .succ ?_
  simp only [args, hd, List.head?_cons, Option.map_some, if_true, List.tail_cons]
  exact .const

theorem start_hd {i : List T} (h : ∃ t s, i = t :: s ∧ Start t.k = true) {k : K} (hk : Start k = false) : hd i ≠ some k := by
  obtain ⟨t, s, rfl, h⟩ := h
  intro h'
  simp only [hd, List.head?_cons, Option.map_some, Option.some.injEq] at h'
  rw [h', hk] at h; cases h

theorem args_some {i r : List T} {l : Nat} {es : Exs} (hs : ∃ t s, i = t :: s ∧ Start t.k = true) (h : Ev (fun n => exprs L n i) (es, ⟨.rp, l⟩ :: r)) :
    Ev (fun n => args L n i) (es, r) := by
  refine .succ ?_
  simp only [args, if_neg (start_hd hs (k := .rp) rfl)]
  refine .bind h ?_
  simp only [req, if_true]
  exact .const

theorem exprs_one {i r : List T} {e : Ex} (h : CE L 1 i r e) (hd' : Done L e r) (hc : ¬ Next (· = .comma) r) : Ev (fun n => exprs L n i) (.cons e .nil, r) := by
  refine .succ ?_
  simp only [exprs]
  rw [next_eq] at hc
  refine .bind (ce_done h hd') ?_
  simp only [if_neg hc]
  exact .const

theorem exprs_cons {i m r : List T} {l : Nat} {e : Ex} {es : Exs} (h : CE L 1 i (⟨.comma, l⟩ :: m) e) (h2 : Ev (fun n => exprs L n m) (es, r)) :
    Ev (fun n => exprs L n i) (.cons e es, r) := by
  refine .succ ?_
  simp only [exprs]
  refine .bind (ce_plain h rfl) ?_
  simp only [hd, List.head?_cons, Option.map_some, if_true, List.tail_cons]
  exact .map h2

theorem after_hd {i r : List T} {t : Its} (h : After L i r t) : ∃ k l s, i = ⟨k, l⟩ :: s ∧ (k = .rc ∨ k = .semi ∨ k = .comma) := by
  cases h
  · exact ⟨_, _, _, rfl, .inl rfl⟩
  · exact ⟨_, _, _, rfl, .inr (.inl rfl)⟩
  · exact ⟨_, _, _, rfl, .inr (.inr rfl)⟩

theorem ce_after {i m r : List T} {e : Ex} {t : Its} (h : CE L 1 i m e) (ha : After L m r t) : Ev (fun n => expr L n none i) (e, m) := by
  obtain ⟨k, l, s, rfl, hk⟩ := after_hd ha
  exact ce_plain h (by rcases hk with rfl | rfl | rfl <;> rfl)

theorem items_nil {l : Nat} {r : List T} : Ev (fun n => items L n (⟨.rc, l⟩ :: r)) (.nil, r) := by
  refine .succ ?_
  simp only [items, hd, List.head?_cons, Option.map_some, if_true, List.tail_cons]
  exact .const

theorem items_pos {i m r : List T} {e : Ex} {t : Its} (hb : Begins i m) (he : CE L 1 i m e) (ha : After L m r t) (h : Ev (fun n => itemSep L n m) (t, r)) :
    Ev (fun n => items L n i) (.pos e t, r) := by
  have hst : ∃ t s, i = t :: s ∧ Start t.k = true := by obtain ⟨t, s, h1, h2, -⟩ := hb; exact ⟨t, s, h1, h2⟩
  have hne : hd i.tail ≠ some .eq := by
    obtain ⟨t, s, rfl, h1, h2⟩ := hb
    intro h
    have := h2 h
    obtain ⟨k, l, s', hm, hk⟩ := after_hd ha
    rw [List.tail_cons, ← this, hm] at h
    rcases hk with rfl | rfl | rfl <;> simp [hd] at h
  refine .succ ?_
  simp only [items, if_neg (start_hd hst (k := .rc) rfl), if_neg (start_hd hst (k := .lb) rfl), if_neg hne]
  exact .bind (ce_after he ha) (.map h)

theorem items_named {x : Nm} {l l' : Nat} {i m r : List T} {e : Ex} {t : Its} (he : CE L 1 i m e) (ha : After L m r t)
    (h : Ev (fun n => itemSep L n m) (t, r)) : Ev (fun n => items L n (⟨.id x, l⟩ :: ⟨.eq, l'⟩ :: i)) (.named x e t, r) := by
  refine .succ ?_
  simp only [items, hd, List.head?_cons, Option.map_some, List.tail_cons, Option.some.injEq, reduceCtorEq, if_false, if_true, ident, Option.bind_some]
  exact .bind (ce_after he ha) (.map h)

theorem items_keyed {l l' l'' : Nat} {i j m r : List T} {k e : Ex} {t : Its} (hk : CE L 1 j (⟨.rb, l'⟩ :: ⟨.eq, l''⟩ :: i) k) (he : CE L 1 i m e)
    (ha : After L m r t) (h : Ev (fun n => itemSep L n m) (t, r)) : Ev (fun n => items L n (⟨.lb, l⟩ :: j)) (.keyed k e t, r) := by
  refine .succ ?_
  simp only [items, hd, List.head?_cons, Option.map_some, List.tail_cons, Option.some.injEq, reduceCtorEq, if_false, if_true]
  refine .bind (ce_plain hk rfl) ?_
  simp only [req, if_true, Option.bind_some]
  exact .bind (ce_after he ha) (.map h)

theorem sep_close {l : Nat} {r : List T} : Ev (fun n => itemSep L n (⟨.rc, l⟩ :: r)) (.nil, r) := by
  refine .succ ?_
  simp only [itemSep, hd, List.head?_cons, Option.map_some, if_true, List.tail_cons]
  exact .const

theorem sep_more {k : K} {l : Nat} {m r : List T} {t : Its} (hk : k = .semi ∨ k = .comma) (h : Ev (fun n => items L n m) (t, r)) :
    Ev (fun n => itemSep L n (⟨k, l⟩ :: m)) (t, r) := by
  refine .succ ?_
  rcases hk with rfl | rfl <;>
    simp only [itemSep, hd, List.head?_cons, Option.map_some, List.tail_cons, Option.some.injEq, reduceCtorEq, if_false, true_or, or_true, if_true] <;> exact h

theorem pars_ev {i r : List T} {ps : List Param} (h : Pars i r ps) : params1 i = some (ps, r) := by
  induction h with
  | one h => cases h <;> simp [params1, paramOf]
  | cons h _ ih => cases h <;> simp [params1, paramOf, ih]

theorem params_ev {i r : List T} {ps : List Param} (h : Params i r ps) : params i = some (ps, r) := by
  cases h with
  | nil => simp [params, hd]
  | some h =>
    unfold params
    rw [if_neg]
    · exact pars_ev h
    · cases h with
      | one h => cases h <;> simp [hd]
      | cons h _ => cases h <;> simp [hd]

theorem func_ev {l l' : Nat} {i m r : List T} {ps : List Param} {b : Block} (hp : Params i m ps) (hb : Ev (fun n => block L n none m) (b, ⟨.kEnd, l'⟩ :: r)) :
    Ev (fun n => func L n (⟨.lp, l⟩ :: i)) ((ps, b), r) := by
  refine .succ ?_
  simp only [func, req, if_true, Option.bind_some, params_ev hp]
  refine .bind hb ?_
  simp only [if_true, Option.map_some]
  exact .const

theorem block_nil {v : Option Nat} {r : List T} (h : r = [] ∨ Later v r ∨ Next Closes r) : Ev (fun n => block L n v r) (.nil, r) := by
  refine .succ ?_
  rw [← later_iff, ← blockEnd_iff] at h
  simp only [block, if_pos h]
  exact .const

theorem block_semi {v : Option Nat} {l : Nat} {m r : List T} {b : Block} (hv : ¬ Later v (⟨.semi, l⟩ :: m)) (h : Ev (fun n => block L n v m) (b, r)) :
    Ev (fun n => block L n v (⟨.semi, l⟩ :: m)) (.semi b, r) := by
  refine .succ ?_
  rw [← later_iff] at hv
  have : ¬ ((⟨.semi, l⟩ :: m : List T) = [] ∨ later v (⟨.semi, l⟩ :: m) = true ∨ isBlockEnd (some .semi) = true) := by
    rintro (h | h | h)
    · cases h
    · exact hv h
    · simp [isBlockEnd] at h
  simp only [block, hd, List.head?_cons, Option.map_some, if_true, List.tail_cons, if_neg this]
  exact h.map

theorem block_cons {v : Option Nat} {i m r : List T} {s : St} {b : Block} (hv : ¬ Later v i)
    (hi : ∃ t q, i = t :: q ∧ ¬ Closes t.k ∧ t.k ≠ .semi) (hs : Ev (fun n => stmt L n v i) (s, m))
    (h : Ev (fun n => block L n v m) (b, r)) : Ev (fun n => block L n v i) (.cons s b, r) := by
  obtain ⟨t, q, rfl, h1, h2⟩ := hi
  refine .succ ?_
  rw [← later_iff] at hv
  have : ¬ ((t :: q : List T) = [] ∨ later v (t :: q) = true ∨ isBlockEnd (hd (t :: q)) = true) := by
    rintro (h | h | h)
    · cases h
    · exact hv h
    · rw [blockEnd_iff, next_cons] at h; exact h1 h
  have h3 : hd (t :: q) ≠ some .semi := by simpa [hd] using h2
  simp only [block, if_neg this, if_neg h3]
  exact .bind hs (.map h)

theorem start_stmt {i : List T} (h : ∃ t s, i = t :: s ∧ Start t.k = true) : ∃ t q, i = t :: q ∧ ¬ Closes t.k ∧ t.k ≠ .semi := by
  obtain ⟨t, s, rfl, h⟩ := h
  refine ⟨t, s, rfl, ?_, ?_⟩
  · rintro (h' | h' | h' | h') <;> rw [h'] at h <;> simp [Start] at h
  · intro h'; rw [h'] at h; simp [Start] at h

theorem P_start {i r : List T} {e : Ex} (h : P L i r e) : ∃ t s, i = t :: s ∧ Start t.k = true := by
  obtain ⟨t, s, h1, h2, -⟩ := P_begins h; exact ⟨t, s, h1, h2⟩

theorem E_start {k : Nat} {i r : List T} {e : Ex} (h : E L k i r e) : ∃ t s, i = t :: s ∧ Start t.k = true := by
  obtain ⟨t, s, h1, h2, -⟩ := E_begins h; exact ⟨t, s, h1, h2⟩

theorem S_start {v : Option Nat} {i r : List T} {s : St} (h : S L v i r s) : ∃ t q, i = t :: q ∧ ¬ Closes t.k ∧ t.k ≠ .semi := by
  cases h with
  | assign _ h _ _ => exact start_stmt (Es_begins h)
  | opassign _ h _ _ => exact start_stmt (E_start h)
  | call h _ _ => exact start_stmt (P_start h)
  | method h _ _ => exact start_stmt (P_start h)
  | _ => exact ⟨_, _, rfl, by simp [Closes], by simp⟩

theorem stmt_misc {v : Option Nat} {i : List T} {x : St × List T} (hs : ∃ t s, i = t :: s ∧ Start t.k = true) (hf : ¬ Next (· = .kFunction) i)
    (h : Ev (fun n => misc L n i) x) : Ev (fun n => stmt L n v i) x := by
  obtain ⟨⟨k, l⟩, s, rfl, hs⟩ := hs
  rw [next_cons] at hf
  refine .succ (h.congr fun n => ?_)
  cases k <;> simp [Start] at hs <;> first | rfl | exact absurd rfl hf

theorem misc_assign1 {i m r : List T} {l : Nat} {t : Ex} {es : Exs} (ht : CE L 1 i (⟨.eq, l⟩ :: m) t) (he : Ev (fun n => exprs L n m) (es, r)) :
    Ev (fun n => misc L n i) (.assign (.cons t .nil) es, r) := by
  refine .succ ?_
  simp only [misc]
  refine .bind (ce_plain ht rfl) ?_
  simp only [hd, List.head?_cons, Option.map_some, List.tail_cons]
  exact .map he

theorem misc_assign2 {i m q r : List T} {l l' : Nat} {t : Ex} {ts es : Exs} (ht : CE L 1 i (⟨.comma, l⟩ :: m) t)
    (hts : Ev (fun n => exprs L n m) (ts, ⟨.eq, l'⟩ :: q)) (he : Ev (fun n => exprs L n q) (es, r)) :
    Ev (fun n => misc L n i) (.assign (.cons t ts) es, r) := by
  refine .succ ?_
  simp only [misc]
  refine .bind (ce_plain ht rfl) ?_
  simp only [hd, List.head?_cons, Option.map_some, List.tail_cons]
  refine .bind hts ?_
  simp only [req, if_true, Option.bind_some]
  exact .map he

theorem misc_opassign {i m r : List T} {o : Op} {l : Nat} {t e : Ex} (ht : CE L 1 i (⟨.opeq o, l⟩ :: m) t) (he : CE L 1 m r e) (hd' : Done L e r) :
    Ev (fun n => misc L n i) (.opassign o t e, r) := by
  refine .succ ?_
  simp only [misc]
  refine .bind (ce_plain ht rfl) ?_
  simp only [hd, List.head?_cons, Option.map_some, List.tail_cons]
  exact .map (ce_done he hd')

theorem misc_call {i r : List T} {e : Ex} (h : CP L i r e) (hc : isCall e = true) (hd' : Done L e r)
    (hn : ¬ Next (fun k => k = .comma ∨ k = .eq ∨ ∃ o, k = .opeq o) r) : Ev (fun n => misc L n i) (.call e, r) := by
  refine .succ ?_
  simp only [misc]
  refine .bind (ce_done (ce_up (ce_up (ce_up (ce_up (ce_up (ce_up (ce_up (ce_up (ce_up (ce_up (ce_up (ce_up (ce_pre h))))))))))))) hd') ?_
  rw [next_iff] at hn
  simp only
  split
  · rename_i h; exact absurd ⟨_, h, .inl rfl⟩ hn
  · rename_i h; exact absurd ⟨_, h, .inr (.inl rfl)⟩ hn
  · rename_i h; exact absurd ⟨_, h, .inr (.inr ⟨_, rfl⟩)⟩ hn
  · simp only [hc, if_true]; exact .const

theorem lastOf_closed {l : Nat} {m n : List T} (h : ClosedOn l m n) : lastOf m n = some ⟨.rp, l⟩ := by
  obtain ⟨p, rfl⟩ := h
  unfold lastOf
  rw [show (p ++ ⟨.rp, l⟩ :: n).length - n.length = (p ++ [(⟨.rp, l⟩ : T)]).length by simp; omega,
    show p ++ ⟨.rp, l⟩ :: n = (p ++ [⟨.rp, l⟩]) ++ n by simp, List.take_left]
  simp

theorem ifs_long {m n p r : List T} {k : K} {l : Nat} {c : Ex} {b : Block} {t : Tail} (hc : CE L 1 m (⟨k, l⟩ :: n) c) (hk : Then L k)
    (hb : Ev (fun f => block L f none n) (b, p)) (ht : Ev (fun f => tail L f p) (t, r)) : Ev (fun f => ifs L f m) (.long c b t, r) := by
  refine .succ ?_
  simp only [ifs]
  refine .bind (ce_plain hc (by rcases hk with rfl | ⟨-, rfl⟩ <;> rfl)) ?_
  have h2 := then_iff (L := L).2 ((next_cons (t := ⟨k, l⟩) (r := n)).2 hk)
  simp only [if_pos h2, List.tail_cons]
  exact .bind hb (.map ht)

theorem ifs_short {m n r : List T} {l : Nat} {c : Ex} {b : Block} {d : Bool} (hc : CE L 1 m n c) (hd' : Done L c n) (ht : ¬ Next (Then L) n)
    (hl : ClosedOn l m n) (hb : Ev (fun f => block L f (some l) n) (b, r)) (hn : ¬ (OnLine l r ∧ Next (· = .kElse) r)) (hdd : d = true ↔ OnLine l r) :
    Ev (fun f => ifs L f m) (.short c b d, r) := by
  refine .succ ?_
  simp only [ifs]
  refine .bind (ce_done hc hd') ?_
  rw [← then_iff] at ht
  simp only [if_neg ht, lastOf_closed hl, if_true]
  refine .bind hb ?_
  rw [next_eq, ← sameLine_iff] at hn
  have hs : sameLine l r = d := Bool.eq_iff_iff.2 (sameLine_iff.trans hdd.symm)
  simp only [if_neg hn]
  rw [hs]
  exact .const

theorem ifs_shortElse {m n p r : List T} {l : Nat} {c : Ex} {b e : Block} {d : Bool} (hc : CE L 1 m n c) (hd' : Done L c n) (ht : ¬ Next (Then L) n)
    (hl : ClosedOn l m n) (hb : Ev (fun f => block L f (some l) n) (b, ⟨.kElse, l⟩ :: p)) (he : Ev (fun f => block L f (some l) p) (e, r))
    (hdd : d = true ↔ OnLine l r) : Ev (fun f => ifs L f m) (.shortElse c b e d, r) := by
  refine .succ ?_
  simp only [ifs]
  refine .bind (ce_done hc hd') ?_
  rw [← then_iff] at ht
  simp only [if_neg ht, lastOf_closed hl, if_true]
  refine .bind hb ?_
  have hs : sameLine l r = d := Bool.eq_iff_iff.2 (sameLine_iff.trans hdd.symm)
  subst hs
  simp only [sameLine, hd, List.head?_cons, Option.map_some, decide_true, and_self, if_true, List.tail_cons]
  exact .map he

theorem tail_end {l : Nat} {r : List T} : Ev (fun f => tail L f (⟨.kEnd, l⟩ :: r)) (.end_, r) := by
  refine .succ ?_
  simp only [tail, hd, List.head?_cons, Option.map_some, Option.some.injEq, reduceCtorEq, if_false, req, if_true]
  exact .const

theorem tail_else {l l' : Nat} {m r : List T} {b : Block} (hb : Ev (fun f => block L f none m) (b, ⟨.kEnd, l'⟩ :: r)) :
    Ev (fun f => tail L f (⟨.kElse, l⟩ :: m)) (.else_ b, r) := by
  refine .succ ?_
  simp only [tail, hd, List.head?_cons, Option.map_some, if_true, List.tail_cons]
  refine .bind hb ?_
  simp only [req, if_true, Option.map_some]
  exact .const

theorem tail_elseif {l : Nat} {m r : List T} {i : If} (hi : Ev (fun f => ifs L f m) (i, r)) : Ev (fun f => tail L f (⟨.kElseif, l⟩ :: m)) (.elseif_ i, r) := by
  refine .succ ?_
  simp only [tail, hd, List.head?_cons, Option.map_some, Option.some.injEq, reduceCtorEq, if_false, if_true, List.tail_cons]
  exact .map hi

theorem names_ev {i r : List T} {xs : List Nm} (h : Names i r xs) (hn : ¬ Next (· = .comma) r) : names i = some (xs, r) := by
  induction h with
  | @one x l r =>
    cases r with
    | nil => rfl
    | cons t r =>
      obtain ⟨k, l⟩ := t
      rw [next_cons] at hn
      cases k <;> first | rfl | exact absurd rfl hn
  | cons h ih => simp [names, ih hn]

theorem attr_ev {i r : List T} {a : Option Nm} (h : Attr L i r a) : attr L i = some (a, r) := by
  cases h with
  | none h =>
    cases i with
    | nil => rfl
    | cons t i =>
      obtain ⟨k, l⟩ := t
      cases k with
      | op o =>
        cases o with
        | lt =>
          cases L with
          | pico8 => simp [attr]
          | picotron => exact absurd ((next_cons (P := (· = .op .lt))).2 rfl) (h rfl)
        | _ => rfl
      | _ => rfl
  | some h1 h2 => simp only [attr, h1, if_true, if_pos h2]

theorem locals_ev {i r : List T} {xs : List (Nm × Option Nm)} (h : Locals L i r xs) : Ev (fun n => locals L n i) (xs, r) := by
  induction h with
  | one h hn =>
    refine .succ ?_
    rw [next_eq] at hn
    simp only [locals, ident, Option.bind_some, attr_ev h, if_neg hn]
    exact .const
  | cons h _ ih =>
    refine .succ ?_
    simp only [locals, ident, Option.bind_some, attr_ev h, hd, List.head?_cons, Option.map_some, if_true, List.tail_cons]
    exact .map ih

theorem keys_ev {i r : List T} {xs : List Nm} (h : Keys i r xs) : fnKeys i = some (xs, r) := by
  induction h with
  | @nil r hn =>
    cases r with
    | nil => rfl
    | cons t r =>
      obtain ⟨k, l⟩ := t
      rw [next_cons] at hn
      cases k <;> first | rfl | exact absurd rfl hn
  | cons h ih => simp [fnKeys, ih]

theorem name_ev {i r : List T} {f : FnName} (h : Name i r f) : fnName i = some (f, r) := by
  cases h with
  | func h hn =>
    rw [next_eq] at hn
    simp only [fnName, ident, Option.bind_some, keys_ev h, if_neg hn]
  | method h =>
    simp only [fnName, ident, Option.bind_some, keys_ev h, hd, List.head?_cons, Option.map_some, if_true, List.tail_cons]

theorem stmt_do {v : Option Nat} {l l' : Nat} {m r : List T} {b : Block} (hb : Ev (fun f => block L f none m) (b, ⟨.kEnd, l'⟩ :: r)) :
    Ev (fun f => stmt L f v (⟨.kDo, l⟩ :: m)) (.do_ b, r) := by
  refine .succ ?_
  simp only [stmt]
  refine .bind hb ?_
  simp only [req, if_true, Option.map_some]
  exact .const

theorem stmt_if {v : Option Nat} {l : Nat} {m r : List T} {i : If} (hi : Ev (fun f => ifs L f m) (i, r)) :
    Ev (fun f => stmt L f v (⟨.kIf, l⟩ :: m)) (.if_ i, r) := by
  refine .succ ?_
  simp only [stmt]
  exact .map hi

theorem stmt_while {v : Option Nat} {l l' l'' : Nat} {m n r : List T} {c : Ex} {b : Block} (hc : CE L 1 m (⟨.kDo, l'⟩ :: n) c)
    (hb : Ev (fun f => block L f none n) (b, ⟨.kEnd, l''⟩ :: r)) : Ev (fun f => stmt L f v (⟨.kWhile, l⟩ :: m)) (.while_ c b, r) := by
  refine .succ ?_
  simp only [stmt]
  refine .bind (ce_plain hc rfl) ?_
  simp only [hd, List.head?_cons, Option.map_some, if_true, List.tail_cons]
  refine .bind hb ?_
  simp only [req, if_true, Option.map_some]
  exact .const

theorem stmt_whileShort {v : Option Nat} {l l' : Nat} {m n r : List T} {c : Ex} {b : Block} {d : Bool} (hc : CE L 1 m n c) (hd' : Done L c n)
    (ht : ¬ Next (· = .kDo) n) (hl : ClosedOn l' m n) (hb : Ev (fun f => block L f (some l') n) (b, r)) (hdd : d = true ↔ OnLine l' r) :
    Ev (fun f => stmt L f v (⟨.kWhile, l⟩ :: m)) (.whileShort c b d, r) := by
  refine .succ ?_
  simp only [stmt]
  refine .bind (ce_done hc hd') ?_
  rw [next_eq] at ht
  have hs : sameLine l' r = d := Bool.eq_iff_iff.2 (sameLine_iff.trans hdd.symm)
  subst hs
  simp only [if_neg ht, lastOf_closed hl, if_true]
  exact .map hb

theorem stmt_repeat {v : Option Nat} {l l' : Nat} {m n r : List T} {c : Ex} {b : Block} (hb : Ev (fun f => block L f none m) (b, ⟨.kUntil, l'⟩ :: n))
    (hc : CE L 1 n r c) (hd' : Done L c r) : Ev (fun f => stmt L f v (⟨.kRepeat, l⟩ :: m)) (.repeat_ b c, r) := by
  refine .succ ?_
  simp only [stmt]
  refine .bind hb ?_
  simp only [req, if_true, Option.bind_some]
  exact .map (ce_done hc hd')

theorem stmt_fornum {v : Option Nat} {l l1 l2 l3 l4 l5 : Nat} {x : Nm} {m n q r : List T} {a b : Ex} {d : Block} (ha : CE L 1 m (⟨.comma, l3⟩ :: n) a)
    (hb : CE L 1 n (⟨.kDo, l4⟩ :: q) b) (h : Ev (fun f => block L f none q) (d, ⟨.kEnd, l5⟩ :: r)) :
    Ev (fun f => stmt L f v (⟨.kFor, l⟩ :: ⟨.id x, l1⟩ :: ⟨.eq, l2⟩ :: m)) (.fornum x a b .nil d, r) := by
  refine .succ ?_
  simp only [stmt, List.tail_cons, hd, List.head?_cons, Option.map_some, if_true, ident, Option.bind_some, req]
  refine .bind (ce_plain ha rfl) ?_
  simp only [if_true, Option.bind_some]
  refine .bind (ce_plain hb rfl) ?_
  simp only [List.head?_cons, Option.map_some, Option.some.injEq, reduceCtorEq, if_false, Option.bind_some, if_true]
  refine .bind h ?_
  simp only [if_true, Option.map_some]
  exact .const

theorem stmt_forstep {v : Option Nat} {l l1 l2 l3 l4 l5 l6 : Nat} {x : Nm} {m n p q r : List T} {a b c : Ex} {d : Block}
    (ha : CE L 1 m (⟨.comma, l3⟩ :: n) a) (hb : CE L 1 n (⟨.comma, l4⟩ :: p) b) (hc : CE L 1 p (⟨.kDo, l5⟩ :: q) c)
    (h : Ev (fun f => block L f none q) (d, ⟨.kEnd, l6⟩ :: r)) :
    Ev (fun f => stmt L f v (⟨.kFor, l⟩ :: ⟨.id x, l1⟩ :: ⟨.eq, l2⟩ :: m)) (.fornum x a b (.cons c .nil) d, r) := by
  refine .succ ?_
  simp only [stmt, List.tail_cons, hd, List.head?_cons, Option.map_some, if_true, ident, Option.bind_some, req]
  refine .bind (ce_plain ha rfl) ?_
  simp only [if_true, Option.bind_some]
  refine .bind (ce_plain hb rfl) ?_
  simp only [List.head?_cons, Option.map_some, if_true, List.tail_cons]
  refine .bind (.map (ce_plain hc rfl)) ?_
  simp only [if_true, Option.bind_some]
  refine .bind h ?_
  simp only [if_true, Option.map_some]
  exact .const

theorem stmt_forin {v : Option Nat} {l l1 l2 l3 : Nat} {i m q r : List T} {xs : List Nm} {es : Exs} {d : Block} (hx : Names i (⟨.kIn, l1⟩ :: m) xs)
    (he : Ev (fun f => exprs L f m) (es, ⟨.kDo, l2⟩ :: q)) (h : Ev (fun f => block L f none q) (d, ⟨.kEnd, l3⟩ :: r)) :
    Ev (fun f => stmt L f v (⟨.kFor, l⟩ :: i)) (.forin xs es d, r) := by
  refine .succ ?_
  have h1 : hd i.tail ≠ some .eq := by cases hx <;> simp [hd]
  have h2 := names_ev hx (by rw [next_cons]; simp)
  simp only [stmt, if_neg h1, h2, Option.bind_some, req, if_true]
  refine .bind he ?_
  simp only [if_true, Option.bind_some]
  refine .bind h ?_
  simp only [if_true, Option.map_some]
  exact .const

theorem stmt_return0 {v : Option Nat} {l : Nat} {r : List T} (h : Next Closes r ∨ Next (· = .semi) r ∨ Later v r) :
    Ev (fun f => stmt L f v (⟨.kReturn, l⟩ :: r)) (.return_ .nil, r) := by
  refine .succ ?_
  have : (isBlockEnd (hd r) || decide (hd r = some .semi) || later v r) = true := by
    simp only [Bool.or_eq_true, blockEnd_iff, later_iff, decide_eq_true_eq, ← next_eq]
    rcases h with h | h | h
    · exact .inl (.inl h)
    · exact .inl (.inr h)
    · exact .inr h
  simp only [stmt, this, if_true]
  exact .const

theorem stmt_return {v : Option Nat} {l : Nat} {m r : List T} {es : Exs} (hv : ¬ Later v m) (hs : ∃ t s, m = t :: s ∧ Start t.k = true)
    (he : Ev (fun f => exprs L f m) (es, r)) : Ev (fun f => stmt L f v (⟨.kReturn, l⟩ :: m)) (.return_ es, r) := by
  refine .succ ?_
  have h1 : isBlockEnd (hd m) = false := by
    cases hb : isBlockEnd (hd m) with
    | false => rfl
    | true =>
      rw [blockEnd_iff] at hb
      obtain ⟨t, q, rfl, h1, h2⟩ := start_stmt hs
      exact absurd (next_cons.1 hb) h1
  have h2 := start_hd hs (k := .semi) rfl
  have h3 : later v m = false := by
    cases hb : later v m with
    | false => rfl
    | true => exact absurd (later_iff.1 hb) hv
  simp only [stmt, h1, h2, h3, decide_false, Bool.or_self, Bool.false_eq_true, if_false]
  exact .map he

theorem stmt_local {v : Option Nat} {l : Nat} {m r : List T} {xs : List (Nm × Option Nm)} (h : Locals L m r xs) (hn : ¬ Next (· = .eq) r) :
    Ev (fun f => stmt L f v (⟨.kLocal, l⟩ :: m)) (.local_ xs .nil, r) := by
  refine .succ ?_
  have h1 : hd m ≠ some .kFunction := by cases h <;> simp [hd]
  rw [next_eq] at hn
  simp only [stmt, if_neg h1]
  refine .bind (locals_ev h) ?_
  simp only [if_neg hn]
  exact .const

theorem stmt_localAssign {v : Option Nat} {l l' : Nat} {m n r : List T} {xs : List (Nm × Option Nm)} {es : Exs}
    (h : Locals L m (⟨.eq, l'⟩ :: n) xs) (he : Ev (fun f => exprs L f n) (es, r)) : Ev (fun f => stmt L f v (⟨.kLocal, l⟩ :: m)) (.local_ xs es, r) := by
  refine .succ ?_
  have h1 : hd m ≠ some .kFunction := by cases h <;> simp [hd]
  simp only [stmt, if_neg h1]
  refine .bind (locals_ev h) ?_
  simp only [hd, List.head?_cons, Option.map_some, if_true, List.tail_cons]
  exact .map he

theorem stmt_localfn {v : Option Nat} {l l' l'' : Nat} {x : Nm} {m r : List T} {ps : List Param} {b : Block}
    (h : Ev (fun f => func L f m) ((ps, b), r)) : Ev (fun f => stmt L f v (⟨.kLocal, l⟩ :: ⟨.kFunction, l'⟩ :: ⟨.id x, l''⟩ :: m)) (.localfn x ps b, r) := by
  refine .succ ?_
  simp only [stmt, hd, List.head?_cons, Option.map_some, if_true, List.tail_cons, ident, Option.bind_some]
  exact .map h

theorem stmt_func {v : Option Nat} {l : Nat} {i m r : List T} {f : FnName} {ps : List Param} {b : Block} (hn : Name i m f)
    (h : Ev (fun f => func L f m) ((ps, b), r)) : Ev (fun n => stmt L n v (⟨.kFunction, l⟩ :: i)) (.func f ps b, r) := by
  refine .succ ?_
  simp only [stmt, name_ev hn, Option.bind_some]
  exact .map h

theorem stmt_print {v : Option Nat} {l : Nat} {m r : List T} {es : Exs} (he : Ev (fun f => exprs L f m) (es, r))
    (hn : ¬ Next (fun k => Suffix k ∨ (∃ o, k = .op o ∧ Binary L o) ∨ k = .comma ∨ k = .eq ∨ ∃ o, k = .opeq o) r) :
    Ev (fun n => stmt L n v (⟨.quest, l⟩ :: m)) (.print es, r) := by
  refine .succ ?_
  simp only [stmt]
  refine .bind he ?_
  rw [← continues_iff] at hn
  simp only [if_neg hn]
  exact .const

theorem doneList_print {r : List T} (h : ¬ Next (fun k => Suffix k ∨ (∃ o, k = .op o ∧ Binary L o) ∨ k = .comma ∨ k = .eq ∨ ∃ o, k = .opeq o) r)
    (es : Exs) : DoneList L es r := by
  refine doneList_of (fun e => ⟨fun ⟨t, q, h1, h2⟩ => h ⟨t, q, h1, .inr (.inl h2)⟩, fun _ ⟨t, q, h1, h2⟩ => h ⟨t, q, h1, .inl h2⟩⟩) ?_ es
  exact fun ⟨t, q, h1, h2⟩ => h ⟨t, q, h1, .inr (.inr (.inl h2))⟩

theorem not_fn : ∀ {i r : List T} {e : Ex}, P L i r e → hd i ≠ some .kFunction
  | _, _, _, .var => by simp [hd]
  | _, _, _, .group _ => by simp [hd]
  | _, _, _, .member h => not_fn h
  | _, _, _, .index h _ => not_fn h
  | _, _, _, .call h _ => not_fn h
  | _, _, _, .callBare h _ => not_fn h
  | _, _, _, .method h _ => not_fn h
  | _, _, _, .methodBare h _ => not_fn h

mutual
theorem E_ev : ∀ {k : Nat} {i r : List T} {e : Ex}, E L k i r e → CE L k i r e
  | _, _, _, _, .up h => ce_up (E_ev h)
  | _, _, _, _, .left ho hl h1 h2 => ce_left ho hl (E_ev h1) (E_ev h2)
  | _, _, _, _, .concat h1 h2 => ce_concat (E_ev h1) (E_ev h2)
  | _, _, _, _, .un ho h => ce_un ho (E_ev h)
  | _, _, _, _, .pow h1 h2 => ce_pow (E_ev h1) (E_ev h2)
  | _, _, _, _, .cst => ce_core (.succ .const)
  | _, _, _, _, .num => ce_core (.succ .const)
  | _, _, _, _, .str => ce_core (.succ .const)
  | _, _, _, _, .dots => ce_core (.succ .const)
  | _, _, _, _, .table h => ce_core (core_table (Items_ev h))
  | _, _, _, _, .func h => ce_core (core_func (Body_ev h))
  | _, _, _, _, .pre h => ce_pre (P_ev h)
theorem P_ev : ∀ {i r : List T} {e : Ex}, P L i r e → CP L i r e
  | _, _, _, .var => cp_var
  | _, _, _, .group h => cp_group (E_ev h)
  | _, _, _, .member h => cp_member (P_pre h) (P_ev h)
  | _, _, _, .index h he => cp_index (P_pre h) (P_ev h) (E_ev he)
  | _, _, _, .call h ha => cp_call (P_pre h) (P_ev h) (Args_ev ha)
  | _, _, _, .callBare h hb => cp_callBare (P_pre h) (P_ev h) (bare_start hb) (Bare_ev hb)
  | _, _, _, .method h ha => cp_method (P_pre h) (P_ev h) (Args_ev ha)
  | _, _, _, .methodBare h hb => cp_methodBare (P_pre h) (P_ev h) (bare_start hb) (Bare_ev hb)
theorem Bare_ev : ∀ {i r : List T} {e : Ex}, Bare L i r e → Ev (fun n => core L n i) (e, r)
  | _, _, _, .str => .succ .const
  | _, _, _, .table h => core_table (Items_ev h)
theorem Args_ev : ∀ {i r : List T} {a : Exs}, Args L i r a → Ev (fun n => args L n i) (a, r)
  | _, _, _, .nil => args_nil
  | _, _, _, .some h => args_some (Es_begins h) (Es_ev h (doneList_plain rfl (by simp) _))
theorem Es_ev : ∀ {i r : List T} {es : Exs}, Es L i r es → DoneList L es r → Ev (fun n => exprs L n i) (es, r)
  | _, _, _, .one h, hd => exprs_one (E_ev h) hd.1 hd.2
  | _, _, .cons _ .nil, .cons _ h2, _ => absurd rfl (es_ne h2)
  | _, _, .cons _ (.cons _ _), .cons h h2, hd => exprs_cons (E_ev h) (Es_ev h2 hd)
theorem Items_ev : ∀ {i r : List T} {t : Its}, Items L i r t → Ev (fun n => items L n i) (t, r)
  | _, _, _, .nil => items_nil
  | _, _, _, .pos he ha => items_pos (E_begins he) (E_ev he) ha (After_ev ha)
  | _, _, _, .named he ha => items_named (E_ev he) ha (After_ev ha)
  | _, _, _, .keyed hk he ha => items_keyed (E_ev hk) (E_ev he) ha (After_ev ha)
theorem After_ev : ∀ {i r : List T} {t : Its}, After L i r t → Ev (fun n => itemSep L n i) (t, r)
  | _, _, _, .close => sep_close
  | _, _, _, .semi h => sep_more (.inl rfl) (Items_ev h)
  | _, _, _, .comma h => sep_more (.inr rfl) (Items_ev h)
theorem Body_ev : ∀ {i r : List T} {ps : List Param} {b : Block}, Body L i r ps b → Ev (fun n => func L n i) ((ps, b), r)
  | _, _, _, _, .mk hp hb => func_ev hp (B_ev hb)
theorem B_ev : ∀ {v : Option Nat} {i r : List T} {b : Block}, B L v i r b → Ev (fun n => block L n v i) (b, r)
  | _, _, _, _, .nil h => block_nil h
  | _, _, _, _, .semi hv h => block_semi hv (B_ev h)
  | _, _, _, _, .cons hv hs h => block_cons hv (S_start hs) (S_ev hs) (B_ev h)
theorem S_ev : ∀ {v : Option Nat} {i r : List T} {s : St}, S L v i r s → Ev (fun n => stmt L n v i) (s, r)
  | _, _, _, _, .do_ h => stmt_do (B_ev h)
  | _, _, _, _, .if_ h => stmt_if (I_ev h)
  | _, _, _, _, .while_ hc hb => stmt_while (E_ev hc) (B_ev hb)
  | _, _, _, _, .whileShort hc hd ht hl hb hdd => stmt_whileShort (E_ev hc) hd ht hl (B_ev hb) hdd
  | _, _, _, _, .repeat_ hb hc hd => stmt_repeat (B_ev hb) (E_ev hc) hd
  | _, _, _, _, .fornum ha hb h => stmt_fornum (E_ev ha) (E_ev hb) (B_ev h)
  | _, _, _, _, .forstep ha hb hc h => stmt_forstep (E_ev ha) (E_ev hb) (E_ev hc) (B_ev h)
  | _, _, _, _, .forin hx he h => stmt_forin hx (Es_ev he (doneList_plain rfl (by simp) _)) (B_ev h)
  | _, _, _, _, .break_ => .succ .const
  | _, _, _, _, .returnNone h => stmt_return0 h
  | _, _, _, _, .return_ hv he hd => stmt_return hv (Es_begins he) (Es_ev he hd)
  | _, _, _, _, .local_ h hn => stmt_local h hn
  | _, _, _, _, .localAssign h he hd => stmt_localAssign h (Es_ev he hd)
  | _, _, _, _, .localfn h => stmt_localfn (Body_ev h)
  | _, _, _, _, .goto_ => .succ .const
  | _, _, _, _, .label => .succ .const
  | _, _, _, _, .func hn h => stmt_func hn (Body_ev h)
  | _, _, _, _, .assign hf (.one ht) he hd => stmt_misc (E_start ht) hf (misc_assign1 (E_ev ht) (Es_ev he hd))
  | _, _, _, _, .assign hf (.cons ht hts) he hd =>
    stmt_misc (E_start ht) hf (misc_assign2 (E_ev ht) (Es_ev hts (doneList_plain rfl (by simp) _)) (Es_ev he hd))
  | _, _, _, _, .opassign hf ht he hd => stmt_misc (E_start ht) hf (misc_opassign (E_ev ht) (E_ev he) hd)
  | _, _, _, _, .call h hd hn => stmt_misc (P_start h) (by rw [next_eq]; exact not_fn h) (misc_call (P_ev h) rfl hd hn)
  | _, _, _, _, .method h hd hn => stmt_misc (P_start h) (by rw [next_eq]; exact not_fn h) (misc_call (P_ev h) rfl hd hn)
  | _, _, _, _, .print he hn => stmt_print (Es_ev he (doneList_print hn _)) hn
theorem I_ev : ∀ {i r : List T} {s : If}, I L i r s → Ev (fun n => ifs L n i) (s, r)
  | _, _, _, .long hc hk hb ht => ifs_long (E_ev hc) hk (B_ev hb) (Tl_ev ht)
  | _, _, _, .short hc hd ht hl hb hn hdd => ifs_short (E_ev hc) hd ht hl (B_ev hb) hn hdd
  | _, _, _, .shortElse hc hd ht hl hb he hdd => ifs_shortElse (E_ev hc) hd ht hl (B_ev hb) (B_ev he) hdd
theorem Tl_ev : ∀ {i r : List T} {s : Tail}, Tl L i r s → Ev (fun n => tail L n i) (s, r)
  | _, _, _, .end_ => tail_end
  | _, _, _, .else_ h => tail_else (B_ev h)
  | _, _, _, .elseif_ h => tail_elseif (I_ev h)
end

end Verif.Syntax
