import Verif.SyntaxLemmas
/-! What the parser reads is in the grammar. -/
namespace Verif.Syntax
open Paren (Op Lang isUn isBin prec unPrec accepts rightOp)
open LuaGrammar

theorem req_some {k : K} {ts r : List T} : req k ts = some r ↔ ∃ l, ts = ⟨k, l⟩ :: r := by
  cases ts with
  | nil => simp [req]
  | cons t ts =>
    obtain ⟨k', l⟩ := t
    simp only [req]
    split
    · rename_i h; subst h; simp
    · rename_i h
      simp only [reduceCtorEq, List.cons.injEq, T.mk.injEq, false_iff, not_exists]
      rintro l' ⟨⟨h', -⟩, -⟩; exact h h'

theorem ident_some {x : Nm} {ts r : List T} : ident ts = some (x, r) ↔ ∃ l, ts = ⟨.id x, l⟩ :: r := by
  unfold ident
  split
  · rename_i y l r'
    simp only [Option.some.injEq, Prod.mk.injEq, List.cons.injEq, T.mk.injEq, K.id.injEq]
    constructor
    · rintro ⟨rfl, rfl⟩; exact ⟨l, ⟨rfl, rfl⟩, rfl⟩
    · rintro ⟨l', ⟨rfl, _⟩, rfl⟩; exact ⟨rfl, rfl⟩
  · rename_i h
    simp only [reduceCtorEq, false_iff, not_exists]
    intro l hl; exact h _ _ _ hl

theorem hd_some {k : K} {ts : List T} : hd ts = some k ↔ ∃ l m, ts = ⟨k, l⟩ :: m := by
  cases ts with
  | nil => simp [hd]
  | cons t ts =>
    obtain ⟨k', l⟩ := t
    simp only [hd, List.head?_cons, Option.map_some, Option.some.injEq, List.cons.injEq, T.mk.injEq]
    constructor
    · rintro rfl; exact ⟨l, ts, ⟨rfl, rfl⟩, rfl⟩
    · rintro ⟨_, _, ⟨h, -⟩, -⟩; exact h

theorem next_iff {P : K → Prop} {r : List T} : Next P r ↔ ∃ k, hd r = some k ∧ P k := by
  unfold Next
  constructor
  · rintro ⟨t, r', rfl, h⟩; exact ⟨t.k, rfl, h⟩
  · rintro ⟨k, h, hp⟩
    obtain ⟨l, m, rfl⟩ := hd_some.1 h
    exact ⟨_, _, rfl, hp⟩

theorem next_eq {k : K} {r : List T} : Next (· = k) r ↔ hd r = some k := by
  rw [next_iff]; simp

theorem not_next_nil {P : K → Prop} : ¬ Next P [] := by rw [next_iff]; simp [hd]

theorem next_cons {P : K → Prop} {t : T} {r : List T} : Next P (t :: r) ↔ P t.k := by
  rw [next_iff]; simp [hd]

/-- The level of expressions that are read with this precedence. -/
def lvl : Option Nat → Nat
  | none => 1
  | some q => if q = 8 then 8 else if q = 11 ∨ q = 12 then 11 else q + 1

/-- The level of the left operand. -/
def leftLvl : Op → Nat
  | .concat => 9
  | .caret => 13
  | o => prec o

theorem bin_cases {L : Lang} {o : Op} (h : isBin L o = true) : inLang L o = true ∧
    (o = .concat ∨ o = .caret ∨ (o ∈ leftOps (prec o) ∧ leftLvl o = prec o ∧ lvl (some (prec o)) = prec o + 1)) := by
  cases L <;> cases o <;> simp_all [isBin, inLang, leftOps, prec, leftLvl, lvl]

theorem binary_iff {L : Lang} {o : Op} : isBin L o = true ↔ Binary L o := by
  constructor
  · intro h
    obtain ⟨h1, h2⟩ := bin_cases h
    refine ⟨h1, ?_⟩
    rcases h2 with h2 | h2 | h2
    · exact .inl h2
    · exact .inr (.inl h2)
    · exact .inr (.inr ⟨_, h2.1⟩)
  · rintro ⟨h1, h2⟩
    rcases h2 with rfl | rfl | ⟨k, h⟩
    · rfl
    · rfl
    · unfold leftOps at h
      cases L <;> cases o <;> first | rfl | (exact absurd h1 (by decide)) | (exfalso; split at h <;> simp at h)

theorem unary_iff {L : Lang} {o : Op} : isUn L o = true ↔ o ∈ unaryOps L := by
  cases L <;> cases o <;> simp [isUn, unaryOps]

theorem prec_le (o : Op) : prec o ≤ 12 := by cases o <;> simp [prec]

theorem lvl_prec {L : Lang} {o : Op} (h : isBin L o = true) : lvl (some (prec o)) ≤ 11 := by
  cases o <;> simp [lvl, prec]

theorem lvl_le {o : Op} {p : Option Nat} (hb : 1 ≤ prec o) (h : accepts o p = true) : lvl p ≤ prec o := by
  cases p with
  | none => exact hb
  | some q =>
    have hq : q < prec o ∨ (q ≤ prec o ∧ (prec o = 8 ∨ prec o = 12)) := by
      have h' : rightOp o = true ∧ q ≤ prec o ∨ q < prec o := by
        cases hr : rightOp o <;> simp [accepts, hr] at h <;> simp [h]
      rcases h' with ⟨h1, h2⟩ | h1
      · refine .inr ⟨h2, ?_⟩
        cases o <;> simp [rightOp, prec] at h1 ⊢
      · exact .inl h1
    unfold lvl
    dsimp only
    split
    · omega
    · split <;> omega

theorem prec_pos {L : Lang} {o : Op} (h : isBin L o = true) : 1 ≤ prec o := by
  cases L <;> cases o <;> simp_all [isBin, prec]

theorem stop_left {o o2 : Op} (h : accepts o2 (some (prec o)) = false) : leftLvl o2 ≤ prec o := by
  have := prec_le o
  unfold accepts at h
  cases o2 <;> simp [rightOp, leftLvl] at h ⊢ <;> (try simp only [prec] at h ⊢) <;> omega

theorem stop_un {o2 : Op} (h : accepts o2 (some unPrec) = false) : leftLvl o2 ≤ 11 := by
  unfold accepts unPrec at h
  cases o2 <;> simp [rightOp, leftLvl, prec] at h ⊢

theorem left_le (o : Op) : leftLvl o ≤ 13 := by cases o <;> simp [leftLvl, prec]

theorem E_le {L : Lang} {j k : Nat} {i r : List T} {e : Ex} (h : E L k i r e) (hj : j ≤ k) : E L j i r e := by
  obtain ⟨d, rfl⟩ := Nat.le.dest hj
  induction d with
  | zero => exact h
  | succ d ih => exact ih (.up h) (by omega)

theorem bin_E {L : Lang} {o : Op} {i m r : List T} {l : Nat} {e f : Ex} (hb : isBin L o = true) (h1 : E L (leftLvl o) i (⟨.op o, l⟩ :: m) e)
    (h2 : E L (lvl (some (prec o))) m r f) : E L (prec o) i r (.bin o e f) := by
  obtain ⟨h3, h4⟩ := bin_cases hb
  rcases h4 with rfl | rfl | ⟨h4, h5, h6⟩
  · exact .concat h1 h2
  · exact .pow h1 h2
  · rw [h5] at h1; rw [h6] at h2
    exact .left h4 h3 h1 h2

/-- What is known of the expression that the loop holds. -/
structure Inv (L : Lang) (p : Option Nat) (i : List T) (e : Ex) (r : List T) : Prop where
  lev : E L (lvl p) i r e
  left : ∀ o l m, r = ⟨.op o, l⟩ :: m → isBin L o = true → E L (leftLvl o) i r e
  pre : isPre e = true → P L i r e
  opn : openEnd e = true → isPre e = false → ¬ Next Suffix r

/-- Nothing goes on the expression. -/
structure End (L : Lang) (p : Option Nat) (e : Ex) (r : List T) : Prop where
  op : ∀ o l m, r = ⟨.op o, l⟩ :: m → isBin L o = true → accepts o p = false
  suf : openEnd e = true → ¬ Next Suffix r

theorem End.done {L : Lang} {e : Ex} {r : List T} (h : End L none e r) : Done L e r := by
  refine ⟨?_, h.suf⟩
  rintro ⟨t, r', rfl, o, ho, hb⟩
  obtain ⟨k, l⟩ := t
  simp only at ho; subst ho
  have := h.op o l r' rfl (binary_iff.2 hb)
  simp [accepts] at this

theorem Inv.of13 {L : Lang} {p : Option Nat} {i r : List T} {e : Ex} (hp : lvl p ≤ 11) (h : E L 13 i r e) (h1 : isPre e = true → P L i r e)
    (h2 : openEnd e = true → isPre e = true) : Inv L p i e r where
  lev := E_le h (by omega)
  left o l m _ _ := E_le h (left_le o)
  pre := h1
  opn h3 h4 := by rw [h2 h3] at h4; cases h4

theorem Inv.ofPre {L : Lang} {p : Option Nat} {i r : List T} {e : Ex} (hp : lvl p ≤ 11) (h : P L i r e) (h2 : isPre e = true) : Inv L p i e r :=
  .of13 hp (.pre h) (fun _ => h) fun _ => h2

/-- All that the parser with this fuel reads is in the grammar. -/
structure Sound (L : Lang) (n : Nat) : Prop where
  core : ∀ toks e r, core L n toks = some (e, r) → (∀ p, lvl p ≤ 11 → Inv L p toks e r) ∧ (bareStart (hd toks) = true → Bare L toks r e)
  expr : ∀ p toks e r, expr L n p toks = some (e, r) → lvl p ≤ 11 → Inv L p toks e r ∧ End L p e r
  loop : ∀ p i e toks e' r, loop L n p e toks = some (e', r) → lvl p ≤ 11 → Inv L p i e toks → Inv L p i e' r ∧ End L p e' r
  args : ∀ toks a r, args L n toks = some (a, r) → Args L toks r a
  exprs : ∀ toks a r, exprs L n toks = some (a, r) → Es L toks r a ∧ DoneList L a r
  items : ∀ toks a r, items L n toks = some (a, r) → Items L toks r a
  itemSep : ∀ toks a r, itemSep L n toks = some (a, r) → After L toks r a
  func : ∀ toks a r, func L n toks = some (a, r) → Body L toks r a.1 a.2
  ifs : ∀ toks a r, ifs L n toks = some (a, r) → I L toks r a
  tail : ∀ toks a r, tail L n toks = some (a, r) → Tl L toks r a
  stmt : ∀ v toks a r, stmt L n v toks = some (a, r) → S L v toks r a
  misc : ∀ v toks a r, misc L n toks = some (a, r) → hd toks ≠ some .kFunction → S L v toks r a
  block : ∀ v toks a r, block L n v toks = some (a, r) → B L v toks r a

variable {L : Lang} {n : Nat}

theorem Sound.expr1 (h : Sound L n) {toks r : List T} {e : Ex} (he : Syntax.expr L n none toks = some (e, r)) : E L 1 toks r e :=
  (h.expr none _ _ _ he (by decide)).1.lev

theorem Sound.done (h : Sound L n) {toks r : List T} {e : Ex} (he : Syntax.expr L n none toks = some (e, r)) : Done L e r :=
  (h.expr none _ _ _ he (by decide)).2.done

theorem core_sound (h : Sound L n) (toks : List T) (e : Ex) (r : List T) (hc : core L (n + 1) toks = some (e, r)) :
    (∀ p, lvl p ≤ 11 → Inv L p toks e r) ∧ (bareStart (hd toks) = true → Bare L toks r e) := by
  cases toks with
  | nil => simp [core] at hc
  | cons t ts =>
    obtain ⟨k, l⟩ := t
    cases k with
    | cst s =>
      simp only [core, Option.some.injEq, Prod.mk.injEq] at hc
      obtain ⟨rfl, rfl⟩ := hc
      exact ⟨fun p hp => .of13 hp .cst (by simp [isPre]) (by simp [openEnd]), by simp [hd, bareStart]⟩
    | num s =>
      simp only [core, Option.some.injEq, Prod.mk.injEq] at hc
      obtain ⟨rfl, rfl⟩ := hc
      exact ⟨fun p hp => .of13 hp .num (by simp [isPre]) (by simp [openEnd]), by simp [hd, bareStart]⟩
    | str s =>
      simp only [core, Option.some.injEq, Prod.mk.injEq] at hc
      obtain ⟨rfl, rfl⟩ := hc
      exact ⟨fun p hp => .of13 hp .str (by simp [isPre]) (by simp [openEnd]), fun _ => .str⟩
    | dots =>
      simp only [core, Option.some.injEq, Prod.mk.injEq] at hc
      obtain ⟨rfl, rfl⟩ := hc
      exact ⟨fun p hp => .of13 hp .dots (by simp [isPre]) (by simp [openEnd]), by simp [hd, bareStart]⟩
    | id s =>
      simp only [core, Option.some.injEq, Prod.mk.injEq] at hc
      obtain ⟨rfl, rfl⟩ := hc
      exact ⟨fun p hp => .ofPre hp .var rfl, by simp [hd, bareStart]⟩
    | lc =>
      simp only [core, Option.map_eq_some_iff, Prod.mk.injEq] at hc
      obtain ⟨⟨a, r'⟩, ha, rfl, rfl⟩ := hc
      have := h.items _ _ _ ha
      exact ⟨fun p hp => .of13 hp (.table this) (by simp [isPre]) (by simp [openEnd]), fun _ => .table this⟩
    | lp =>
      simp only [core, Option.bind_eq_some_iff, Option.map_eq_some_iff, Prod.mk.injEq] at hc
      obtain ⟨⟨a, r'⟩, ha, q, hq, rfl, rfl⟩ := hc
      obtain ⟨l', rfl⟩ := req_some.1 hq
      exact ⟨fun p hp => .ofPre hp (.group (h.expr1 ha)) rfl, by simp [hd, bareStart]⟩
    | op o =>
      simp only [core] at hc
      split at hc
      · rename_i ho
        simp only [Option.map_eq_some_iff, Prod.mk.injEq] at hc
        obtain ⟨⟨a, r'⟩, ha, rfl, rfl⟩ := hc
        have ih := h.expr _ _ _ _ ha (by decide)
        have he : E L 11 (⟨.op o, l⟩ :: ts) r' (.un o a) := .un (unary_iff.1 ho) ih.1.lev
        refine ⟨fun p hp => ⟨E_le he hp, fun o2 l2 m hr hb => E_le he (stop_un (ih.2.op _ _ _ hr hb)), by simp [isPre], fun ho _ => ih.2.suf ho⟩,
          by simp [hd, bareStart]⟩
      · cases hc
    | kFunction =>
      simp only [core, Option.map_eq_some_iff, Prod.mk.injEq] at hc
      obtain ⟨⟨a, r'⟩, ha, rfl, rfl⟩ := hc
      exact ⟨fun p hp => .of13 hp (.func (h.func _ _ _ ha)) (by simp [isPre]) (by simp [openEnd]), by simp [hd, bareStart]⟩
    | _ => simp [core] at hc

theorem expr_sound (h : Sound L n) (p : Option Nat) (toks : List T) (e : Ex) (r : List T) (hc : expr L (n + 1) p toks = some (e, r)) (hp : lvl p ≤ 11) :
    Inv L p toks e r ∧ End L p e r := by
  simp only [expr, Option.bind_eq_some_iff] at hc
  obtain ⟨⟨a, r'⟩, ha, hl⟩ := hc
  exact h.loop _ _ _ _ _ _ hl hp ((h.core _ _ _ ha).1 p hp)

/-- A loop that takes nothing. -/
theorem loop_end {p : Option Nat} {i r : List T} {e : Ex} (hi : Inv L p i e r) (h1 : ∀ o l m, r = ⟨.op o, l⟩ :: m → isBin L o = true → accepts o p = false)
    (h2 : isPre e = true → ¬ Next Suffix r) : Inv L p i e r ∧ End L p e r := by
  refine ⟨hi, h1, fun ho => ?_⟩
  cases hb : isPre e with
  | true => exact h2 hb
  | false => exact hi.opn ho hb

theorem loop_sound (h : Sound L n) (p : Option Nat) (i : List T) (e : Ex) (toks : List T) (e' : Ex) (r : List T)
    (hc : loop L (n + 1) p e toks = some (e', r)) (hp : lvl p ≤ 11) (hi : Inv L p i e toks) : Inv L p i e' r ∧ End L p e' r := by
  cases toks with
  | nil =>
    simp only [loop, Option.some.injEq, Prod.mk.injEq] at hc
    obtain ⟨rfl, rfl⟩ := hc
    exact loop_end hi (by simp) fun _ => not_next_nil
  | cons t ts =>
    obtain ⟨k, l⟩ := t
    have stop : ∀ {k : K}, (∀ o, k ≠ .op o) → isPre e = false → loop L (n + 1) p e (⟨k, l⟩ :: ts) = some (e', r) →
        some (e, (⟨k, l⟩ :: ts : List T)) = some (e', r) → Inv L p i e (⟨k, l⟩ :: ts) → Inv L p i e' r ∧ End L p e' r := by
      intro k hk hpre _ hc hi
      simp only [Option.some.injEq, Prod.mk.injEq] at hc
      obtain ⟨rfl, rfl⟩ := hc
      exact loop_end hi (by simp only [List.cons.injEq, T.mk.injEq]; rintro o l' m ⟨⟨h, -⟩, -⟩; exact absurd h (hk o)) (by simp [hpre])
    have plain : ∀ {k : K}, (∀ o, k ≠ .op o) → ¬ Suffix k → some (e, (⟨k, l⟩ :: ts : List T)) = some (e', r) →
        Inv L p i e (⟨k, l⟩ :: ts) → Inv L p i e' r ∧ End L p e' r := by
      intro k hk hs hc hi
      simp only [Option.some.injEq, Prod.mk.injEq] at hc
      obtain ⟨rfl, rfl⟩ := hc
      exact loop_end hi (by simp only [List.cons.injEq, T.mk.injEq]; rintro o l' m ⟨⟨h, -⟩, -⟩; exact absurd h (hk o))
        fun _ => by rw [next_cons]; exact hs
    cases k with
    | dot =>
      simp only [loop] at hc
      split at hc
      · rename_i hpre
        simp only [Option.bind_eq_some_iff] at hc
        obtain ⟨⟨x, r'⟩, hx, hl⟩ := hc
        obtain ⟨l', rfl⟩ := ident_some.1 hx
        exact h.loop _ _ _ _ _ _ hl hp (.ofPre hp (.member (hi.pre hpre)) rfl)
      · rename_i hpre; exact stop (by simp) (by simpa using hpre) (by simp [loop, hpre, hc]) hc hi
    | lb =>
      simp only [loop] at hc
      split at hc
      · rename_i hpre
        simp only [Option.bind_eq_some_iff] at hc
        obtain ⟨⟨x, r'⟩, hx, q, hq, hl⟩ := hc
        obtain ⟨l', rfl⟩ := req_some.1 hq
        exact h.loop _ _ _ _ _ _ hl hp (.ofPre hp (.index (hi.pre hpre) (h.expr1 hx)) rfl)
      · rename_i hpre; exact stop (by simp) (by simpa using hpre) (by simp [loop, hpre, hc]) hc hi
    | lp =>
      simp only [loop] at hc
      split at hc
      · rename_i hpre
        simp only [Option.bind_eq_some_iff] at hc
        obtain ⟨⟨x, r'⟩, hx, hl⟩ := hc
        exact h.loop _ _ _ _ _ _ hl hp (.ofPre hp (.call (hi.pre hpre) (h.args _ _ _ hx)) rfl)
      · rename_i hpre; exact stop (by simp) (by simpa using hpre) (by simp [loop, hpre, hc]) hc hi
    | lc =>
      simp only [loop] at hc
      split at hc
      · rename_i hpre
        simp only [Option.bind_eq_some_iff] at hc
        obtain ⟨⟨x, r'⟩, hx, hl⟩ := hc
        exact h.loop _ _ _ _ _ _ hl hp (.ofPre hp (.callBare (hi.pre hpre) ((h.core _ _ _ hx).2 rfl)) rfl)
      · rename_i hpre; exact stop (by simp) (by simpa using hpre) (by simp [loop, hpre, hc]) hc hi
    | str s =>
      simp only [loop] at hc
      split at hc
      · rename_i hpre
        simp only [Option.bind_eq_some_iff] at hc
        obtain ⟨⟨x, r'⟩, hx, hl⟩ := hc
        exact h.loop _ _ _ _ _ _ hl hp (.ofPre hp (.callBare (hi.pre hpre) ((h.core _ _ _ hx).2 rfl)) rfl)
      · rename_i hpre; exact stop (by simp) (by simpa using hpre) (by simp [loop, hpre, hc]) hc hi
    | colon =>
      simp only [loop] at hc
      split at hc
      · rename_i hpre
        simp only [Option.bind_eq_some_iff] at hc
        obtain ⟨⟨x, r'⟩, hx, hl⟩ := hc
        obtain ⟨l', rfl⟩ := ident_some.1 hx
        split at hl
        · rename_i hbs
          simp only [Option.bind_eq_some_iff] at hl
          obtain ⟨⟨a, r''⟩, ha, hl⟩ := hl
          exact h.loop _ _ _ _ _ _ hl hp (.ofPre hp (.methodBare (hi.pre hpre) ((h.core _ _ _ ha).2 hbs)) rfl)
        · simp only [Option.bind_eq_some_iff] at hl
          obtain ⟨q, hq, ⟨a, r''⟩, ha, hl⟩ := hl
          obtain ⟨l'', rfl⟩ := req_some.1 hq
          exact h.loop _ _ _ _ _ _ hl hp (.ofPre hp (.method (hi.pre hpre) (h.args _ _ _ ha)) rfl)
      · rename_i hpre; exact stop (by simp) (by simpa using hpre) (by simp [loop, hpre, hc]) hc hi
    | op o =>
      simp only [loop] at hc
      split at hc
      · rename_i ho
        simp only [Bool.and_eq_true] at ho
        simp only [Option.bind_eq_some_iff] at hc
        obtain ⟨⟨f, r'⟩, hf, hl⟩ := hc
        have ih := h.expr _ _ _ _ hf (lvl_prec ho.1)
        have he : E L (prec o) i r' (.bin o e f) := bin_E ho.1 (hi.left _ _ _ rfl ho.1) ih.1.lev
        refine h.loop _ _ _ _ _ _ hl hp ⟨E_le he (lvl_le (prec_pos ho.1) ho.2), fun o2 l2 m hr hb => E_le he (stop_left (ih.2.op _ _ _ hr hb)),
          by simp [isPre], fun ho _ => ih.2.suf ho⟩
      · rename_i ho
        simp only [Option.some.injEq, Prod.mk.injEq] at hc
        obtain ⟨rfl, rfl⟩ := hc
        refine loop_end hi ?_ fun _ => by rw [next_cons]; simp [Suffix]
        intro o' l' m hr hb
        simp only [List.cons.injEq, T.mk.injEq, K.op.injEq] at hr
        obtain ⟨⟨rfl, -⟩, -⟩ := hr
        simpa [hb] using ho
    | _ =>
      simp only [loop] at hc
      exact plain (by simp) (by simp [Suffix]) hc hi

theorem args_sound (h : Sound L n) (toks : List T) (a : Exs) (r : List T) (hc : args L (n + 1) toks = some (a, r)) : Args L toks r a := by
  simp only [args] at hc
  split at hc
  · rename_i ht
    obtain ⟨l, m, rfl⟩ := hd_some.1 ht
    simp only [List.tail_cons, Option.some.injEq, Prod.mk.injEq] at hc
    obtain ⟨rfl, rfl⟩ := hc
    exact .nil
  · simp only [Option.bind_eq_some_iff, Option.map_eq_some_iff, Prod.mk.injEq] at hc
    obtain ⟨⟨es, r'⟩, hes, q, hq, rfl, rfl⟩ := hc
    obtain ⟨l, rfl⟩ := req_some.1 hq
    exact .some (h.exprs _ _ _ hes).1

theorem doneList_cons {e : Ex} {es : Exs} {r : List T} (hne : es ≠ .nil) (h : DoneList L es r) : DoneList L (.cons e es) r := by
  cases es with
  | nil => exact absurd rfl hne
  | cons => exact h

theorem es_ne {i r : List T} {es : Exs} (h : Es L i r es) : es ≠ .nil := by cases h <;> simp

theorem exprs_sound (h : Sound L n) (toks : List T) (a : Exs) (r : List T) (hc : exprs L (n + 1) toks = some (a, r)) :
    Es L toks r a ∧ DoneList L a r := by
  simp only [exprs, Option.bind_eq_some_iff] at hc
  obtain ⟨⟨e, m⟩, he, hc⟩ := hc
  have h1 := h.expr1 he
  have h2 := h.done he
  split at hc
  · rename_i ht
    simp only [Option.map_eq_some_iff, Prod.mk.injEq] at hc
    obtain ⟨⟨es, q⟩, hes, rfl, rfl⟩ := hc
    obtain ⟨l, m', hm⟩ := hd_some.1 ht
    simp only at hm hes; subst hm
    have ih := h.exprs _ _ _ hes
    exact ⟨.cons h1 ih.1, doneList_cons (es_ne ih.1) ih.2⟩
  · rename_i ht
    simp only [Option.some.injEq, Prod.mk.injEq] at hc
    obtain ⟨rfl, rfl⟩ := hc
    exact ⟨.one h1, h2, by rw [next_eq]; exact ht⟩

theorem items_sound (h : Sound L n) (toks : List T) (a : Its) (r : List T) (hc : items L (n + 1) toks = some (a, r)) : Items L toks r a := by
  simp only [items] at hc
  split at hc
  · rename_i ht
    obtain ⟨l, m, rfl⟩ := hd_some.1 ht
    simp only [List.tail_cons, Option.some.injEq, Prod.mk.injEq] at hc
    obtain ⟨rfl, rfl⟩ := hc
    exact .nil
  · split at hc
    · rename_i ht
      obtain ⟨l, m, rfl⟩ := hd_some.1 ht
      simp only [List.tail_cons, Option.bind_eq_some_iff, Option.map_eq_some_iff, Prod.mk.injEq] at hc
      obtain ⟨⟨k, r1⟩, hk, q, hq, s, hs, ⟨e, r2⟩, he, ⟨its, r3⟩, hi, rfl, rfl⟩ := hc
      obtain ⟨l1, rfl⟩ := req_some.1 hq
      obtain ⟨l2, rfl⟩ := req_some.1 hs
      exact .keyed (h.expr1 hk) (h.expr1 he) (h.itemSep _ _ _ hi)
    · split at hc
      · rename_i ht
        simp only [Option.bind_eq_some_iff, Option.map_eq_some_iff, Prod.mk.injEq] at hc
        obtain ⟨⟨x, r1⟩, hx, ⟨e, r2⟩, he, ⟨its, r3⟩, hi, rfl, rfl⟩ := hc
        obtain ⟨l, rfl⟩ := ident_some.1 hx
        obtain ⟨l', m, hm⟩ := hd_some.1 ht
        simp only [List.tail_cons] at hm
        subst hm
        exact .named (h.expr1 he) (h.itemSep _ _ _ hi)
      · simp only [Option.bind_eq_some_iff, Option.map_eq_some_iff, Prod.mk.injEq] at hc
        obtain ⟨⟨e, r2⟩, he, ⟨its, r3⟩, hi, rfl, rfl⟩ := hc
        exact .pos (h.expr1 he) (h.itemSep _ _ _ hi)

theorem itemSep_sound (h : Sound L n) (toks : List T) (a : Its) (r : List T) (hc : itemSep L (n + 1) toks = some (a, r)) : After L toks r a := by
  simp only [itemSep] at hc
  split at hc
  · rename_i ht
    obtain ⟨l, m, rfl⟩ := hd_some.1 ht
    simp only [List.tail_cons, Option.some.injEq, Prod.mk.injEq] at hc
    obtain ⟨rfl, rfl⟩ := hc
    exact .close
  · split at hc
    · rename_i ht
      rcases ht with ht | ht
      · obtain ⟨l, m, rfl⟩ := hd_some.1 ht
        exact .semi (h.items _ _ _ hc)
      · obtain ⟨l, m, rfl⟩ := hd_some.1 ht
        exact .comma (h.items _ _ _ hc)
    · cases hc

theorem params1_sound : ∀ {toks : List T} {ps : List Param} {r : List T}, params1 toks = some (ps, r) → Pars toks r ps
  | [], _, _, h => by simp [params1] at h
  | t :: ts, ps, r, h => by
    rw [params1.eq_def] at h
    dsimp only at h
    obtain ⟨k, l⟩ := t
    cases hp : paramOf k with
    | none => simp [hp] at h
    | some p =>
      rw [hp] at h
      have hpar : ∀ r', Par (⟨k, l⟩ :: r') r' p := by
        intro r'
        cases k <;> simp [paramOf] at hp
        · subst hp; exact .name
        · subst hp; exact .dots
      cases ts with
      | nil => simp at h
      | cons s ts =>
        obtain ⟨k2, l2⟩ := s
        simp only at h
        split at h
        · rename_i hk
          simp only [Option.some.injEq, Prod.mk.injEq] at h
          obtain ⟨rfl, rfl⟩ := h
          subst hk
          exact .one (hpar _)
        · split at h
          · rename_i hk
            subst hk
            simp only [Option.map_eq_some_iff, Prod.mk.injEq] at h
            obtain ⟨⟨qs, r'⟩, hq, rfl, rfl⟩ := h
            exact .cons (hpar _) (params1_sound hq)
          · cases h

theorem params_sound {toks : List T} {ps : List Param} {r : List T} (h : params toks = some (ps, r)) : Params toks r ps := by
  unfold params at h
  split at h
  · rename_i ht
    obtain ⟨l, m, rfl⟩ := hd_some.1 ht
    simp only [List.tail_cons, Option.some.injEq, Prod.mk.injEq] at h
    obtain ⟨rfl, rfl⟩ := h
    exact .nil
  · exact .some (params1_sound h)

theorem func_sound (h : Sound L n) (toks : List T) (a : List Param × Block) (r : List T) (hc : func L (n + 1) toks = some (a, r)) :
    Body L toks r a.1 a.2 := by
  simp only [func, Option.bind_eq_some_iff, Option.map_eq_some_iff, Prod.mk.injEq] at hc
  obtain ⟨q, hq, ⟨ps, r1⟩, hps, ⟨b, r2⟩, hb, s, hs, rfl, rfl⟩ := hc
  obtain ⟨l, rfl⟩ := req_some.1 hq
  obtain ⟨l', rfl⟩ := req_some.1 hs
  exact .mk (params_sound hps) (h.block _ _ _ _ hb)

theorem closedOn_lastOf {toks r : List T} {t : T} (hs : r <:+ toks) (h : lastOf toks r = some t) (ht : t.k = .rp) : ClosedOn t.line toks r := by
  obtain ⟨p, rfl⟩ := hs
  unfold lastOf at h
  rw [show (p ++ r).length - r.length = p.length by simp, List.take_left] at h
  obtain ⟨q, rfl⟩ := List.getLast?_eq_some_iff.1 h
  refine ⟨q, ?_⟩
  obtain ⟨k, l⟩ := t
  simp only at ht; subst ht
  simp

theorem sameLine_iff {l : Nat} {r : List T} : sameLine l r = true ↔ OnLine l r := by
  unfold sameLine OnLine
  cases r with
  | nil => simp
  | cons t r => simp

theorem later_iff {v : Option Nat} {r : List T} : later v r = true ↔ Later v r := by
  unfold later Later
  cases v with
  | none => simp
  | some l => cases r <;> simp

theorem blockEnd_iff {r : List T} : isBlockEnd (hd r) = true ↔ Next Closes r := by
  rw [next_iff]
  unfold isBlockEnd Closes
  cases hd r with
  | none => simp
  | some k => cases k <;> simp

theorem then_iff {r : List T} : (hd r = some .kThen ∨ (L = .pico8 ∧ hd r = some .kDo)) ↔ Next (Then L) r := by
  rw [next_iff]
  unfold Then
  cases hd r with
  | none => simp
  | some k => cases k <;> simp

theorem ifs_sound (h : Sound L n) (toks : List T) (a : If) (r : List T) (hc : ifs L (n + 1) toks = some (a, r)) : I L toks r a := by
  simp only [ifs, Option.bind_eq_some_iff] at hc
  obtain ⟨⟨c, m⟩, hcond, hc⟩ := hc
  have h1 := h.expr1 hcond
  have h2 := h.done hcond
  simp only at hc
  split at hc
  · rename_i ht
    simp only [Option.bind_eq_some_iff, Option.map_eq_some_iff, Prod.mk.injEq] at hc
    obtain ⟨⟨b, r1⟩, hb, ⟨t, r2⟩, htl, rfl, rfl⟩ := hc
    obtain ⟨⟨k, l⟩, m', rfl, hk⟩ := then_iff.1 ht
    exact .long h1 hk (h.block _ _ _ _ hb) (h.tail _ _ _ htl)
  · rename_i ht
    rw [then_iff] at ht
    split at hc
    · cases hc
    · rename_i t hl
      split at hc
      · rename_i hk
        have h3 := closedOn_lastOf h1.suf hl hk
        simp only [Option.bind_eq_some_iff] at hc
        obtain ⟨⟨b, r1⟩, hb, hc⟩ := hc
        simp only at hc
        split at hc
        · rename_i hel
          simp only [Option.map_eq_some_iff, Prod.mk.injEq] at hc
          obtain ⟨⟨d, r2⟩, hd', rfl, rfl⟩ := hc
          obtain ⟨l', m', hm⟩ := hd_some.1 hel.2
          subst hm
          have hl' : l' = t.line := by simpa [sameLine] using hel.1
          subst hl'
          exact .shortElse h1 h2 ht h3 (h.block _ _ _ _ hb) (h.block _ _ _ _ hd') sameLine_iff
        · rename_i hel
          simp only [Option.some.injEq, Prod.mk.injEq] at hc
          obtain ⟨rfl, rfl⟩ := hc
          refine .short h1 h2 ht h3 (h.block _ _ _ _ hb) ?_ sameLine_iff
          rw [next_eq, ← sameLine_iff]
          exact hel
      · cases hc

theorem tail_sound (h : Sound L n) (toks : List T) (a : Tail) (r : List T) (hc : tail L (n + 1) toks = some (a, r)) : Tl L toks r a := by
  simp only [tail] at hc
  split at hc
  · rename_i ht
    obtain ⟨l, m, rfl⟩ := hd_some.1 ht
    simp only [List.tail_cons, Option.bind_eq_some_iff, Option.map_eq_some_iff, Prod.mk.injEq] at hc
    obtain ⟨⟨b, r1⟩, hb, q, hq, rfl, rfl⟩ := hc
    obtain ⟨l', rfl⟩ := req_some.1 hq
    exact .else_ (h.block _ _ _ _ hb)
  · split at hc
    · rename_i ht
      obtain ⟨l, m, rfl⟩ := hd_some.1 ht
      simp only [List.tail_cons, Option.map_eq_some_iff, Prod.mk.injEq] at hc
      obtain ⟨⟨i, r1⟩, hi, rfl, rfl⟩ := hc
      exact .elseif_ (h.ifs _ _ _ hi)
    · simp only [Option.map_eq_some_iff, Prod.mk.injEq] at hc
      obtain ⟨q, hq, rfl, rfl⟩ := hc
      obtain ⟨l', rfl⟩ := req_some.1 hq
      exact .end_

theorem block_sound (h : Sound L n) (v : Option Nat) (toks : List T) (a : Block) (r : List T) (hc : block L (n + 1) v toks = some (a, r)) :
    B L v toks r a := by
  simp only [block] at hc
  split at hc
  · rename_i ht
    simp only [Option.some.injEq, Prod.mk.injEq] at hc
    obtain ⟨rfl, rfl⟩ := hc
    rw [later_iff, blockEnd_iff] at ht
    exact .nil ht
  · rename_i ht
    simp only [not_or, later_iff] at ht
    split at hc
    · rename_i hs
      obtain ⟨l, m, rfl⟩ := hd_some.1 hs
      simp only [List.tail_cons, Option.map_eq_some_iff, Prod.mk.injEq] at hc
      obtain ⟨⟨b, r1⟩, hb, rfl, rfl⟩ := hc
      exact .semi ht.2.1 (h.block _ _ _ _ hb)
    · simp only [Option.bind_eq_some_iff, Option.map_eq_some_iff, Prod.mk.injEq] at hc
      obtain ⟨⟨s, r1⟩, hs, ⟨b, r2⟩, hb, rfl, rfl⟩ := hc
      exact .cons ht.2.1 (h.stmt _ _ _ _ hs) (h.block _ _ _ _ hb)

theorem E_pre {k : Nat} {i r : List T} {e : Ex} (h : E L k i r e) (hp : isPre e = true) : P L i r e := by
  match h with
  | .up h => exact E_pre h hp
  | .left .. | .concat .. | .un .. | .pow .. | .cst | .num | .str | .dots | .table _ | .func _ => simp [isPre] at hp
  | .pre h => exact h

theorem misc_sound (h : Sound L n) (v : Option Nat) (toks : List T) (a : St) (r : List T) (hc : misc L (n + 1) toks = some (a, r))
    (hf : hd toks ≠ some .kFunction) : S L v toks r a := by
  simp only [misc, Option.bind_eq_some_iff] at hc
  obtain ⟨⟨f, m⟩, he, hc⟩ := hc
  have h1 := h.expr1 he
  have h2 := h.done he
  have hf' : ¬ Next (· = .kFunction) toks := by rw [next_eq]; exact hf
  simp only at hc
  split at hc
  · rename_i ht
    obtain ⟨l, m', rfl⟩ := hd_some.1 ht
    simp only [List.tail_cons, Option.bind_eq_some_iff, Option.map_eq_some_iff, Prod.mk.injEq] at hc
    obtain ⟨⟨ts, r1⟩, hts, q, hq, ⟨es, r2⟩, hes, rfl, rfl⟩ := hc
    obtain ⟨l', rfl⟩ := req_some.1 hq
    exact .assign hf' (.cons h1 (h.exprs _ _ _ hts).1) (h.exprs _ _ _ hes).1 (h.exprs _ _ _ hes).2
  · rename_i ht
    obtain ⟨l, m', rfl⟩ := hd_some.1 ht
    simp only [List.tail_cons, Option.map_eq_some_iff, Prod.mk.injEq] at hc
    obtain ⟨⟨es, r2⟩, hes, rfl, rfl⟩ := hc
    exact .assign hf' (.one h1) (h.exprs _ _ _ hes).1 (h.exprs _ _ _ hes).2
  · rename_i o ht
    obtain ⟨l, m', rfl⟩ := hd_some.1 ht
    simp only [List.tail_cons, Option.map_eq_some_iff, Prod.mk.injEq] at hc
    obtain ⟨⟨e, r2⟩, he', rfl, rfl⟩ := hc
    exact .opassign hf' h1 (h.expr1 he') (h.done he')
  · rename_i n1 n2 n3
    have hn : ¬ Next (fun k => k = .comma ∨ k = .eq ∨ ∃ o, k = .opeq o) m := by
      rw [next_iff]
      rintro ⟨k, hk, rfl | rfl | ⟨o, rfl⟩⟩
      · exact n1 hk
      · exact n2 hk
      · exact n3 _ hk
    split at hc
    · rename_i hcall
      simp only [Option.some.injEq, Prod.mk.injEq] at hc
      obtain ⟨rfl, rfl⟩ := hc
      cases f with
      | call b sh a => exact .call (E_pre h1 rfl) h2 hn
      | method b x sh a => exact .method (E_pre h1 rfl) h2 hn
      | _ => simp [isCall] at hcall
    · cases hc

theorem names_sound {toks : List T} {xs : List Nm} {r : List T} (h : names toks = some (xs, r)) : Names toks r xs := by
  fun_induction names toks generalizing xs with
  | case1 x l l' r' ih =>
    simp only [Option.map_eq_some_iff, Prod.mk.injEq] at h
    obtain ⟨⟨ys, q⟩, hq, rfl, rfl⟩ := h
    exact .cons (ih hq)
  | case2 x l r' =>
    simp only [Option.some.injEq, Prod.mk.injEq] at h
    obtain ⟨rfl, rfl⟩ := h
    exact .one
  | case3 => cases h

theorem attr_sound {toks : List T} {a : Option Nm} {r : List T} (h : attr L toks = some (a, r)) : Attr L toks r a := by
  unfold attr at h
  split at h
  · split at h
    · rename_i hL
      split at h
      · split at h
        · rename_i ha
          simp only [Option.some.injEq, Prod.mk.injEq] at h
          obtain ⟨rfl, rfl⟩ := h
          exact .some hL ha
        · cases h
      · cases h
    · rename_i hL
      simp only [Option.some.injEq, Prod.mk.injEq] at h
      obtain ⟨rfl, rfl⟩ := h
      exact .none fun h => absurd h hL
  · rename_i hn
    simp only [Option.some.injEq, Prod.mk.injEq] at h
    obtain ⟨rfl, rfl⟩ := h
    refine .none fun _ => ?_
    rw [next_eq, hd_some]
    rintro ⟨l, m, rfl⟩
    exact hn _ _ rfl

theorem locals_sound : ∀ {n : Nat} {toks : List T} {xs : List (Nm × Option Nm)} {r : List T},
    locals L n toks = some (xs, r) → Locals L toks r xs
  | 0, _, _, _, h => by cases h
  | n + 1, toks, xs, r, h => by
    simp only [locals, Option.bind_eq_some_iff] at h
    obtain ⟨⟨x, m⟩, hx, ⟨a, q⟩, ha, h⟩ := h
    obtain ⟨l, rfl⟩ := ident_some.1 hx
    have ha := attr_sound ha
    simp only at h
    split at h
    · rename_i ht
      obtain ⟨l, m', rfl⟩ := hd_some.1 ht
      simp only [List.tail_cons, Option.map_eq_some_iff, Prod.mk.injEq] at h
      obtain ⟨⟨ys, r'⟩, hy, rfl, rfl⟩ := h
      exact .cons ha (locals_sound hy)
    · rename_i ht
      simp only [Option.some.injEq, Prod.mk.injEq] at h
      obtain ⟨rfl, rfl⟩ := h
      exact .one ha (by rw [next_eq]; exact ht)

theorem fnKeys_sound {toks : List T} {xs : List Nm} {r : List T} (h : fnKeys toks = some (xs, r)) : Keys toks r xs := by
  fun_induction fnKeys toks generalizing xs with
  | case1 l x l' r' ih =>
    simp only [Option.map_eq_some_iff, Prod.mk.injEq] at h
    obtain ⟨⟨ys, q⟩, hq, rfl, rfl⟩ := h
    exact .cons (ih hq)
  | case2 => cases h
  | case3 r' _ hn =>
    simp only [Option.some.injEq, Prod.mk.injEq] at h
    obtain ⟨rfl, rfl⟩ := h
    refine .nil ?_
    rw [next_eq, hd_some]
    rintro ⟨l, m, rfl⟩
    exact hn _ _ rfl

theorem fnName_sound {toks : List T} {f : FnName} {r : List T} (h : fnName toks = some (f, r)) : Name toks r f := by
  simp only [fnName, Option.bind_eq_some_iff] at h
  obtain ⟨⟨x, m⟩, hx, ⟨ks, q⟩, hk, h⟩ := h
  obtain ⟨l, rfl⟩ := ident_some.1 hx
  have hk := fnKeys_sound hk
  simp only at h
  split at h
  · rename_i ht
    obtain ⟨l, m', rfl⟩ := hd_some.1 ht
    simp only [List.tail_cons, Option.map_eq_some_iff, Prod.mk.injEq] at h
    obtain ⟨⟨y, r'⟩, hy, rfl, rfl⟩ := h
    obtain ⟨l', rfl⟩ := ident_some.1 hy
    exact .method hk
  · rename_i ht
    simp only [Option.some.injEq, Prod.mk.injEq] at h
    obtain ⟨rfl, rfl⟩ := h
    exact .func hk (by rw [next_eq]; exact ht)

theorem continues_iff {r : List T} : continues L (hd r) = true ↔
    Next (fun k => Suffix k ∨ (∃ o, k = .op o ∧ Binary L o) ∨ k = .comma ∨ k = .eq ∨ ∃ o, k = .opeq o) r := by
  rw [next_iff]
  unfold continues Suffix
  cases hd r with
  | none => simp
  | some k => cases k <;> simp [binary_iff]

theorem stmt_sound (h : Sound L n) (v : Option Nat) (toks : List T) (a : St) (r : List T) (hc : stmt L (n + 1) v toks = some (a, r)) :
    S L v toks r a := by
  cases toks with
  | nil => simp [stmt] at hc
  | cons t ts =>
    obtain ⟨k, l⟩ := t
    cases k with
    | kDo =>
      simp only [stmt, Option.bind_eq_some_iff, Option.map_eq_some_iff, Prod.mk.injEq] at hc
      obtain ⟨⟨b, r1⟩, hb, q, hq, rfl, rfl⟩ := hc
      obtain ⟨l', rfl⟩ := req_some.1 hq
      exact .do_ (h.block _ _ _ _ hb)
    | kIf =>
      simp only [stmt, Option.map_eq_some_iff, Prod.mk.injEq] at hc
      obtain ⟨⟨i, r1⟩, hi, rfl, rfl⟩ := hc
      exact .if_ (h.ifs _ _ _ hi)
    | kWhile =>
      simp only [stmt, Option.bind_eq_some_iff] at hc
      obtain ⟨⟨c, m⟩, hcond, hc⟩ := hc
      simp only at hc
      split at hc
      · rename_i ht
        obtain ⟨l', m', rfl⟩ := hd_some.1 ht
        simp only [List.tail_cons, Option.bind_eq_some_iff, Option.map_eq_some_iff, Prod.mk.injEq] at hc
        obtain ⟨⟨b, r1⟩, hb, q, hq, rfl, rfl⟩ := hc
        obtain ⟨l', rfl⟩ := req_some.1 hq
        exact .while_ (h.expr1 hcond) (h.block _ _ _ _ hb)
      · rename_i ht
        split at hc
        · cases hc
        · rename_i t hl
          split at hc
          · rename_i hk
            simp only [Option.map_eq_some_iff, Prod.mk.injEq] at hc
            obtain ⟨⟨b, r1⟩, hb, rfl, rfl⟩ := hc
            exact .whileShort (h.expr1 hcond) (h.done hcond) (by rw [next_eq]; exact ht) (closedOn_lastOf (h.expr1 hcond).suf hl hk)
              (h.block _ _ _ _ hb) sameLine_iff
          · cases hc
    | kRepeat =>
      simp only [stmt, Option.bind_eq_some_iff, Option.map_eq_some_iff, Prod.mk.injEq] at hc
      obtain ⟨⟨b, r1⟩, hb, q, hq, ⟨c, r2⟩, hcond, rfl, rfl⟩ := hc
      obtain ⟨l', rfl⟩ := req_some.1 hq
      exact .repeat_ (h.block _ _ _ _ hb) (h.expr1 hcond) (h.done hcond)
    | kFor =>
      simp only [stmt] at hc
      split at hc
      · simp only [Option.bind_eq_some_iff, Option.map_eq_some_iff, Prod.mk.injEq] at hc
        obtain ⟨⟨x, m1⟩, hx, q1, hq1, ⟨a1, m2⟩, ha, q2, hq2, ⟨b, m3⟩, hb, ⟨s, m4⟩, hs, q3, hq3, ⟨d, m5⟩, hdd, q4, hq4, rfl, rfl⟩ := hc
        obtain ⟨l1, rfl⟩ := ident_some.1 hx
        obtain ⟨l2, rfl⟩ := req_some.1 hq1
        obtain ⟨l3, rfl⟩ := req_some.1 hq2
        obtain ⟨l4, rfl⟩ := req_some.1 hq3
        obtain ⟨l5, rfl⟩ := req_some.1 hq4
        simp only at hs
        split at hs
        · rename_i ht
          obtain ⟨l6, m', rfl⟩ := hd_some.1 ht
          simp only [List.tail_cons, Option.map_eq_some_iff, Prod.mk.injEq] at hs
          obtain ⟨⟨c, m6⟩, hcc, rfl, rfl⟩ := hs
          exact .forstep (h.expr1 ha) (h.expr1 hb) (h.expr1 hcc) (h.block _ _ _ _ hdd)
        · simp only [Option.some.injEq, Prod.mk.injEq] at hs
          obtain ⟨rfl, rfl⟩ := hs
          exact .fornum (h.expr1 ha) (h.expr1 hb) (h.block _ _ _ _ hdd)
      · simp only [Option.bind_eq_some_iff, Option.map_eq_some_iff, Prod.mk.injEq] at hc
        obtain ⟨⟨x, m1⟩, hx, q1, hq1, ⟨es, m2⟩, hes, q2, hq2, ⟨d, m5⟩, hdd, q4, hq4, rfl, rfl⟩ := hc
        obtain ⟨l1, rfl⟩ := req_some.1 hq1
        obtain ⟨l2, rfl⟩ := req_some.1 hq2
        obtain ⟨l3, rfl⟩ := req_some.1 hq4
        exact .forin (names_sound hx) (h.exprs _ _ _ hes).1 (h.block _ _ _ _ hdd)
    | kBreak =>
      simp only [stmt, Option.some.injEq, Prod.mk.injEq] at hc
      obtain ⟨rfl, rfl⟩ := hc
      exact .break_
    | kReturn =>
      simp only [stmt] at hc
      split at hc
      · rename_i ht
        simp only [Option.some.injEq, Prod.mk.injEq] at hc
        obtain ⟨rfl, rfl⟩ := hc
        simp only [Bool.or_eq_true, blockEnd_iff, later_iff, decide_eq_true_eq, ← next_eq] at ht
        refine .returnNone ?_
        rcases ht with (h | h) | h
        · exact .inl h
        · exact .inr (.inl h)
        · exact .inr (.inr h)
      · rename_i ht
        simp only [Bool.or_eq_true, not_or, later_iff] at ht
        simp only [Option.map_eq_some_iff, Prod.mk.injEq] at hc
        obtain ⟨⟨es, r1⟩, hes, rfl, rfl⟩ := hc
        exact .return_ ht.2 (h.exprs _ _ _ hes).1 (h.exprs _ _ _ hes).2
    | kLocal =>
      simp only [stmt] at hc
      split at hc
      · rename_i ht
        obtain ⟨l', m', rfl⟩ := hd_some.1 ht
        simp only [List.tail_cons, Option.bind_eq_some_iff, Option.map_eq_some_iff, Prod.mk.injEq] at hc
        obtain ⟨⟨x, m1⟩, hx, ⟨f, m2⟩, hf, rfl, rfl⟩ := hc
        obtain ⟨l1, rfl⟩ := ident_some.1 hx
        exact .localfn (h.func _ _ _ hf)
      · simp only [Option.bind_eq_some_iff] at hc
        obtain ⟨⟨xs, m1⟩, hx, hc⟩ := hc
        simp only at hc
        split at hc
        · rename_i ht
          obtain ⟨l', m', rfl⟩ := hd_some.1 ht
          simp only [List.tail_cons, Option.map_eq_some_iff, Prod.mk.injEq] at hc
          obtain ⟨⟨es, r1⟩, hes, rfl, rfl⟩ := hc
          exact .localAssign (locals_sound hx) (h.exprs _ _ _ hes).1 (h.exprs _ _ _ hes).2
        · rename_i ht
          simp only [Option.some.injEq, Prod.mk.injEq] at hc
          obtain ⟨rfl, rfl⟩ := hc
          exact .local_ (locals_sound hx) (by rw [next_eq]; exact ht)
    | kGoto =>
      simp only [stmt, Option.map_eq_some_iff, Prod.mk.injEq] at hc
      obtain ⟨⟨x, r1⟩, hx, rfl, rfl⟩ := hc
      obtain ⟨l1, rfl⟩ := ident_some.1 hx
      exact .goto_
    | dcolon =>
      simp only [stmt, Option.bind_eq_some_iff, Option.map_eq_some_iff, Prod.mk.injEq] at hc
      obtain ⟨⟨x, r1⟩, hx, q, hq, rfl, rfl⟩ := hc
      obtain ⟨l1, rfl⟩ := ident_some.1 hx
      obtain ⟨l2, rfl⟩ := req_some.1 hq
      exact .label
    | kFunction =>
      simp only [stmt, Option.bind_eq_some_iff, Option.map_eq_some_iff, Prod.mk.injEq] at hc
      obtain ⟨⟨f, m1⟩, hf, ⟨p, r1⟩, hp, rfl, rfl⟩ := hc
      exact .func (fnName_sound hf) (h.func _ _ _ hp)
    | quest =>
      simp only [stmt, Option.bind_eq_some_iff] at hc
      obtain ⟨⟨es, m1⟩, hes, hc⟩ := hc
      simp only at hc
      split at hc
      · cases hc
      · rename_i hn
        simp only [Option.some.injEq, Prod.mk.injEq] at hc
        obtain ⟨rfl, rfl⟩ := hc
        exact .print (h.exprs _ _ _ hes).1 (by rw [← continues_iff]; exact hn)
    | _ =>
      simp only [stmt] at hc
      exact h.misc _ _ _ _ hc (by simp [hd])

theorem sound (L : Lang) : ∀ n, Sound L n
  | 0 => by
    constructor <;> intros <;> simp_all [core, expr, loop, args, exprs, items, itemSep, func, ifs, tail, stmt, misc, block]
  | n + 1 => by
    have h := sound L n
    exact ⟨core_sound h, expr_sound h, loop_sound h, args_sound h, exprs_sound h, items_sound h, itemSep_sound h, func_sound h, ifs_sound h,
      tail_sound h, stmt_sound h, misc_sound h, block_sound h⟩

end Verif.Syntax
