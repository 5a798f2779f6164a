import Verif.MinifyLemmas
import Verif.Reflag
/-
Minifying keeps what a program means.
-/
set_option linter.unusedVariables false
set_option linter.unusedSimpArgs false
set_option linter.unusedSectionVars false

namespace Verif.Mini
open Syntax Tidy LuaNorm
open Paren (Op Lang prec Ctx ctxPrec canUnary)

/-- The new literals mean the same as the old ones. -/
structure Cfg.Keeps (C : Cfg) (V : Lit) : Prop where
  plain : ∀ u s s', C.fmt u s = .plain s' → V.num s' = V.num s
  signed : ∀ u s o s', C.fmt u s = .signed o s' → (o = .minus ∨ o = .tilde) ∧ V.sgn o (V.num s') = V.num s
  str : ∀ s, V.str (C.fstr s) = V.str s

/-! What tidy programs have to do with it: only Lua 5.4's fourth value of a generic `for`. -/

section
variable (L : Lang)

mutual
/-- No third value of a generic `for` is cut off in Lua 5.4. -/
def cE : Ex → Prop
  | .func _ b => cB b
  | .group e => cE e
  | .un _ e => cE e
  | .bin _ l r => cE l ∧ cE r
  | .member b _ => cE b
  | .index b k => cE b ∧ cE k
  | .call b _ as => cE b ∧ cEs as
  | .method b _ _ as => cE b ∧ cEs as
  | .table its => cIts its
  | _ => True
def cEs : Exs → Prop
  | .nil => True
  | .cons e es => cE e ∧ cEs es
def cIts : Its → Prop
  | .nil => True
  | .pos e its => cE e ∧ cIts its
  | .named _ e its => cE e ∧ cIts its
  | .keyed k e its => cE k ∧ cE e ∧ cIts its
def cS : St → Prop
  | .do_ b => cB b
  | .if_ i => cI i
  | .while_ e b => cE e ∧ cB b
  | .whileShort e b _ => cE e ∧ cB b
  | .repeat_ b e => cB b ∧ cE e
  | .fornum _ a b s d => cE a ∧ cE b ∧ cEs s ∧ cB d
  | .forin _ es d => cEs es ∧ cB d ∧ (L = .picotron → LuaNorm.len es = 3 → cutLast es = false)
  | .return_ es => cEs es
  | .local_ _ es => cEs es
  | .localfn _ _ b => cB b
  | .func _ _ b => cB b
  | .assign ts es => cEs ts ∧ cEs es
  | .opassign _ t e => cE t ∧ cE e
  | .call e => cE e
  | .print es => cEs es
  | _ => True
def cI : If → Prop
  | .long e b t => cE e ∧ cB b ∧ cT t
  | .short e b _ => cE e ∧ cB b
  | .shortElse e b b' _ => cE e ∧ cB b ∧ cB b'
def cT : Tail → Prop
  | .end_ => True
  | .else_ b => cB b
  | .elseif_ i => cI i
def cB : Block → Prop
  | .nil => True
  | .semi b => cB b
  | .cons s b => cS s ∧ cB b
end

variable {L}

mutual
theorem cut_ofE : ∀ (x : Ex), ∀ sh, tE L sh x → cE L x
  | .var x => by
    intros
    simp only [cE, cEs, cIts, cS, cI, cT, cB]
  | .num x => by
    intros
    simp only [cE, cEs, cIts, cS, cI, cT, cB]
  | .str x => by
    intros
    simp only [cE, cEs, cIts, cS, cI, cT, cB]
  | .cst x => by
    intros
    simp only [cE, cEs, cIts, cS, cI, cT, cB]
  | .vararg => by
    intros
    simp only [cE, cEs, cIts, cS, cI, cT, cB]
  | .func ps b => by
    have ih1 := cut_ofB b
    intro sh h
    simp only [tE, tEs, tIts, tS, tI, tT, tB, cE, cEs, cIts, cS, cI, cT, cB] at *
    exact ih1 _ h
  | .group e => by
    have ih1 := cut_ofE e
    intro sh h
    simp only [tE, tEs, tIts, tS, tI, tT, tB, cE, cEs, cIts, cS, cI, cT, cB] at *
    exact ih1 _ h
  | .un o e => by
    have ih1 := cut_ofE e
    intro sh h
    simp only [tE, tEs, tIts, tS, tI, tT, tB, cE, cEs, cIts, cS, cI, cT, cB] at *
    exact ih1 _ h
  | .bin o l r => by
    have ih1 := cut_ofE l
    have ih2 := cut_ofE r
    intro sh h
    simp only [tE, tEs, tIts, tS, tI, tT, tB, cE, cEs, cIts, cS, cI, cT, cB] at *
    exact ⟨ih1 _ h.1, ih2 _ h.2⟩
  | .member b x => by
    have ih1 := cut_ofE b
    intro sh h
    simp only [tE, tEs, tIts, tS, tI, tT, tB, cE, cEs, cIts, cS, cI, cT, cB] at *
    exact ih1 _ h
  | .index b k => by
    have ih1 := cut_ofE b
    have ih2 := cut_ofE k
    intro sh h
    simp only [tE, tEs, tIts, tS, tI, tT, tB, cE, cEs, cIts, cS, cI, cT, cB] at *
    exact ⟨ih1 _ h.1, ih2 _ h.2⟩
  | .call b t as => by
    have ih1 := cut_ofE b
    have ih2 := cut_ofEs as
    intro sh h
    simp only [tE, tEs, tIts, tS, tI, tT, tB, cE, cEs, cIts, cS, cI, cT, cB] at *
    exact ⟨ih1 _ h.1, ih2 _ h.2⟩
  | .method b x t as => by
    have ih1 := cut_ofE b
    have ih2 := cut_ofEs as
    intro sh h
    simp only [tE, tEs, tIts, tS, tI, tT, tB, cE, cEs, cIts, cS, cI, cT, cB] at *
    exact ⟨ih1 _ h.1, ih2 _ h.2⟩
  | .table its => by
    have ih1 := cut_ofIts its
    intro sh h
    simp only [tE, tEs, tIts, tS, tI, tT, tB, cE, cEs, cIts, cS, cI, cT, cB] at *
    exact ih1 _ h
theorem cut_ofEs : ∀ (x : Exs), ∀ sh, tEs L sh x → cEs L x
  | .nil => by
    intros
    simp only [cE, cEs, cIts, cS, cI, cT, cB]
  | .cons e es => by
    have ih1 := cut_ofE e
    have ih2 := cut_ofEs es
    intro sh h
    simp only [tE, tEs, tIts, tS, tI, tT, tB, cE, cEs, cIts, cS, cI, cT, cB] at *
    exact ⟨ih1 _ h.1, ih2 _ h.2⟩
theorem cut_ofIts : ∀ (x : Its), ∀ sh, tIts L sh x → cIts L x
  | .nil => by
    intros
    simp only [cE, cEs, cIts, cS, cI, cT, cB]
  | .pos e its => by
    have ih1 := cut_ofE e
    have ih2 := cut_ofIts its
    intro sh h
    simp only [tE, tEs, tIts, tS, tI, tT, tB, cE, cEs, cIts, cS, cI, cT, cB] at *
    exact ⟨ih1 _ h.1, ih2 _ h.2⟩
  | .named x e its => by
    have ih1 := cut_ofE e
    have ih2 := cut_ofIts its
    intro sh h
    simp only [tE, tEs, tIts, tS, tI, tT, tB, cE, cEs, cIts, cS, cI, cT, cB] at *
    exact ⟨ih1 _ h.1, ih2 _ h.2⟩
  | .keyed k e its => by
    have ih1 := cut_ofE k
    have ih2 := cut_ofE e
    have ih3 := cut_ofIts its
    intro sh h
    simp only [tE, tEs, tIts, tS, tI, tT, tB, cE, cEs, cIts, cS, cI, cT, cB] at *
    exact ⟨ih1 _ h.1, ih2 _ h.2.1, ih3 _ h.2.2⟩
theorem cut_ofS : ∀ (x : St), ∀ sh, tS L sh x → cS L x
  | .do_ b => by
    have ih1 := cut_ofB b
    intro sh h
    simp only [tE, tEs, tIts, tS, tI, tT, tB, cE, cEs, cIts, cS, cI, cT, cB] at *
    exact ih1 _ h
  | .if_ i => by
    have ih1 := cut_ofI i
    intro sh h
    simp only [tE, tEs, tIts, tS, tI, tT, tB, cE, cEs, cIts, cS, cI, cT, cB] at *
    exact ih1 _ h
  | .while_ e b => by
    have ih1 := cut_ofE e
    have ih2 := cut_ofB b
    intro sh h
    simp only [tE, tEs, tIts, tS, tI, tT, tB, cE, cEs, cIts, cS, cI, cT, cB] at *
    exact ⟨ih1 _ h.1, ih2 _ h.2⟩
  | .whileShort e b d => by
    have ih1 := cut_ofE e
    have ih2 := cut_ofB b
    intro sh h
    simp only [tE, tEs, tIts, tS, tI, tT, tB, cE, cEs, cIts, cS, cI, cT, cB] at *
    exact ⟨ih1 _ h.2.1, ih2 _ h.2.2.1⟩
  | .repeat_ b e => by
    have ih1 := cut_ofB b
    have ih2 := cut_ofE e
    intro sh h
    simp only [tE, tEs, tIts, tS, tI, tT, tB, cE, cEs, cIts, cS, cI, cT, cB] at *
    exact ⟨ih1 _ h.1, ih2 _ h.2⟩
  | .fornum x a b s d => by
    have ih1 := cut_ofE a
    have ih2 := cut_ofE b
    have ih3 := cut_ofEs s
    have ih4 := cut_ofB d
    intro sh h
    simp only [tE, tEs, tIts, tS, tI, tT, tB, cE, cEs, cIts, cS, cI, cT, cB] at *
    exact ⟨ih1 _ h.1, ih2 _ h.2.1, ih3 _ h.2.2.1, ih4 _ h.2.2.2⟩
  | .forin xs es d => by
    have ih1 := cut_ofEs es
    have ih2 := cut_ofB d
    intro sh h
    simp only [tE, tEs, tIts, tS, tI, tT, tB, cE, cEs, cIts, cS, cI, cT, cB] at *
    exact ⟨ih1 _ h.1, ih2 _ h.2.1, h.2.2⟩
  | .break_ => by
    intros
    simp only [cE, cEs, cIts, cS, cI, cT, cB]
  | .return_ es => by
    have ih1 := cut_ofEs es
    intro sh h
    simp only [tE, tEs, tIts, tS, tI, tT, tB, cE, cEs, cIts, cS, cI, cT, cB] at *
    exact ih1 _ h
  | .local_ xs es => by
    have ih1 := cut_ofEs es
    intro sh h
    simp only [tE, tEs, tIts, tS, tI, tT, tB, cE, cEs, cIts, cS, cI, cT, cB] at *
    exact ih1 _ h
  | .localfn x ps b => by
    have ih1 := cut_ofB b
    intro sh h
    simp only [tE, tEs, tIts, tS, tI, tT, tB, cE, cEs, cIts, cS, cI, cT, cB] at *
    exact ih1 _ h
  | .goto_ x => by
    intros
    simp only [cE, cEs, cIts, cS, cI, cT, cB]
  | .label x => by
    intros
    simp only [cE, cEs, cIts, cS, cI, cT, cB]
  | .func f ps b => by
    have ih1 := cut_ofB b
    intro sh h
    simp only [tE, tEs, tIts, tS, tI, tT, tB, cE, cEs, cIts, cS, cI, cT, cB] at *
    exact ih1 _ h
  | .assign ts es => by
    have ih1 := cut_ofEs ts
    have ih2 := cut_ofEs es
    intro sh h
    simp only [tE, tEs, tIts, tS, tI, tT, tB, cE, cEs, cIts, cS, cI, cT, cB] at *
    exact ⟨ih1 _ h.2.1, ih2 _ h.2.2⟩
  | .opassign o t e => by
    have ih1 := cut_ofE t
    have ih2 := cut_ofE e
    intro sh h
    simp only [tE, tEs, tIts, tS, tI, tT, tB, cE, cEs, cIts, cS, cI, cT, cB] at *
    exact ⟨ih1 _ h.2.1, ih2 _ h.2.2⟩
  | .call e => by
    have ih1 := cut_ofE e
    intro sh h
    simp only [tE, tEs, tIts, tS, tI, tT, tB, cE, cEs, cIts, cS, cI, cT, cB] at *
    exact ih1 _ h
  | .print es => by
    have ih1 := cut_ofEs es
    intro sh h
    simp only [tE, tEs, tIts, tS, tI, tT, tB, cE, cEs, cIts, cS, cI, cT, cB] at *
    exact ih1 _ h
theorem cut_ofI : ∀ (x : If), ∀ sh, tI L sh x → cI L x
  | .long e b t => by
    have ih1 := cut_ofE e
    have ih2 := cut_ofB b
    have ih3 := cut_ofT t
    intro sh h
    simp only [tE, tEs, tIts, tS, tI, tT, tB, cE, cEs, cIts, cS, cI, cT, cB] at *
    exact ⟨ih1 _ h.1, ih2 _ h.2.1, ih3 _ h.2.2.1⟩
  | .short e b d => by
    have ih1 := cut_ofE e
    have ih2 := cut_ofB b
    intro sh h
    simp only [tE, tEs, tIts, tS, tI, tT, tB, cE, cEs, cIts, cS, cI, cT, cB] at *
    exact ⟨ih1 _ h.2.1, ih2 _ h.2.2.1⟩
  | .shortElse e b b' d => by
    have ih1 := cut_ofE e
    have ih2 := cut_ofB b
    have ih3 := cut_ofB b'
    intro sh h
    simp only [tE, tEs, tIts, tS, tI, tT, tB, cE, cEs, cIts, cS, cI, cT, cB] at *
    exact ⟨ih1 _ h.2.1, ih2 _ h.2.2.1, ih3 _ h.2.2.2.1⟩
theorem cut_ofT : ∀ (x : Syntax.Tail), ∀ sh, tT L sh x → cT L x
  | .end_ => by
    intros
    simp only [cE, cEs, cIts, cS, cI, cT, cB]
  | .else_ b => by
    have ih1 := cut_ofB b
    intro sh h
    simp only [tE, tEs, tIts, tS, tI, tT, tB, cE, cEs, cIts, cS, cI, cT, cB] at *
    exact ih1 _ h
  | .elseif_ i => by
    have ih1 := cut_ofI i
    intro sh h
    simp only [tE, tEs, tIts, tS, tI, tT, tB, cE, cEs, cIts, cS, cI, cT, cB] at *
    exact ih1 _ h.2
theorem cut_ofB : ∀ (x : Block), ∀ sh, tB L sh x → cB L x
  | .nil => by
    intros
    simp only [cE, cEs, cIts, cS, cI, cT, cB]
  | .semi b => by
    have ih1 := cut_ofB b
    intro sh h
    simp only [tE, tEs, tIts, tS, tI, tT, tB, cE, cEs, cIts, cS, cI, cT, cB] at *
    exact ih1 _ h
  | .cons s b => by
    have ih1 := cut_ofS s
    have ih2 := cut_ofB b
    intro sh h
    simp only [tE, tEs, tIts, tS, tI, tT, tB, cE, cEs, cIts, cS, cI, cT, cB] at *
    exact ⟨ih1 _ h.1, ih2 _ h.2.1⟩
end

end

variable {C : Cfg} {V : Lit} (hC : C.Ok) (hV : C.Keeps V)

theorem len_eq : ∀ es : Exs, lenEs es = len es
  | .nil => rfl
  | .cons e es => by rw [lenEs, len, len_eq es]

theorem len_mEs (c : Ctx) : ∀ es : Exs, len (mEs C c es) = len es
  | .nil => by rw [mEs]
  | .cons e .nil => by simp only [mEs, len]
  | .cons e (.cons f es) => by
    rw [mEs, len, len, len_mEs c (.cons f es)]
    simp

theorem len_mTs : ∀ es : Exs, len (mTs C es) = len es
  | .nil => by rw [mTs]
  | .cons e es => by rw [mTs, len, len, len_mTs es]

include hC in
theorem multi_num (u : Bool) (s : String) : multi (C.fmt u s).ex = false := by
  cases hf : C.fmt u s <;> rfl

include hC in
theorem multi_m : ∀ (e : Ex) (c : Ctx), multi (mE C c e) = multi e
  | .group e, c => by
    rw [mE, multi]
    split
    · exact multi_m e c
    · rw [multi]; exact multi_m e _
  | .num s, c => by rw [mE, multi_num hC]; rfl
  | .call _ _ _, c | .method _ _ _ _, c | .vararg, c | .bin _ _ _, c | .un _ _, c | .member _ _, c | .index _ _, c => by simp [mE, multi]
  | .var _, c | .str _, c | .cst _, c | .func _ _, c | .table _, c => by simp [mE, multi]

/-- A parenthesised expression that could have any number of values. -/
def cut : Ex → Bool
  | .group e => multi e
  | _ => false

variable (L : Lang)

theorem nE_all (all : Bool) : ∀ e : Ex, cut e = false → nE L V all e = nE L V false e
  | .group e, h => by
    have h' : multi e = false := h
    rw [nE, nE, h', Bool.and_false, Bool.and_false]
    exact nE_all all e (by cases e <;> first | rfl | exact h')
  | .num _, _ | .call _ _ _, _ | .method _ _ _ _, _ | .vararg, _ | .bin _ _ _, _ | .un _ _, _ | .member _ _, _ | .index _ _, _ => by simp only [nE]
  | .var _, _ | .str _, _ | .cst _, _ | .func _ _, _ | .table _, _ => by simp only [nE]

theorem nE_cut {e : Ex} (h : multi e = true) (hv : isVararg e = false) : nE L V true e = .group (nE L V false e) := by
  cases e with
  | group e =>
    rw [multi] at h
    rw [nE, nE, h]; simp
  | _ => simp_all [multi, isVararg]

include hC in
theorem cut_single : ∀ e : Ex, cut (mE C .single e) = false
  | .group e => by
    rw [mE, if_pos (by simp [removes, ctxPrec])]
    exact cut_single e
  | .num s => by
    rw [mE]
    cases hf : C.fmt (canUnary .single) s with
    | parens o s' => exact absurd hf (hC.parens _ _ _ _)
    | _ => rfl
  | .call _ _ _ | .method _ _ _ _ | .vararg | .bin _ _ _ | .un _ _ | .member _ _ | .index _ _ => by simp [mE, cut]
  | .var _ | .str _ | .cst _ | .func _ _ | .table _ => by simp [mE, cut]

theorem name_canon (o : Op) : oneName (canonOp C o) = oneName o := by
  cases o <;> simp only [canonOp] <;> (try split) <;> rfl

theorem name_canonEq (o : Op) : oneName (canonEq C o) = oneName o := by
  cases o <;> simp only [canonEq] <;> (try split) <;> rfl

include hC hV in
theorem norm_num (all u : Bool) (s : String) : nE L V all (C.fmt u s).ex = .num (V.num s) := by
  cases hf : C.fmt u s with
  | plain s' => rw [NumOut.ex, nE, hV.plain _ _ _ hf]
  | signed o s' =>
    obtain ⟨h1, h2⟩ := hV.signed _ _ _ _ hf
    rw [NumOut.ex, nE, nE, sign, if_pos h1, h2]
  | parens o s' => exact absurd hf (hC.parens _ _ _ _)

/-- All values are asked for only where parentheses are left alone. -/
def AllOk (all : Bool) (c : Ctx) : Prop := all = true → c = .last ∨ c = .keep

theorem allOk_f (c : Ctx) : AllOk false c := nofun

theorem allOk_last (n : Nat) (es : Exs) : AllOk (decide (len es < n)) (lastCtx n es) := by
  intro h
  have h' := of_decide_eq_true h
  rw [lastCtx, if_neg (by rw [len_eq]; omega)]
  exact .inl rfl

include hC hV
mutual
theorem norm_mE : ∀ (x : Ex), ∀ all c, cE L x → AllOk all c → nE L V all (mE C c x) = nE L V all x
  | .var x => by
    intro all c h ha
    simp only [mE, nE]
  | .num x => by
    intro all c h ha
    rw [mE, norm_num hC hV, nE]
  | .str x => by
    intro all c h ha
    rw [mE, nE, nE, hV.str]
  | .cst x => by
    intro all c h ha
    simp only [mE, nE]
  | .vararg => by
    intro all c h ha
    simp only [mE, nE]
  | .func ps b => by
    have ih1 := norm_mB b
    intro all c h ha
    rw [cE] at h
    rw [mE, nE, nE, ih1 _ _ h]
  | .group e => by
    have ih1 := norm_mE e
    intro all c h ha
    rw [cE] at h
    rw [mE, nE]
    split
    · rename_i hr
      rw [ih1 _ _ h ha]
      split
      · rename_i hm
        rw [Bool.and_eq_true] at hm
        obtain ⟨rfl, hm⟩ := hm
        apply nE_cut _ hm
        rcases ha rfl with rfl | rfl
        · simpa [removes, ctxPrec] using hr
        · simp [removes, ctxPrec] at hr
      · rfl
    · rw [nE, multi_m hC]
      split
      · rw [ih1 _ _ h (allOk_f _)]
      · rename_i hm
        have he : ∀ a, AllOk a .single → nE L V a (mE C .single e) = nE L V a e := fun a ha => ih1 _ _ h ha
        cases all with
        | false => exact he _ (allOk_f _)
        | true =>
          have hm' : multi e = false := by simpa using hm
          rw [nE_all _ _ _ (cut_single hC e), he _ (allOk_f _), nE_all _ true e (by cases e <;> first | rfl | exact hm')]
  | .un o e => by
    have ih1 := norm_mE e
    intro all c h ha
    rw [cE] at h
    rw [mE, nE, nE, ih1 _ _ h (allOk_f _)]
  | .bin o l r => by
    have ih1 := norm_mE l
    have ih2 := norm_mE r
    intro all c h ha
    rw [cE] at h
    rw [mE, nE, nE, name_canon, ih1 _ _ h.1 (allOk_f _), ih2 _ _ h.2 (allOk_f _)]
  | .member b x => by
    have ih1 := norm_mE b
    intro all c h ha
    rw [cE] at h
    rw [mE, nE, nE, ih1 _ _ h (allOk_f _)]
  | .index b k => by
    have ih1 := norm_mE b
    have ih2 := norm_mE k
    intro all c h ha
    rw [cE] at h
    rw [mE, nE, nE, ih1 _ _ h.1 (allOk_f _), ih2 _ _ h.2 (allOk_f _)]
  | .call b t as => by
    have ih1 := norm_mE b
    have ih2 := norm_mEs as
    intro all c h ha
    rw [cE] at h
    rw [mE, nE, nE, ih1 _ _ h.1 (allOk_f _), (ih2 h.2).1 _ _ (fun _ => .inl rfl)]
  | .method b x t as => by
    have ih1 := norm_mE b
    have ih2 := norm_mEs as
    intro all c h ha
    rw [cE] at h
    rw [mE, nE, nE, ih1 _ _ h.1 (allOk_f _), (ih2 h.2).1 _ _ (fun _ => .inl rfl)]
  | .table its => by
    have ih1 := norm_mIts its
    intro all c h ha
    rw [cE] at h
    rw [mE, nE, nE, ih1 h]
theorem norm_mEs : ∀ (x : Exs),  cEs L x → (∀ all c, AllOk all c → nEs L V all (mEs C c x) = nEs L V all x) ∧ nEs L V false (mTs C x) = nEs L V false x ∧
    (cutLast x = false → ∀ all c, c = .single ∨ AllOk all c → nEs L V all (mEs C c x) = nEs L V all x)
  | .nil => by
    intro h
    simp only [mEs, mTs, nEs, implies_true, and_self]
  | .cons e .nil => by
    have ih1 := norm_mE e
    intro h
    rw [cEs] at h
    refine ⟨fun all c ha => ?_, ?_, fun hl all c ha => ?_⟩
    · rw [mEs, nEs, nEs, ih1 _ _ h.1 ha]
    · rw [mTs, mTs, nEs, nEs, ih1 _ _ h.1 (allOk_f _)]
    · rw [mEs, nEs, nEs]
      rcases ha with rfl | ha
      · rw [nE_all _ _ _ (cut_single hC e), ih1 _ _ h.1 (allOk_f _), nE_all _ all e (by cases e <;> first | rfl | exact hl)]
      · rw [ih1 _ _ h.1 ha]
  | .cons e (.cons f es) => by
    have ih1 := norm_mE e
    have ih2 := norm_mEs (.cons f es)
    intro h
    rw [cEs] at h
    have h1 := ih1 false .single h.1 (allOk_f _)
    have h1' := ih1 false .keep h.1 (allOk_f _)
    have ⟨h2, h3, h4⟩ := ih2 h.2
    have hn : nEs L V false (.cons (mE C .keep e) (mTs C (.cons f es))) = .cons (nE L V false (mE C .keep e)) (nEs L V false (mTs C (.cons f es))) := by
      rw [mTs, nEs]; simp
    have hn' : ∀ all c, nEs L V all (.cons (mE C .single e) (mEs C c (.cons f es))) = .cons (nE L V false (mE C .single e)) (nEs L V all (mEs C c (.cons f es))) := by
      intro all c
      cases es <;> simp [mEs, nEs]
    have hr : ∀ all, nEs L V all (.cons e (.cons f es)) = .cons (nE L V false e) (nEs L V all (.cons f es)) := fun _ => rfl
    have hm : ∀ c, mEs C c (.cons e (.cons f es)) = .cons (mE C .single e) (mEs C c (.cons f es)) := by intro c; rw [mEs]; simp
    refine ⟨fun all c ha => ?_, ?_, fun hl all c ha => ?_⟩
    · rw [hm, hn', hr, h1, h2 _ _ ha]
    · rw [mTs, hn, hr, h1', h3]
    · rw [hm, hn', hr, h1, h4 (by cases e <;> exact hl) _ _ ha]
theorem norm_mIts : ∀ (x : Its),  cIts L x → nIts L V (mIts C x) = nIts L V x
  | .nil => by
    intros
    simp only [mIts, nIts]
  | .pos e .nil => by
    have ih1 := norm_mE e
    intro h
    rw [cIts] at h
    rw [mIts, nIts, nIts, ih1 _ _ h.1 (fun _ => .inl rfl)]
  | .pos e (.pos f its) => by
    have ih1 := norm_mE e
    have ih2 := norm_mIts (.pos f its)
    intro h
    rw [cIts] at h
    have h1 := ih1 false .single h.1 (allOk_f _)
    have h2 := ih2 h.2
    have hm : mIts C (.pos e (.pos f its)) = .pos (mE C .single e) (mIts C (.pos f its)) := by rw [mIts]; simp
    have hn : nIts L V (.pos (mE C .single e) (mIts C (.pos f its))) = .pos (nE L V false (mE C .single e)) (nIts L V (mIts C (.pos f its))) := by
      cases its <;> simp [mIts, nIts]
    have hr : nIts L V (.pos e (.pos f its)) = .pos (nE L V false e) (nIts L V (.pos f its)) := rfl
    rw [hm, hn, hr, h1, h2]
  | .pos e (.named y f its) => by
    have ih1 := norm_mE e
    have ih2 := norm_mIts (.named y f its)
    intro h
    rw [cIts] at h
    have h1 := ih1 false .single h.1 (allOk_f _)
    have h2 := ih2 h.2
    have hm : mIts C (.pos e (.named y f its)) = .pos (mE C .single e) (mIts C (.named y f its)) := by rw [mIts]; simp
    have hn : nIts L V (.pos (mE C .single e) (mIts C (.named y f its))) = .pos (nE L V false (mE C .single e)) (nIts L V (mIts C (.named y f its))) := by
      simp [mIts, nIts]
    have hr : nIts L V (.pos e (.named y f its)) = .pos (nE L V false e) (nIts L V (.named y f its)) := rfl
    rw [hm, hn, hr, h1, h2]
  | .pos e (.keyed k f its) => by
    have ih1 := norm_mE e
    have ih2 := norm_mIts (.keyed k f its)
    intro h
    rw [cIts] at h
    have h1 := ih1 false .single h.1 (allOk_f _)
    have h2 := ih2 h.2
    have hm : mIts C (.pos e (.keyed k f its)) = .pos (mE C .single e) (mIts C (.keyed k f its)) := by rw [mIts]; simp
    have hn : nIts L V (.pos (mE C .single e) (mIts C (.keyed k f its))) = .pos (nE L V false (mE C .single e)) (nIts L V (mIts C (.keyed k f its))) := by
      simp [mIts, nIts]
    have hr : nIts L V (.pos e (.keyed k f its)) = .pos (nE L V false e) (nIts L V (.keyed k f its)) := rfl
    rw [hm, hn, hr, h1, h2]
  | .named x e its => by
    have ih1 := norm_mE e
    have ih2 := norm_mIts its
    intro h
    rw [cIts] at h
    rw [mIts, nIts, nIts, ih1 _ _ h.1 (allOk_f _), ih2 h.2]
  | .keyed k e its => by
    have ih1 := norm_mE k
    have ih2 := norm_mE e
    have ih3 := norm_mIts its
    intro h
    rw [cIts] at h
    rw [mIts, nIts, nIts, ih1 _ _ h.1 (allOk_f _), ih2 _ _ h.2.1 (allOk_f _), ih3 h.2.2]
theorem norm_mS : ∀ (x : St), ∀ nx, cS L x → nS L V (mS C nx x) = nS L V x
  | .do_ b => by
    have ih1 := norm_mB b
    intro nx h
    rw [cS] at h
    rw [mS, nS, nS, ih1 _ _ h]
  | .if_ i => by
    have ih1 := norm_mI i
    intro nx h
    rw [cS] at h
    rw [mS, nS, nS, ih1 _ h]
  | .while_ e b => by
    have ih1 := norm_mE e
    have ih2 := norm_mB b
    intro nx h
    rw [cS] at h
    rw [mS, nS, nS, ih1 _ _ h.1 (allOk_f _), ih2 _ _ h.2]
  | .whileShort e b d => by
    have ih1 := norm_mE e
    have ih2 := norm_mB b
    intro nx h
    rw [cS] at h
    rw [mS, nS, nS, ih1 _ _ h.1 (allOk_f _), ih2 _ _ h.2]
  | .repeat_ b e => by
    have ih1 := norm_mB b
    have ih2 := norm_mE e
    intro nx h
    rw [cS] at h
    rw [mS, nS, nS, ih1 _ _ h.1, ih2 _ _ h.2 (allOk_f _)]
  | .fornum x a b s d => by
    have ih1 := norm_mE a
    have ih2 := norm_mE b
    have ih3 := norm_mEs s
    have ih4 := norm_mB d
    intro nx h
    rw [cS] at h
    rw [mS, nS, nS, ih1 _ _ h.1 (allOk_f _), ih2 _ _ h.2.1 (allOk_f _), (ih3 h.2.2.1).1 _ _ (allOk_f _), ih4 _ _ h.2.2.2]
  | .forin xs es d => by
    have ih1 := norm_mEs es
    have ih2 := norm_mB d
    intro nx h
    rw [cS] at h
    rw [mS, nS, nS, ih2 _ _ h.2.1, len_mEs]
    have h1 := ih1 h.1
    rw [show nEs L V (decide (len es < forValues L)) (mEs C (lastCtx 3 es) es) = nEs L V (decide (len es < forValues L)) es from ?_]
    cases L with
    | pico8 => exact h1.1 _ _ (allOk_last 3 es)
    | picotron =>
      by_cases h3 : len es = 3
      · exact h1.2.2 (h.2.2 rfl h3) _ _ (.inl (by rw [lastCtx, if_pos (by rw [len_eq]; omega)]))
      · apply h1.1
        intro hd
        have hd' : len es < 4 := of_decide_eq_true hd
        rw [lastCtx, if_neg (by rw [len_eq]; omega)]
        exact .inl rfl
  | .break_ => by
    intros
    simp only [mS]
  | .return_ es => by
    have ih1 := norm_mEs es
    intro nx h
    rw [cS] at h
    rw [mS, nS, nS, (ih1 h).1 _ _ (fun _ => .inl rfl)]
  | .local_ xs es => by
    have ih1 := norm_mEs es
    intro nx h
    rw [cS] at h
    rw [mS, nS, nS, len_mEs, (ih1 h).1 _ _ (allOk_last _ _)]
  | .localfn x ps b => by
    have ih1 := norm_mB b
    intro nx h
    rw [cS] at h
    rw [mS, nS, nS, ih1 _ _ h]
  | .goto_ x => by
    intros
    simp only [mS]
  | .label x => by
    intros
    simp only [mS]
  | .func f ps b => by
    have ih1 := norm_mB b
    intro nx h
    rw [cS] at h
    rw [mS, nS, nS, ih1 _ _ h]
  | .assign ts es => by
    have ih1 := norm_mEs ts
    have ih2 := norm_mEs es
    intro nx h
    rw [cS] at h
    rw [mS, nS, nS, len_mEs, len_mTs, (ih1 h.1).2.1, len_eq ts, (ih2 h.2).1 _ _ (allOk_last _ _)]
  | .opassign o t e => by
    have ih1 := norm_mE t
    have ih2 := norm_mE e
    intro nx h
    rw [cS] at h
    rw [mS, nS, nS, name_canonEq, ih1 _ _ h.1 (allOk_f _), ih2 _ _ h.2 (allOk_f _)]
  | .call e => by
    have ih1 := norm_mE e
    intro nx h
    rw [cS] at h
    rw [mS, nS, nS, ih1 _ _ h (allOk_f _)]
  | .print es => by
    have ih1 := norm_mEs es
    intro nx h
    rw [cS] at h
    rw [mS, nS, nS, (ih1 h).1 _ _ (fun _ => .inl rfl)]
theorem norm_mI : ∀ (x : If), ∀ nx, cI L x → nI L V (mI C nx x) = nI L V x
  | .long e b t => by
    have ih1 := norm_mE e
    have ih2 := norm_mB b
    have ih3 := norm_mT t
    intro nx h
    rw [cI] at h
    rw [mI, nI, nI, ih1 _ _ h.1 (allOk_f _), ih2 _ _ h.2.1, ih3 h.2.2]
  | .short e b d => by
    have ih1 := norm_mE e
    have ih2 := norm_mB b
    intro nx h
    rw [cI] at h
    rw [mI, nI, nI, ih1 _ _ h.1 (allOk_f _), ih2 _ _ h.2]
  | .shortElse e b b' d => by
    have ih1 := norm_mE e
    have ih2 := norm_mB b
    have ih3 := norm_mB b'
    intro nx h
    rw [cI] at h
    rw [mI, nI, nI, ih1 _ _ h.1 (allOk_f _), ih2 _ _ h.2.1, ih3 _ _ h.2.2]
theorem norm_mT : ∀ (x : Tail),  cT L x → nT L V (mT C x) = nT L V x
  | .end_ => by
    intros
    rw [mT]
  | .else_ b => by
    have ih1 := norm_mB b
    intro h
    rw [cT] at h
    rw [mT, nT, nT, ih1 _ _ h]
  | .elseif_ i => by
    have ih1 := norm_mI i
    intro h
    rw [cT] at h
    rw [mT, nT, nT, ih1 _ h]
theorem norm_mB : ∀ (x : Block), ∀ nx k, cB L x → nB L V (mB C nx k x) = nB L V x
  | .nil => by
    intros
    rw [mB]
  | .semi b => by
    have ih1 := norm_mB b
    intro nx k h
    rw [cB] at h
    rw [mB, nB]
    split
    · rw [nB]; exact ih1 _ _ h
    · exact ih1 _ _ h
  | .cons s b => by
    have ih1 := norm_mS s
    have ih2 := norm_mB b
    intro nx k h
    rw [cB] at h
    rw [mB, nB, nB, ih1 _ h.1, ih2 _ _ h.2]
end

/-- Minifying keeps the meaning. -/
theorem norm_mini {b : Block} (h : Tidy.Tidy L b) : nB L V (mini C b) = nB L V b := norm_mB hC hV L b false false (cut_ofB b _ h.1)

end Verif.Mini
