import Verif.FineOf
import Verif.Spec.LuaNorm
/-
Minified trees are as fine as the trees they come from.
-/
set_option linter.unusedVariables false
set_option linter.unusedSimpArgs false
set_option linter.unusedSectionVars false
namespace Verif.Mini
open Syntax Tidy
open LuaGrammar (openEnd Binary unaryOps inLang leftOps)
open Paren (Op Lang prec Ctx ctxPrec ctxRightAssoc ctxIsRight canUnary unPrec)

/-- Formatted numerals are expressions again: signs are used where they may be. -/
structure Cfg.Ok (C : Cfg) : Prop where
  sign : ∀ s o s', C.fmt false s ≠ .signed o s'
  parens : ∀ u s o s', C.fmt u s ≠ .parens o s'
  op : ∀ u s o s', C.fmt u s = .signed o s' → o ∈ unaryOps C.L

variable (C : Cfg)

/-! ### What stays the same -/

theorem calm_num (o : NumOut) : calmE o.ex = true := by cases o <;> simp [NumOut.ex, calmE]

mutual
theorem calm_mE : ∀ (x : Ex), ∀ c, calmE (mE C c x) = calmE x
  | .var x => by
    simp_all [-Bool.forall_bool, calmE, calmEs, calmIts, calmS, calmI, calmT, calmB, mE, mEs, mTs, mIts, mS, mI, mT, mB, calm_num]
  | .num x => by
    simp_all [-Bool.forall_bool, calmE, calmEs, calmIts, calmS, calmI, calmT, calmB, mE, mEs, mTs, mIts, mS, mI, mT, mB, calm_num]
  | .str x => by
    simp_all [-Bool.forall_bool, calmE, calmEs, calmIts, calmS, calmI, calmT, calmB, mE, mEs, mTs, mIts, mS, mI, mT, mB, calm_num]
  | .cst x => by
    simp_all [-Bool.forall_bool, calmE, calmEs, calmIts, calmS, calmI, calmT, calmB, mE, mEs, mTs, mIts, mS, mI, mT, mB, calm_num]
  | .vararg => by
    simp_all [-Bool.forall_bool, calmE, calmEs, calmIts, calmS, calmI, calmT, calmB, mE, mEs, mTs, mIts, mS, mI, mT, mB, calm_num]
  | .func ps b => by
    have ih1 := calm_mB b
    simp_all [-Bool.forall_bool, calmE, calmEs, calmIts, calmS, calmI, calmT, calmB, mE, mEs, mTs, mIts, mS, mI, mT, mB, calm_num]
  | .group e => by
    have ih1 := calm_mE e
    intro c
    rw [mE]
    split <;> simp_all [-Bool.forall_bool, calmE]
  | .un o e => by
    have ih1 := calm_mE e
    simp_all [-Bool.forall_bool, calmE, calmEs, calmIts, calmS, calmI, calmT, calmB, mE, mEs, mTs, mIts, mS, mI, mT, mB, calm_num]
  | .bin o l r => by
    have ih1 := calm_mE l
    have ih2 := calm_mE r
    simp_all [-Bool.forall_bool, calmE, calmEs, calmIts, calmS, calmI, calmT, calmB, mE, mEs, mTs, mIts, mS, mI, mT, mB, calm_num]
  | .member b x => by
    have ih1 := calm_mE b
    simp_all [-Bool.forall_bool, calmE, calmEs, calmIts, calmS, calmI, calmT, calmB, mE, mEs, mTs, mIts, mS, mI, mT, mB, calm_num]
  | .index b k => by
    have ih1 := calm_mE b
    have ih2 := calm_mE k
    simp_all [-Bool.forall_bool, calmE, calmEs, calmIts, calmS, calmI, calmT, calmB, mE, mEs, mTs, mIts, mS, mI, mT, mB, calm_num]
  | .call b t as => by
    have ih1 := calm_mE b
    have ih2 := calm_mEs as
    simp_all [-Bool.forall_bool, calmE, calmEs, calmIts, calmS, calmI, calmT, calmB, mE, mEs, mTs, mIts, mS, mI, mT, mB, calm_num]
  | .method b x t as => by
    have ih1 := calm_mE b
    have ih2 := calm_mEs as
    simp_all [-Bool.forall_bool, calmE, calmEs, calmIts, calmS, calmI, calmT, calmB, mE, mEs, mTs, mIts, mS, mI, mT, mB, calm_num]
  | .table its => by
    have ih1 := calm_mIts its
    simp_all [-Bool.forall_bool, calmE, calmEs, calmIts, calmS, calmI, calmT, calmB, mE, mEs, mTs, mIts, mS, mI, mT, mB, calm_num]
theorem calm_mEs : ∀ (x : Exs), (∀ c, calmEs (mEs C c x) = calmEs x) ∧ calmEs (mTs C x) = calmEs x
  | .nil => by
    simp_all [-Bool.forall_bool, calmE, calmEs, calmIts, calmS, calmI, calmT, calmB, mE, mEs, mTs, mIts, mS, mI, mT, mB, calm_num]
  | .cons e .nil => by
    have ih1 := calm_mE e
    simp_all [-Bool.forall_bool, calmE, calmEs, calmIts, calmS, calmI, calmT, calmB, mE, mEs, mTs, mIts, mS, mI, mT, mB, calm_num]
  | .cons e (.cons f es) => by
    have ih1 := calm_mE e
    have ih2 := calm_mEs (.cons f es)
    simp_all [-Bool.forall_bool, calmE, calmEs, calmIts, calmS, calmI, calmT, calmB, mE, mEs, mTs, mIts, mS, mI, mT, mB, calm_num]
theorem calm_mIts : ∀ (x : Its), calmIts (mIts C x) = calmIts x
  | .nil => by
    simp_all [-Bool.forall_bool, calmE, calmEs, calmIts, calmS, calmI, calmT, calmB, mE, mEs, mTs, mIts, mS, mI, mT, mB, calm_num]
  | .pos e .nil => by
    have ih1 := calm_mE e
    simp_all [-Bool.forall_bool, calmE, calmEs, calmIts, calmS, calmI, calmT, calmB, mE, mEs, mTs, mIts, mS, mI, mT, mB, calm_num]
  | .pos e (.pos f its) => by
    have ih1 := calm_mE e
    have ih2 := calm_mIts (.pos f its)
    simp_all [-Bool.forall_bool, calmE, calmEs, calmIts, calmS, calmI, calmT, calmB, mE, mEs, mTs, mIts, mS, mI, mT, mB, calm_num]
  | .pos e (.named y f its) => by
    have ih1 := calm_mE e
    have ih2 := calm_mIts (.named y f its)
    simp_all [-Bool.forall_bool, calmE, calmEs, calmIts, calmS, calmI, calmT, calmB, mE, mEs, mTs, mIts, mS, mI, mT, mB, calm_num]
  | .pos e (.keyed k f its) => by
    have ih1 := calm_mE e
    have ih2 := calm_mIts (.keyed k f its)
    simp_all [-Bool.forall_bool, calmE, calmEs, calmIts, calmS, calmI, calmT, calmB, mE, mEs, mTs, mIts, mS, mI, mT, mB, calm_num]
  | .named x e its => by
    have ih1 := calm_mE e
    have ih2 := calm_mIts its
    simp_all [-Bool.forall_bool, calmE, calmEs, calmIts, calmS, calmI, calmT, calmB, mE, mEs, mTs, mIts, mS, mI, mT, mB, calm_num]
  | .keyed k e its => by
    have ih1 := calm_mE k
    have ih2 := calm_mE e
    have ih3 := calm_mIts its
    simp_all [-Bool.forall_bool, calmE, calmEs, calmIts, calmS, calmI, calmT, calmB, mE, mEs, mTs, mIts, mS, mI, mT, mB, calm_num]
theorem calm_mS : ∀ (x : St), ∀ nx, calmS (mS C nx x) = calmS x
  | .do_ b => by
    have ih1 := calm_mB b
    simp_all [-Bool.forall_bool, calmE, calmEs, calmIts, calmS, calmI, calmT, calmB, mE, mEs, mTs, mIts, mS, mI, mT, mB, calm_num]
  | .if_ i => by
    have ih1 := calm_mI i
    simp_all [-Bool.forall_bool, calmE, calmEs, calmIts, calmS, calmI, calmT, calmB, mE, mEs, mTs, mIts, mS, mI, mT, mB, calm_num]
  | .while_ e b => by
    have ih1 := calm_mE e
    have ih2 := calm_mB b
    simp_all [-Bool.forall_bool, calmE, calmEs, calmIts, calmS, calmI, calmT, calmB, mE, mEs, mTs, mIts, mS, mI, mT, mB, calm_num]
  | .whileShort e b d => by
    have ih1 := calm_mE e
    have ih2 := calm_mB b
    simp_all [-Bool.forall_bool, calmE, calmEs, calmIts, calmS, calmI, calmT, calmB, mE, mEs, mTs, mIts, mS, mI, mT, mB, calm_num]
  | .repeat_ b e => by
    have ih1 := calm_mB b
    have ih2 := calm_mE e
    simp_all [-Bool.forall_bool, calmE, calmEs, calmIts, calmS, calmI, calmT, calmB, mE, mEs, mTs, mIts, mS, mI, mT, mB, calm_num]
  | .fornum x a b s d => by
    have ih1 := calm_mE a
    have ih2 := calm_mE b
    have ih3 := calm_mEs s
    have ih4 := calm_mB d
    simp_all [-Bool.forall_bool, calmE, calmEs, calmIts, calmS, calmI, calmT, calmB, mE, mEs, mTs, mIts, mS, mI, mT, mB, calm_num]
  | .forin xs es d => by
    have ih1 := calm_mEs es
    have ih2 := calm_mB d
    simp_all [-Bool.forall_bool, calmE, calmEs, calmIts, calmS, calmI, calmT, calmB, mE, mEs, mTs, mIts, mS, mI, mT, mB, calm_num]
  | .break_ => by
    simp_all [-Bool.forall_bool, calmE, calmEs, calmIts, calmS, calmI, calmT, calmB, mE, mEs, mTs, mIts, mS, mI, mT, mB, calm_num]
  | .return_ es => by
    have ih1 := calm_mEs es
    simp_all [-Bool.forall_bool, calmE, calmEs, calmIts, calmS, calmI, calmT, calmB, mE, mEs, mTs, mIts, mS, mI, mT, mB, calm_num]
  | .local_ xs es => by
    have ih1 := calm_mEs es
    simp_all [-Bool.forall_bool, calmE, calmEs, calmIts, calmS, calmI, calmT, calmB, mE, mEs, mTs, mIts, mS, mI, mT, mB, calm_num]
  | .localfn x ps b => by
    have ih1 := calm_mB b
    simp_all [-Bool.forall_bool, calmE, calmEs, calmIts, calmS, calmI, calmT, calmB, mE, mEs, mTs, mIts, mS, mI, mT, mB, calm_num]
  | .goto_ x => by
    simp_all [-Bool.forall_bool, calmE, calmEs, calmIts, calmS, calmI, calmT, calmB, mE, mEs, mTs, mIts, mS, mI, mT, mB, calm_num]
  | .label x => by
    simp_all [-Bool.forall_bool, calmE, calmEs, calmIts, calmS, calmI, calmT, calmB, mE, mEs, mTs, mIts, mS, mI, mT, mB, calm_num]
  | .func f ps b => by
    have ih1 := calm_mB b
    simp_all [-Bool.forall_bool, calmE, calmEs, calmIts, calmS, calmI, calmT, calmB, mE, mEs, mTs, mIts, mS, mI, mT, mB, calm_num]
  | .assign ts es => by
    have ih1 := calm_mEs ts
    have ih2 := calm_mEs es
    simp_all [-Bool.forall_bool, calmE, calmEs, calmIts, calmS, calmI, calmT, calmB, mE, mEs, mTs, mIts, mS, mI, mT, mB, calm_num]
  | .opassign o t e => by
    have ih1 := calm_mE t
    have ih2 := calm_mE e
    simp_all [-Bool.forall_bool, calmE, calmEs, calmIts, calmS, calmI, calmT, calmB, mE, mEs, mTs, mIts, mS, mI, mT, mB, calm_num]
  | .call e => by
    have ih1 := calm_mE e
    simp_all [-Bool.forall_bool, calmE, calmEs, calmIts, calmS, calmI, calmT, calmB, mE, mEs, mTs, mIts, mS, mI, mT, mB, calm_num]
  | .print es => by
    have ih1 := calm_mEs es
    simp_all [-Bool.forall_bool, calmE, calmEs, calmIts, calmS, calmI, calmT, calmB, mE, mEs, mTs, mIts, mS, mI, mT, mB, calm_num]
theorem calm_mI : ∀ (x : If), ∀ nx, calmI (mI C nx x) = calmI x
  | .long e b t => by
    have ih1 := calm_mE e
    have ih2 := calm_mB b
    have ih3 := calm_mT t
    simp_all [-Bool.forall_bool, calmE, calmEs, calmIts, calmS, calmI, calmT, calmB, mE, mEs, mTs, mIts, mS, mI, mT, mB, calm_num]
  | .short e b d => by
    have ih1 := calm_mE e
    have ih2 := calm_mB b
    simp_all [-Bool.forall_bool, calmE, calmEs, calmIts, calmS, calmI, calmT, calmB, mE, mEs, mTs, mIts, mS, mI, mT, mB, calm_num]
  | .shortElse e b b' d => by
    have ih1 := calm_mE e
    have ih2 := calm_mB b
    have ih3 := calm_mB b'
    simp_all [-Bool.forall_bool, calmE, calmEs, calmIts, calmS, calmI, calmT, calmB, mE, mEs, mTs, mIts, mS, mI, mT, mB, calm_num]
theorem calm_mT : ∀ (x : Tail), calmT (mT C x) = calmT x
  | .end_ => by
    simp_all [-Bool.forall_bool, calmE, calmEs, calmIts, calmS, calmI, calmT, calmB, mE, mEs, mTs, mIts, mS, mI, mT, mB, calm_num]
  | .else_ b => by
    have ih1 := calm_mB b
    simp_all [-Bool.forall_bool, calmE, calmEs, calmIts, calmS, calmI, calmT, calmB, mE, mEs, mTs, mIts, mS, mI, mT, mB, calm_num]
  | .elseif_ i => by
    have ih1 := calm_mI i
    simp_all [-Bool.forall_bool, calmE, calmEs, calmIts, calmS, calmI, calmT, calmB, mE, mEs, mTs, mIts, mS, mI, mT, mB, calm_num]
theorem calm_mB : ∀ (x : Block), ∀ nx k, calmB (mB C nx k x) = calmB x
  | .nil => by
    simp_all [-Bool.forall_bool, calmE, calmEs, calmIts, calmS, calmI, calmT, calmB, mE, mEs, mTs, mIts, mS, mI, mT, mB, calm_num]
  | .semi b => by
    have ih1 := calm_mB b
    intro nx k
    rw [mB]
    split <;> simp_all [-Bool.forall_bool, calmB]
  | .cons s b => by
    have ih1 := calm_mS s
    have ih2 := calm_mB b
    simp_all [-Bool.forall_bool, calmE, calmEs, calmIts, calmS, calmI, calmT, calmB, mE, mEs, mTs, mIts, mS, mI, mT, mB, calm_num]
end

theorem semis_mB : ∀ (b : Block) (nx k : Bool), semis (mB C nx k b) = semis b
  | .nil, _, _ => by simp [mB]
  | .semi b, nx, k => by
    have ih := semis_mB b nx k
    rw [mB]
    split <;> simp_all [-Bool.forall_bool, semis]
  | .cons s b, nx, k => by simp [mB, semis]

theorem doB_mB : ∀ (b : Block) (nx k : Bool), doB (mB C nx k b) = doB b
  | .nil, _, _ => by simp [mB]
  | .semi b, nx, k => by
    have ih := doB_mB b nx k
    rw [mB]
    split <;> simp_all [-Bool.forall_bool, doB]
  | .cons s b, nx, k => by
    rw [mB]
    cases s <;> simp [doB, mS]

theorem isRet0_mS (s : St) (nx : Bool) : isRet0 (mS C nx s) = isRet0 s := by
  cases s with
  | return_ es => cases es with
    | nil => simp [mS, mEs, isRet0]
    | cons e es => cases es <;> simp [mS, mEs, isRet0]
  | _ => simp [mS, isRet0]

theorem endsRet_mB : ∀ (b : Block) (nx k : Bool), endsRet (mB C nx k b) = endsRet b
  | .nil, _, _ => by simp [mB]
  | .semi b, nx, k => by
    have ih := endsRet_mB b nx k
    rw [mB]
    split <;> simp_all [-Bool.forall_bool, endsRet]
  | .cons s b, nx, k => by
    have ih := endsRet_mB b nx k
    rw [mB, endsRet, endsRet, semis_mB, isRet0_mS, ih]

theorem flag_mS (s : St) (nx : Bool) : flag (mS C nx s) = flag s := by
  cases s with
  | if_ i => cases i <;> simp [mS, mI, flag, flagI]
  | _ => simp [mS, flag]

theorem isElse_mT (t : Tail) : isElse (mT C t) = isElse t := by cases t <;> simp [mT, isElse]
theorem isLong_mI (i : If) (nx : Bool) : isLong (mI C nx i) = isLong i := by cases i <;> simp [mI, isLong]

mutual
theorem dangle_mS : ∀ (x : St), ∀ sh nx, dangleS sh (mS C nx x) = dangleS sh x
  | .do_ b => by
    have ih1 := dangle_mB b
    simp_all [-Bool.forall_bool, dangleS, dangleI, dangleB, mS, mI, mB, semis_mB]
  | .if_ i => by
    have ih1 := dangle_mI i
    simp_all [-Bool.forall_bool, dangleS, dangleI, dangleB, mS, mI, mB, semis_mB]
  | .while_ e b => by
    have ih1 := dangle_mB b
    simp_all [-Bool.forall_bool, dangleS, dangleI, dangleB, mS, mI, mB, semis_mB]
  | .whileShort e b d => by
    have ih1 := dangle_mB b
    simp_all [-Bool.forall_bool, dangleS, dangleI, dangleB, mS, mI, mB, semis_mB]
  | .repeat_ b e => by
    have ih1 := dangle_mB b
    simp_all [-Bool.forall_bool, dangleS, dangleI, dangleB, mS, mI, mB, semis_mB]
  | .fornum x a b s d => by
    have ih1 := dangle_mB d
    simp_all [-Bool.forall_bool, dangleS, dangleI, dangleB, mS, mI, mB, semis_mB]
  | .forin xs es d => by
    have ih1 := dangle_mB d
    simp_all [-Bool.forall_bool, dangleS, dangleI, dangleB, mS, mI, mB, semis_mB]
  | .break_ => by
    simp_all [-Bool.forall_bool, dangleS, dangleI, dangleB, mS, mI, mB, semis_mB]
  | .return_ es => by
    simp_all [-Bool.forall_bool, dangleS, dangleI, dangleB, mS, mI, mB, semis_mB]
  | .local_ xs es => by
    simp_all [-Bool.forall_bool, dangleS, dangleI, dangleB, mS, mI, mB, semis_mB]
  | .localfn x ps b => by
    have ih1 := dangle_mB b
    simp_all [-Bool.forall_bool, dangleS, dangleI, dangleB, mS, mI, mB, semis_mB]
  | .goto_ x => by
    simp_all [-Bool.forall_bool, dangleS, dangleI, dangleB, mS, mI, mB, semis_mB]
  | .label x => by
    simp_all [-Bool.forall_bool, dangleS, dangleI, dangleB, mS, mI, mB, semis_mB]
  | .func f ps b => by
    have ih1 := dangle_mB b
    simp_all [-Bool.forall_bool, dangleS, dangleI, dangleB, mS, mI, mB, semis_mB]
  | .assign ts es => by
    simp_all [-Bool.forall_bool, dangleS, dangleI, dangleB, mS, mI, mB, semis_mB]
  | .opassign o t e => by
    simp_all [-Bool.forall_bool, dangleS, dangleI, dangleB, mS, mI, mB, semis_mB]
  | .call e => by
    simp_all [-Bool.forall_bool, dangleS, dangleI, dangleB, mS, mI, mB, semis_mB]
  | .print es => by
    simp_all [-Bool.forall_bool, dangleS, dangleI, dangleB, mS, mI, mB, semis_mB]
theorem dangle_mI : ∀ (x : If), ∀ sh nx, dangleI sh (mI C nx x) = dangleI sh x
  | .long e b t => by
    have ih1 := dangle_mB b
    simp_all [-Bool.forall_bool, dangleS, dangleI, dangleB, mS, mI, mB, semis_mB]
  | .short e b d => by
    have ih1 := dangle_mB b
    simp_all [-Bool.forall_bool, dangleS, dangleI, dangleB, mS, mI, mB, semis_mB]
  | .shortElse e b b' d => by
    have ih1 := dangle_mB b
    have ih2 := dangle_mB b'
    simp_all [-Bool.forall_bool, dangleS, dangleI, dangleB, mS, mI, mB, semis_mB]
theorem dangle_mB : ∀ (x : Block), ∀ sh nx k, dangleB sh (mB C nx k x) = dangleB sh x
  | .nil => by
    simp_all [-Bool.forall_bool, dangleS, dangleI, dangleB, mS, mI, mB, semis_mB]
  | .semi b => by
    have ih1 := dangle_mB b
    intro sh nx k
    rw [mB]
    split <;> simp_all [-Bool.forall_bool, dangleB]
  | .cons s b => by
    have ih1 := dangle_mS s
    have ih2 := dangle_mB b
    simp_all [-Bool.forall_bool, dangleS, dangleI, dangleB, mS, mI, mB, semis_mB]
end

mutual
theorem cond_mS : ∀ (x : St), ∀ L nx, condS L (mS C nx x) = condS L x
  | .do_ b => by
    have ih1 := cond_mB b
    simp_all [-Bool.forall_bool, condS, condI, condB, mS, mI, mB]
  | .if_ i => by
    have ih1 := cond_mI i
    simp_all [-Bool.forall_bool, condS, condI, condB, mS, mI, mB]
  | .while_ e b => by
    have ih1 := cond_mB b
    simp_all [-Bool.forall_bool, condS, condI, condB, mS, mI, mB]
  | .whileShort e b d => by
    have ih1 := cond_mB b
    simp_all [-Bool.forall_bool, condS, condI, condB, mS, mI, mB]
  | .repeat_ b e => by
    have ih1 := cond_mB b
    simp_all [-Bool.forall_bool, condS, condI, condB, mS, mI, mB]
  | .fornum x a b s d => by
    have ih1 := cond_mB d
    simp_all [-Bool.forall_bool, condS, condI, condB, mS, mI, mB]
  | .forin xs es d => by
    have ih1 := cond_mB d
    simp_all [-Bool.forall_bool, condS, condI, condB, mS, mI, mB]
  | .break_ => by
    simp_all [-Bool.forall_bool, condS, condI, condB, mS, mI, mB]
  | .return_ es => by
    simp_all [-Bool.forall_bool, condS, condI, condB, mS, mI, mB]
  | .local_ xs es => by
    simp_all [-Bool.forall_bool, condS, condI, condB, mS, mI, mB]
  | .localfn x ps b => by
    have ih1 := cond_mB b
    simp_all [-Bool.forall_bool, condS, condI, condB, mS, mI, mB]
  | .goto_ x => by
    simp_all [-Bool.forall_bool, condS, condI, condB, mS, mI, mB]
  | .label x => by
    simp_all [-Bool.forall_bool, condS, condI, condB, mS, mI, mB]
  | .func f ps b => by
    have ih1 := cond_mB b
    simp_all [-Bool.forall_bool, condS, condI, condB, mS, mI, mB]
  | .assign ts es => by
    simp_all [-Bool.forall_bool, condS, condI, condB, mS, mI, mB]
  | .opassign o t e => by
    simp_all [-Bool.forall_bool, condS, condI, condB, mS, mI, mB]
  | .call e => by
    simp_all [-Bool.forall_bool, condS, condI, condB, mS, mI, mB]
  | .print es => by
    simp_all [-Bool.forall_bool, condS, condI, condB, mS, mI, mB]
theorem cond_mI : ∀ (x : If), ∀ L nx, condI L (mI C nx x) = condI L x
  | .long e b t => by
    have ih1 := cond_mB b
    simp_all [-Bool.forall_bool, condS, condI, condB, mS, mI, mB]
  | .short e b d => by
    have ih1 := cond_mB b
    simp_all [-Bool.forall_bool, condS, condI, condB, mS, mI, mB]
  | .shortElse e b b' d => by
    have ih1 := cond_mB b
    have ih2 := cond_mB b'
    simp_all [-Bool.forall_bool, condS, condI, condB, mS, mI, mB]
theorem cond_mB : ∀ (x : Block), ∀ L d nx k, condB L d (mB C nx k x) = condB L d x
  | .nil => by
    simp_all [-Bool.forall_bool, condS, condI, condB, mS, mI, mB]
  | .semi b => by
    have ih1 := cond_mB b
    intro L d nx k
    rw [mB]
    split <;> simp_all [-Bool.forall_bool, condB]
  | .cons s b => by
    have ih1 := cond_mS s
    have ih2 := cond_mB b
    simp_all [-Bool.forall_bool, condS, condI, condB, mS, mI, mB]
end

/-! ### What may get less -/

variable {C} (hC : C.Ok)
include hC

theorem lead_mE : ∀ (e : Ex) (c : Ctx), leadLp (mE C c e) = true → leadLp e = true
  | .bin o l r, c, h => by rw [mE, leadLp] at h; rw [leadLp]; exact lead_mE l _ h
  | .member l _, c, h => by rw [mE, leadLp] at h; rw [leadLp]; exact lead_mE l _ h
  | .index l _, c, h => by rw [mE, leadLp] at h; rw [leadLp]; exact lead_mE l _ h
  | .call l _ _, c, h => by rw [mE, leadLp] at h; rw [leadLp]; exact lead_mE l _ h
  | .method l _ _ _, c, h => by rw [mE, leadLp] at h; rw [leadLp]; exact lead_mE l _ h
  | .num s, c, h => by
    rw [mE] at h
    cases hf : C.fmt (canUnary c) s with
    | plain s => rw [hf] at h; simp [NumOut.ex, leadLp] at h
    | signed o s => rw [hf] at h; simp [NumOut.ex, leadLp] at h
    | parens o s' => exact absurd hf (hC.parens _ _ _ _)
  | .group _, _, _ => rfl
  | .var _, _, h | .str _, _, h | .cst _, _, h | .vararg, _, h | .func _ _, _, h | .un _ _, _, h | .table _, _, h => by simp [mE, leadLp] at h

theorem lead_mS (s : St) (nx : Bool) (h : leadS (mS C nx s) = true) : leadS s = true := by
  cases s with
  | assign ts es =>
    cases ts with
    | nil => simp [mS, mTs, leadS, leadEs] at h
    | cons t ts => rw [mS, mTs, leadS, leadEs] at h; rw [leadS, leadEs]; exact lead_mE hC t _ h
  | opassign o t e => rw [mS, leadS] at h; rw [leadS]; exact lead_mE hC t _ h
  | call e => rw [mS, leadS] at h; rw [leadS]; exact lead_mE hC e _ h
  | _ => simp [mS, leadS] at h

theorem lead_mB : ∀ (b : Block) (nx k : Bool), leadB (mB C nx k b) = true → leadB b = true
  | .nil, nx, k, h => by simp [mB, leadB] at h
  | .semi b, nx, k, h => by
    rw [mB] at h
    split at h
    · simp [leadB] at h
    · rename_i hn
      have hl := lead_mB b nx k h
      have : nextLp nx b = true := by
        cases b with
        | nil => simp [leadB] at hl
        | semi b => simp [leadB] at hl
        | cons s b => exact hl
      simp [this] at hn
  | .cons s b, nx, k, h => by rw [mB, leadB] at h; exact lead_mS hC s _ h

theorem open_mE : ∀ (e : Ex) (c : Ctx), openEnd (mE C c e) = true → openEnd e = true
  | .bin o l r, c, h => by rw [mE, openEnd] at h; rw [openEnd]; exact open_mE r _ h
  | .un o l, c, h => by rw [mE, openEnd] at h; rw [openEnd]; exact open_mE l _ h
  | .num s, c, h => by
    rw [mE] at h
    cases hf : C.fmt (canUnary c) s with
    | plain s => rw [hf] at h; simp [NumOut.ex, openEnd] at h
    | signed o s => rw [hf] at h; simp [NumOut.ex, openEnd] at h
    | parens o s' => exact absurd hf (hC.parens _ _ _ _)
  | .group _, _, _ | .var _, _, _ | .member _ _, _, _ | .index _ _, _, _ | .call _ _ _, _, _ | .method _ _ _ _, _, _ => rfl
  | .str _, _, h | .cst _, _, h | .vararg, _, h | .func _ _, _, h | .table _, _, h => by simp [mE, openEnd] at h

theorem open_mEs : ∀ (es : Exs) (c : Ctx), openEs (mEs C c es) = true → openEs es = true
  | .nil, c, h => by simp [mEs, openEs] at h
  | .cons e .nil, c, h => by rw [mEs, openEs] at h; exact open_mE hC e _ h
  | .cons e (.cons f es), c, h => by
    have ih := open_mEs (.cons f es) c
    rw [mEs] at h
    · cases es <;> simp only [mEs, openEs] at h ih ⊢ <;> exact ih h
    · simp

omit hC in
theorem mB_ne : ∀ (b : Block) (k : Bool), b ≠ .nil → mB C true k b ≠ .nil
  | .nil, k, h => absurd rfl h
  | .semi b, k, h => by
    rw [mB]
    split
    · simp
    · rename_i hn
      refine mB_ne b k ?_
      rintro rfl
      simp [nextLp] at hn
  | .cons s b, k, h => by simp [mB]

mutual
theorem open_mS : ∀ (x : St), openS (mS C true x) = true → openS x = true
  | .do_ b => by
    have ih1 := open_mB b
    simp_all [-Bool.forall_bool, openS, openI, openB, mS, mI, mB]
  | .if_ i => by
    have ih1 := open_mI i
    simp_all [-Bool.forall_bool, openS, openI, openB, mS, mI, mB]
  | .while_ e b => by
    have ih1 := open_mB b
    simp_all [-Bool.forall_bool, openS, openI, openB, mS, mI, mB]
  | .whileShort e b d => by
    have ih1 := open_mB b
    rw [mS, openS, openS]; exact ih1 _ _
  | .repeat_ b e => by
    have ih1 := open_mB b
    rw [mS, openS, openS]; exact open_mE hC e _
  | .fornum x a b s d => by
    have ih1 := open_mB d
    simp_all [-Bool.forall_bool, openS, openI, openB, mS, mI, mB]
  | .forin xs es d => by
    have ih1 := open_mB d
    simp_all [-Bool.forall_bool, openS, openI, openB, mS, mI, mB]
  | .break_ => by
    simp_all [-Bool.forall_bool, openS, openI, openB, mS, mI, mB]
  | .return_ es => by
    rw [mS, openS, openS]; exact open_mEs hC es _
  | .local_ xs es => by
    rw [mS, openS, openS]; exact open_mEs hC es _
  | .localfn x ps b => by
    have ih1 := open_mB b
    simp_all [-Bool.forall_bool, openS, openI, openB, mS, mI, mB]
  | .goto_ x => by
    simp_all [-Bool.forall_bool, openS, openI, openB, mS, mI, mB]
  | .label x => by
    simp_all [-Bool.forall_bool, openS, openI, openB, mS, mI, mB]
  | .func f ps b => by
    have ih1 := open_mB b
    simp_all [-Bool.forall_bool, openS, openI, openB, mS, mI, mB]
  | .assign ts es => by
    rw [mS, openS, openS]; exact open_mEs hC es _
  | .opassign o t e => by
    rw [mS, openS, openS]; exact open_mE hC e _
  | .call e => by
    simp_all [-Bool.forall_bool, openS, openI, openB, mS, mI, mB]
  | .print es => by
    simp_all [-Bool.forall_bool, openS, openI, openB, mS, mI, mB]
theorem open_mI : ∀ (x : If), openI (mI C true x) = true → openI x = true
  | .long e b t => by
    have ih1 := open_mB b
    simp_all [-Bool.forall_bool, openS, openI, openB, mS, mI, mB]
  | .short e b d => by
    have ih1 := open_mB b
    rw [mI, openI, openI]; exact ih1 _ _
  | .shortElse e b b' d => by
    have ih1 := open_mB b
    have ih2 := open_mB b'
    rw [mI, openI, openI]; exact ih2 _ _
theorem open_mB : ∀ (x : Block), ∀ o k, openB o (mB C true k x) = true → openB o x = true
  | .nil => by
    simp_all [-Bool.forall_bool, openS, openI, openB, mS, mI, mB]
  | .semi b => by
    have ih1 := open_mB b
    intro o k h
    rw [mB] at h
    split at h
    · rw [openB] at h ⊢; exact ih1 _ _ h
    · rename_i hn
      rw [openB]
      have hb : b ≠ .nil := by rintro rfl; simp [nextLp] at hn
      rw [openB_ne hb false o]
      exact ih1 _ _ h
  | .cons s b => by
    have ih1 := open_mS s
    have ih2 := open_mB b
    intro o k h
    rw [mB, openB] at h
    rw [openB]
    by_cases hb : b = .nil
    · subst hb
      rw [mB, openB] at h
      rw [openB]
      exact ih1 h
    · rw [openB_ne hb (openS s) (openS (mS C (nextLp true b) s))]
      exact ih2 _ _ h
end

/-! ### All of it -/

/-- The level that is wanted at a place. -/
def cmin : Ctx → Nat
  | .unArg => 11
  | .left o => lo o
  | .right o => hi o
  | _ => 0

omit hC in
theorem cmin_le (c : Ctx) : cmin c ≤ 13 := by
  cases c with
  | left o => cases o <;> decide
  | right o => cases o <;> decide
  | _ => simp [cmin]

omit hC in
theorem lvl_prec (e : Ex) : exPrec e = none ∧ lvl e = 13 ∨ exPrec e = some (lvl e) := by
  cases e <;> simp [exPrec, lvl, unPrec]

omit hC in
/-- Dropping parentheses leaves something of the right level. -/
theorem removes_lvl {c : Ctx} {e : Ex} (h : removes C c e = true) : cmin c ≤ lvl e := by
  rcases lvl_prec e with ⟨h1, h2⟩ | h1
  · rw [h2]; exact cmin_le c
  · cases c with
    | unArg =>
      simp only [removes, ctxPrec, removeOperand, h1, unPrec, Bool.or_eq_true, Bool.and_eq_true, decide_eq_true_eq] at h
      rw [cmin]; omega
    | left o =>
      simp only [removes, ctxPrec, removeOperand, h1, unPrec, Bool.or_eq_true, Bool.and_eq_true, decide_eq_true_eq, ctxRightAssoc, ctxIsRight, beq_iff_eq] at h
      rw [cmin]
      cases o <;> simp [Paren.prec, lo, Paren.rightOp] at h ⊢ <;> omega
    | right o =>
      simp only [removes, ctxPrec, removeOperand, h1, unPrec, Bool.or_eq_true, Bool.and_eq_true, decide_eq_true_eq, ctxRightAssoc, ctxIsRight, beq_iff_eq] at h
      rw [cmin]
      cases o <;> simp [Paren.prec, hi, Paren.rightOp] at h ⊢ <;> omega
    | _ => simp [cmin]

omit hC in
theorem removes_base {e : Ex} (h : removes C .base e = true) : isPre e = true := by
  cases e <;> simp_all [removes, ctxPrec, isBase, isPre]

omit hC in
theorem canon_same (o : Op) : lo (canonOp C o) = lo o ∧ hi (canonOp C o) = hi o ∧ prec (canonOp C o) = prec o := by
  cases o <;> simp only [canonOp] <;> (try split) <;> decide

omit hC in
theorem canon_bin {o : Op} (h : Binary C.L o) : Binary C.L (canonOp C o) := by
  cases o <;> simp only [canonOp] <;> (try split) <;> first | exact h | skip
  · exact ⟨by cases C.L <;> rfl, .inr (.inr ⟨3, by decide⟩)⟩
  · exact ⟨by cases C.L <;> rfl, .inr (.inr ⟨5, by decide⟩)⟩
  · exact ⟨by cases C.L <;> rfl, .inr (.inr ⟨10, by decide⟩)⟩

omit hC in
theorem unary_lvl {c : Ctx} (h : canUnary c = true) : cmin c ≤ 11 := by
  cases c with
  | left o => cases o <;> revert h <;> decide
  | right o => cases o <;> decide
  | _ => simp [cmin]

theorem num_fine {c : Ctx} (sh : Bool) (s : String) (hb : c ≠ .base) : fE false C.L sh (C.fmt (canUnary c) s).ex ∧ cmin c ≤ lvl (C.fmt (canUnary c) s).ex := by
  cases hf : C.fmt (canUnary c) s with
  | plain s' => simp only [NumOut.ex, fE, lvl, true_and]; exact cmin_le c
  | signed o s' =>
    have hu : canUnary c = true := by
      cases hu : canUnary c with
      | true => rfl
      | false => rw [hu] at hf; exact absurd hf (hC.sign _ _ _)
    simp only [NumOut.ex, fE, lvl]
    exact ⟨⟨hC.op _ _ _ _ hf, by decide, trivial⟩, unary_lvl hu⟩
  | parens o s' => exact absurd hf (hC.parens _ _ _ _)

omit hC in
theorem mE_target {e : Ex} (c : Ctx) (h : isTarget e = true) : isTarget (mE C c e) = true := by
  cases e <;> simp_all [isTarget, mE]

omit hC in
theorem mTs_targets : ∀ {ts : Exs}, targets ts = true → targets (mTs C ts) = true
  | .nil, h => by simp [mTs, targets]
  | .cons e es, h => by
    simp only [targets, Bool.and_eq_true] at h
    simp only [mTs, targets, Bool.and_eq_true]
    exact ⟨mE_target _ h.1, mTs_targets h.2⟩

omit hC in
theorem mEs_ne {es : Exs} (c : Ctx) (h : es ≠ .nil) : mEs C c es ≠ .nil := by
  cases es with
  | nil => exact absurd rfl h
  | cons e es => cases es <;> simp [mEs]

omit hC in
theorem mTs_ne {es : Exs} (h : es ≠ .nil) : mTs C es ≠ .nil := by
  cases es with
  | nil => exact absurd rfl h
  | cons e es => simp [mTs]

omit hC in
theorem mEs_bare {as : Exs} (c : Ctx) (h : bareArg as = true) : bareArg (mEs C c as) = true := by
  cases as with
  | nil => simp [bareArg] at h
  | cons e es =>
    cases es with
    | nil => cases e <;> simp_all [bareArg, mEs, mE]
    | cons f es => cases e <;> simp [bareArg] at h

omit hC in
theorem last_plain (n : Nat) (es : Exs) : cmin (lastCtx n es) = 0 ∧ lastCtx n es ≠ .base := by
  unfold lastCtx; split <;> simp [cmin]

omit hC in
theorem mE_group {e : Ex} (h : isGroup e = true) : isGroup (mE C .keep e) = true := by
  cases e <;> simp_all [isGroup, mE, removes, ctxPrec]

omit hC in
theorem mE_call {e : Ex} (c : Ctx) (h : isCall e = true) : isCall (mE C c e) = true := by
  cases e <;> simp_all [isCall, mE]

mutual
theorem fine_mE : ∀ (x : Ex), ∀ sh c, fE false C.L sh x → cmin c ≤ lvl x → (c = .base → isPre x = true) →
    fE false C.L sh (mE C c x) ∧ cmin c ≤ lvl (mE C c x) ∧ (c = .base → isPre (mE C c x) = true)
  | .var x => by
    intro sh c h h1 h2
    simp only [mE]
    exact ⟨h, h1, h2⟩
  | .num x => by
    intro sh c h h1 h2
    have hb : c ≠ .base := fun hb => by have := h2 hb; simp [isPre] at this
    rw [mE]
    have ⟨h3, h4⟩ := num_fine hC sh x hb
    exact ⟨h3, h4, fun hb' => absurd hb' hb⟩
  | .str x => by
    intro sh c h h1 h2
    simp only [mE, fE, lvl] at *
    exact ⟨trivial, h1, fun hb => h2 hb⟩
  | .cst x => by
    intro sh c h h1 h2
    simp only [mE]
    exact ⟨h, h1, h2⟩
  | .vararg => by
    intro sh c h h1 h2
    simp only [mE]
    exact ⟨h, h1, h2⟩
  | .func ps b => by
    have ih1 := fine_mB b
    intro sh c h h1 h2
    rw [fE] at h
    rw [mE, fE]
    exact ⟨ih1 sh true _ _ h, h1, fun hb => h2 hb⟩
  | .group e => by
    have ih1 := fine_mE e
    intro sh c h h1 h2
    rw [fE] at h
    rw [mE]
    split
    · rename_i hr
      exact ih1 sh c h (removes_lvl hr) (by rintro rfl; exact removes_base hr)
    · rw [fE]
      exact ⟨(ih1 sh .single h (Nat.zero_le _) nofun).1, cmin_le c, fun _ => rfl⟩
  | .un o e => by
    have ih1 := fine_mE e
    intro sh c h h1 h2
    rw [fE] at h
    rw [mE, fE]
    obtain ⟨h3, h4, -⟩ := ih1 sh .unArg h.2.2 h.2.1 nofun
    exact ⟨⟨h.1, h4, h3⟩, h1, fun hb => h2 hb⟩
  | .bin o l r => by
    have ih1 := fine_mE l
    have ih2 := fine_mE r
    intro sh c h h1 h2
    rw [fE] at h
    rw [mE, fE]
    obtain ⟨hb, hl, hr, hf, hf'⟩ := h
    obtain ⟨h3, h4, -⟩ := ih1 sh (.left o) hf hl nofun
    obtain ⟨h5, h6, -⟩ := ih2 sh (.right o) hf' hr nofun
    obtain ⟨e1, e2, e3⟩ := canon_same (C := C) o
    rw [lvl, e1, e2, e3]
    exact ⟨⟨canon_bin hb, h4, h6, h3, h5⟩, h1, fun hb => h2 hb⟩
  | .member b x => by
    have ih1 := fine_mE b
    intro sh c h h1 h2
    rw [fE] at h
    rw [mE, fE]
    obtain ⟨h3, -, h4⟩ := ih1 sh .base h.2 (Nat.zero_le _) (fun _ => h.1)
    exact ⟨⟨h4 rfl, h3⟩, h1, h2⟩
  | .index b k => by
    have ih1 := fine_mE b
    have ih2 := fine_mE k
    intro sh c h h1 h2
    rw [fE] at h
    rw [mE, fE]
    obtain ⟨h3, -, h4⟩ := ih1 sh .base h.2.1 (Nat.zero_le _) (fun _ => h.1)
    exact ⟨⟨h4 rfl, h3, (ih2 sh .single h.2.2 (Nat.zero_le _) nofun).1⟩, h1, h2⟩
  | .call b t as => by
    have ih1 := fine_mE b
    have ih2 := fine_mEs as
    intro sh c h h1 h2
    rw [fE] at h
    rw [mE, fE]
    obtain ⟨h3, -, h4⟩ := ih1 sh .base h.2.1 (Nat.zero_le _) (fun _ => h.1)
    exact ⟨⟨h4 rfl, h3, (ih2 sh h.2.2.1).1 _ rfl nofun, mEs_bare _⟩, h1, h2⟩
  | .method b x t as => by
    have ih1 := fine_mE b
    have ih2 := fine_mEs as
    intro sh c h h1 h2
    rw [fE] at h
    rw [mE, fE]
    obtain ⟨h3, -, h4⟩ := ih1 sh .base h.2.1 (Nat.zero_le _) (fun _ => h.1)
    exact ⟨⟨h4 rfl, h3, (ih2 sh h.2.2.1).1 _ rfl nofun, fun ht => mEs_bare _ (h.2.2.2 ht)⟩, h1, h2⟩
  | .table its => by
    have ih1 := fine_mIts its
    intro sh c h h1 h2
    rw [fE] at h
    rw [mE, fE]
    exact ⟨ih1 sh h, h1, fun hb => h2 hb⟩
theorem fine_mEs : ∀ (x : Exs), ∀ sh, fEs false C.L sh x → (∀ c, cmin c = 0 → c ≠ .base → fEs false C.L sh (mEs C c x)) ∧ (targets x = true → fEs false C.L sh (mTs C x))
  | .nil => by
    simp [mEs, mTs, fEs]
  | .cons e .nil => by
    have ih1 := fine_mE e
    intro sh h
    rw [fEs] at h
    refine ⟨fun c hc hb => ?_, fun ht => ?_⟩
    · rw [mEs, fEs]
      exact ⟨(ih1 sh c h.1 (by rw [hc]; exact Nat.zero_le _) (fun hb' => absurd hb' hb)).1, h.2⟩
    · rw [mTs, mTs, fEs]
      exact ⟨(ih1 sh .keep h.1 (Nat.zero_le _) nofun).1, h.2⟩
  | .cons e (.cons f es) => by
    have ih1 := fine_mE e
    have ih2 := fine_mEs (.cons f es)
    intro sh h
    rw [fEs] at h
    refine ⟨fun c hc hb => ?_, fun ht => ?_⟩
    · rw [mEs, fEs]
      · exact ⟨(ih1 sh .single h.1 (Nat.zero_le _) nofun).1, (ih2 sh h.2).1 c hc hb⟩
      · simp
    · rw [mTs, fEs]
      rw [targets, Bool.and_eq_true] at ht
      exact ⟨(ih1 sh .keep h.1 (Nat.zero_le _) nofun).1, (ih2 sh h.2).2 ht.2⟩
theorem fine_mIts : ∀ (x : Its), ∀ sh, fIts false C.L sh x → fIts false C.L sh (mIts C x)
  | .nil => by
    simp [mIts, fIts]
  | .pos e .nil => by
    have ih1 := fine_mE e
    intro sh h
    rw [fIts] at h
    rw [mIts, fIts]
    exact ⟨(ih1 sh .last h.1 (Nat.zero_le _) nofun).1, h.2⟩
  | .pos e (.pos f its) => by
    have ih1 := fine_mE e
    have ih2 := fine_mIts (.pos f its)
    intro sh h
    rw [fIts] at h
    rw [mIts, fIts]
    · exact ⟨(ih1 sh .single h.1 (Nat.zero_le _) nofun).1, ih2 sh h.2⟩
    · simp
  | .pos e (.named y f its) => by
    have ih1 := fine_mE e
    have ih2 := fine_mIts (.named y f its)
    intro sh h
    rw [fIts] at h
    rw [mIts, fIts]
    · exact ⟨(ih1 sh .single h.1 (Nat.zero_le _) nofun).1, ih2 sh h.2⟩
    · simp
  | .pos e (.keyed k f its) => by
    have ih1 := fine_mE e
    have ih2 := fine_mIts (.keyed k f its)
    intro sh h
    rw [fIts] at h
    rw [mIts, fIts]
    · exact ⟨(ih1 sh .single h.1 (Nat.zero_le _) nofun).1, ih2 sh h.2⟩
    · simp
  | .named x e its => by
    have ih1 := fine_mE e
    have ih2 := fine_mIts its
    intro sh h
    rw [fIts] at h
    rw [mIts, fIts]
    exact ⟨(ih1 sh .single h.1 (Nat.zero_le _) nofun).1, ih2 sh h.2⟩
  | .keyed k e its => by
    have ih1 := fine_mE k
    have ih2 := fine_mE e
    have ih3 := fine_mIts its
    intro sh h
    rw [fIts] at h
    rw [mIts, fIts]
    exact ⟨(ih1 sh .single h.1 (Nat.zero_le _) nofun).1, (ih2 sh .single h.2.1 (Nat.zero_le _) nofun).1, ih3 sh h.2.2⟩
theorem fine_mS : ∀ (x : St), ∀ sh c nx, fS false C.L sh c x → fS false C.L sh c (mS C nx x)
  | .do_ b => by
    have ih1 := fine_mB b
    intro sh c nx h
    rw [fS] at h
    rw [mS, fS]
    exact ih1 _ _ _ _ h
  | .if_ i => by
    have ih1 := fine_mI i
    intro sh c nx h
    rw [fS] at h
    rw [mS, fS]
    exact ih1 _ _ _ h
  | .while_ e b => by
    have ih1 := fine_mE e
    have ih2 := fine_mB b
    intro sh c nx h
    rw [fS] at h
    rw [mS, fS]
    exact ⟨(ih1 sh .single h.1 (Nat.zero_le _) nofun).1, ih2 _ _ _ _ h.2⟩
  | .whileShort e b d => by
    have ih1 := fine_mE e
    have ih2 := fine_mB b
    intro sh c nx h
    rw [fS] at h
    rw [mS, fS]
    obtain ⟨h1, h2, h3, h4, h5, h6, h7⟩ := h
    refine ⟨h1, mE_group h2, (ih1 _ .keep h3 (Nat.zero_le _) nofun).1, ih2 _ _ _ _ h4, ?_, ?_, ?_⟩
    · rw [calm_mE, calm_mB]; exact h5
    · cases hl : leadB (mB C nx (semis b) b) with
      | false => rfl
      | true => rw [lead_mB hC _ _ _ hl] at h6; exact h6
    · rw [doB_mB]; exact h7
  | .repeat_ b e => by
    have ih1 := fine_mB b
    have ih2 := fine_mE e
    intro sh c nx h
    rw [fS] at h
    rw [mS, fS]
    exact ⟨ih1 _ _ _ _ h.1, (ih2 sh .single h.2 (Nat.zero_le _) nofun).1⟩
  | .fornum x a b s d => by
    have ih1 := fine_mE a
    have ih2 := fine_mE b
    have ih3 := fine_mEs s
    have ih4 := fine_mB d
    intro sh c nx h
    rw [fS] at h
    rw [mS, fS]
    obtain ⟨h1, h2, h3, h4, h5⟩ := h
    refine ⟨(ih1 sh .single h1 (Nat.zero_le _) nofun).1, (ih2 sh .single h2 (Nat.zero_le _) nofun).1, (ih3 sh h3).1 _ rfl nofun, ?_, ih4 _ _ _ _ h5⟩
    rcases h4 with rfl | ⟨e, rfl⟩
    · exact .inl (by rw [mEs])
    · exact .inr ⟨_, by rw [mEs]⟩
  | .forin xs es d => by
    have ih1 := fine_mEs es
    have ih2 := fine_mB d
    intro sh c nx h
    rw [fS] at h
    rw [mS, fS]
    exact ⟨h.1, mEs_ne _ h.2.1, (ih1 sh h.2.2.1).1 _ (last_plain _ _).1 (last_plain _ _).2, ih2 _ _ _ _ h.2.2.2⟩
  | .break_ => by
    intro sh c nx h
    simp only [mS]
    exact h
  | .return_ es => by
    have ih1 := fine_mEs es
    intro sh c nx h
    rw [fS] at h
    rw [mS, fS]
    exact (ih1 sh h).1 _ rfl nofun
  | .local_ xs es => by
    have ih1 := fine_mEs es
    intro sh c nx h
    rw [fS] at h
    rw [mS, fS]
    exact ⟨h.1, h.2.1, (ih1 sh h.2.2).1 _ (last_plain _ _).1 (last_plain _ _).2⟩
  | .localfn x ps b => by
    have ih1 := fine_mB b
    intro sh c nx h
    rw [fS] at h
    rw [mS, fS]
    exact ih1 _ _ _ _ h
  | .goto_ x => by
    intro sh c nx h
    simp only [mS]
    exact h
  | .label x => by
    intro sh c nx h
    simp only [mS]
    exact h
  | .func f ps b => by
    have ih1 := fine_mB b
    intro sh c nx h
    rw [fS] at h
    rw [mS, fS]
    exact ih1 _ _ _ _ h
  | .assign ts es => by
    have ih1 := fine_mEs ts
    have ih2 := fine_mEs es
    intro sh c nx h
    rw [fS] at h
    rw [mS, fS]
    obtain ⟨h1, h2, h3, h4, h5⟩ := h
    exact ⟨mTs_targets h1, mTs_ne h2, mEs_ne _ h3, (ih1 sh h4).2 h1, (ih2 sh h5).1 _ (last_plain _ _).1 (last_plain _ _).2⟩
  | .opassign o t e => by
    have ih1 := fine_mE t
    have ih2 := fine_mE e
    intro sh c nx h
    rw [fS] at h
    rw [mS, fS]
    exact ⟨mE_target _ h.1, (ih1 sh .single h.2.1 (Nat.zero_le _) nofun).1, (ih2 sh .single h.2.2 (Nat.zero_le _) nofun).1⟩
  | .call e => by
    have ih1 := fine_mE e
    intro sh c nx h
    rw [fS] at h
    rw [mS, fS]
    exact ⟨mE_call _ h.1, (ih1 sh .keep h.2 (Nat.zero_le _) nofun).1⟩
  | .print es => by
    have ih1 := fine_mEs es
    intro sh c nx h
    rw [fS] at h
    rw [mS, fS]
    exact ⟨mEs_ne _ h.1, (ih1 true h.2).1 _ rfl nofun⟩
theorem fine_mI : ∀ (x : If), ∀ sh c nx, fI false C.L sh c x → fI false C.L sh c (mI C nx x)
  | .long e b t => by
    have ih1 := fine_mE e
    have ih2 := fine_mB b
    have ih3 := fine_mT t
    intro sh c nx h
    rw [fI] at h
    rw [mI, fI]
    obtain ⟨h1, h2, h3, h4⟩ := h
    refine ⟨(ih1 sh .single h1 (Nat.zero_le _) nofun).1, ih2 _ _ _ _ h2, ih3 _ h3, ?_⟩
    rw [isElse_mT, dangle_mB]; exact h4
  | .short e b d => by
    have ih1 := fine_mE e
    have ih2 := fine_mB b
    intro sh c nx h
    rw [fI] at h
    rw [mI, fI]
    obtain ⟨h1, h2, h3, h4, h5, h6, h7⟩ := h
    refine ⟨h1, mE_group h2, (ih1 _ .keep h3 (Nat.zero_le _) nofun).1, ih2 _ _ _ _ h4, ?_, ?_, ?_⟩
    · rw [calm_mE, calm_mB]; exact h5
    · cases hl : leadB (mB C nx (semis b) b) with
      | false => rfl
      | true => rw [lead_mB hC _ _ _ hl] at h6; exact h6
    · rw [doB_mB]; exact h7
  | .shortElse e b b' d => by
    have ih1 := fine_mE e
    have ih2 := fine_mB b
    have ih3 := fine_mB b'
    intro sh c nx h
    rw [fI] at h
    rw [mI, fI]
    obtain ⟨h1, h2, h3, h4, h4', h5, h6, h7, h8⟩ := h
    refine ⟨h1, mE_group h2, (ih1 _ .keep h3 (Nat.zero_le _) nofun).1, ih2 _ _ _ _ h4, ih3 _ _ _ _ h4', ?_, ?_, ?_, ?_⟩
    · rw [calm_mE, calm_mB, calm_mB]; exact h5
    · cases hl : leadB (mB C false (semis b) b) with
      | false => rfl
      | true => rw [lead_mB hC _ _ _ hl] at h6; exact h6
    · rw [doB_mB]; exact h7
    · rw [dangle_mB]; exact h8
theorem fine_mT : ∀ (x : Tail), ∀ sh, fT false C.L sh x → fT false C.L sh (mT C x)
  | .end_ => by
    intro sh h
    rw [mT]; exact h
  | .else_ b => by
    have ih1 := fine_mB b
    intro sh h
    rw [fT] at h
    rw [mT, fT]; exact ih1 _ _ _ _ h
  | .elseif_ i => by
    have ih1 := fine_mI i
    intro sh h
    rw [fT] at h
    rw [mT, fT, isLong_mI]; exact ⟨h.1, ih1 _ _ _ h.2⟩
theorem fine_mB : ∀ (x : Block), ∀ sh c nx k, fB false C.L sh c x → fB false C.L sh c (mB C nx k x)
  | .nil => by
    intro sh c nx k h
    rw [mB]; exact h
  | .semi b => by
    have ih1 := fine_mB b
    intro sh c nx k h
    rw [fB] at h
    rw [mB]
    split
    · rw [fB]; exact ih1 _ _ _ _ h
    · exact ih1 _ _ _ _ h
  | .cons s b => by
    have ih1 := fine_mS s
    have ih2 := fine_mB b
    intro sh c nx k h
    rw [fB] at h
    rw [mB, fB]
    obtain ⟨h1, h2, h3, h4, h5, h6⟩ := h
    refine ⟨ih1 _ _ _ h1, ih2 _ _ _ _ h2, ?_, ?_, ?_, ?_⟩
    · intro ho
      cases hl : leadB (mB C nx k b) with
      | false => rfl
      | true =>
        have hl' := lead_mB hC _ _ _ hl
        have hn : nextLp nx b = true := by cases b <;> simp_all [nextLp, leadB]
        rw [hn] at ho
        rw [h3 (open_mS hC _ ho)] at hl'
        cases hl'
    · intro d hd hs
      rw [flag_mS] at hd
      rw [h4 d hd hs, mB]
    · rw [isRet0_mS, semis_mB]; exact h5
    · rw [cond_mS, doB_mB]; exact h6
end

/-- Minifying keeps trees fine. -/
theorem fine_mini {b : Block} (h : Fine false C.L b) : Fine false C.L (mini C b) :=
  ⟨fine_mB hC b false false false false h.1, by rw [mini, endsRet_mB]; exact h.2⟩

end Verif.Mini
