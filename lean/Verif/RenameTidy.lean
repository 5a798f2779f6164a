import Verif.Spec.Tidy
import Verif.RenameTree
/-
Being tidy does not depend on names.
-/
set_option linter.unusedVariables false
set_option linter.unusedSimpArgs false
set_option linter.unusedSectionVars false
set_option linter.unusedTactic false
namespace Verif.Tidy
open Syntax
open Resolve (sE sEs sIts sS sI sT sB sNs sPs sXs sFn takes evE evEs evIts evSrc evS evI evT evB evHead evFn)
open Paren (Op Lang)

theorem isGroup_s (e : Ex) (ns : List Nm) : isGroup (sE ns e) = isGroup e := by cases e <;> simp only [sE, isGroup]
theorem isTarget_s (e : Ex) (ns : List Nm) : isTarget (sE ns e) = isTarget e := by cases e <;> simp only [sE, isTarget]

theorem targets_s : ∀ (es : Exs) (ns : List Nm), targets (sEs ns es) = targets es
  | .nil, _ => by simp only [sEs]
  | .cons e es, ns => by simp only [sEs, targets, isTarget_s, targets_s es]

theorem len_s : ∀ (es : Exs) (ns : List Nm), LuaNorm.len (sEs ns es) = LuaNorm.len es
  | .nil, _ => by simp only [sEs]
  | .cons e es, ns => by simp only [sEs, LuaNorm.len, len_s es]

theorem multi_s : ∀ (e : Ex) (ns : List Nm), LuaNorm.multi (sE ns e) = LuaNorm.multi e
  | .var _, _ | .num _, _ | .str _, _ | .cst _, _ | .vararg, _ | .func _ _, _ | .member _ _, _ | .index _ _, _ | .call _ _ _, _
  | .method _ _ _ _, _ | .table _, _ | .un _ _, _ | .bin _ _ _, _ => by simp only [sE, LuaNorm.multi]
  | .group e, ns => by simp only [sE, LuaNorm.multi, multi_s e]

theorem cutLast_s : ∀ (es : Exs) (ns : List Nm), cutLast (sEs ns es) = cutLast es
  | .nil, _ => by simp only [sEs]
  | .cons e .nil, ns => by
    cases e <;> simp only [sEs, sE, cutLast, multi_s]
  | .cons e (.cons f es), ns => by
    have ih := cutLast_s (.cons f es) (ns.drop (takes (evE e)))
    have h2 : ∀ e f es, cutLast (.cons e (.cons f es)) = cutLast (.cons f es) := by intro e f es; cases e <;> rfl
    simp only [sEs, h2] at *
    exact ih

theorem semis_s : ∀ (b : Block) (ns : List Nm), semis (sB ns b) = semis b
  | .nil, _ => by simp only [sB]
  | .semi b, ns => by simp only [sB, semis, semis_s b]
  | .cons _ _, ns => by simp only [sB, semis]

theorem doB_s : ∀ (b : Block) (ns : List Nm), doB (sB ns b) = doB b
  | .nil, _ => by simp only [sB]
  | .semi b, ns => by simp only [sB, doB, doB_s b]
  | .cons s _, ns => by cases s <;> simp only [sB, sS, doB]

theorem flagI_s (i : If) (ns : List Nm) : flagI (sI ns i) = flagI i := by cases i <;> simp only [sI, flagI]
theorem flag_s (s : St) (ns : List Nm) : flag (sS ns s) = flag s := by cases s <;> simp only [sS, flag, flagI_s]
theorem isElse_s (t : Syntax.Tail) (ns : List Nm) : isElse (sT ns t) = isElse t := by cases t <;> simp only [sT, isElse]
theorem isLong_s (i : If) (ns : List Nm) : isLong (sI ns i) = isLong i := by cases i <;> simp only [sI, isLong]
theorem isRet0_s (s : St) (ns : List Nm) : isRet0 (sS ns s) = isRet0 s := by
  cases s with
  | return_ es => cases es <;> simp only [sS, sEs, isRet0]
  | _ => simp only [sS, isRet0]

theorem endsRet_s : ∀ (b : Block) (ns : List Nm), endsRet (sB ns b) = endsRet b
  | .nil, _ => by simp only [sB]
  | .semi b, ns => by simp only [sB, endsRet, endsRet_s b]
  | .cons s b, ns => by simp only [sB, endsRet, semis_s, isRet0_s, endsRet_s b]

theorem nil_s (b : Block) (ns : List Nm) : sB ns b = .nil ↔ b = .nil := by cases b <;> simp [sB]

mutual
theorem caE : ∀ (x : Ex), ∀ (ns : List Nm), calmE (sE ns x) = calmE x
  | .var x => by
    intro ns
    simp only [sE, sEs, sIts, sS, sI, sT, sB, calmE, calmEs, calmIts, calmS, calmI, calmT, calmB, *]
  | .num x => by
    intro ns
    simp only [sE, sEs, sIts, sS, sI, sT, sB, calmE, calmEs, calmIts, calmS, calmI, calmT, calmB, *]
  | .str x => by
    intro ns
    simp only [sE, sEs, sIts, sS, sI, sT, sB, calmE, calmEs, calmIts, calmS, calmI, calmT, calmB, *]
  | .cst x => by
    intro ns
    simp only [sE, sEs, sIts, sS, sI, sT, sB, calmE, calmEs, calmIts, calmS, calmI, calmT, calmB, *]
  | .vararg => by
    intro ns
    simp only [sE, sEs, sIts, sS, sI, sT, sB, calmE, calmEs, calmIts, calmS, calmI, calmT, calmB, *]
  | .func ps b => by
    have ih1 := caB b
    intro ns
    simp only [sE, sEs, sIts, sS, sI, sT, sB, calmE, calmEs, calmIts, calmS, calmI, calmT, calmB, *]
  | .group e => by
    have ih1 := caE e
    intro ns
    simp only [sE, sEs, sIts, sS, sI, sT, sB, calmE, calmEs, calmIts, calmS, calmI, calmT, calmB, *]
  | .un o e => by
    have ih1 := caE e
    intro ns
    simp only [sE, sEs, sIts, sS, sI, sT, sB, calmE, calmEs, calmIts, calmS, calmI, calmT, calmB, *]
  | .bin o l r => by
    have ih1 := caE l
    have ih2 := caE r
    intro ns
    simp only [sE, sEs, sIts, sS, sI, sT, sB, calmE, calmEs, calmIts, calmS, calmI, calmT, calmB, *]
  | .member b x => by
    have ih1 := caE b
    intro ns
    simp only [sE, sEs, sIts, sS, sI, sT, sB, calmE, calmEs, calmIts, calmS, calmI, calmT, calmB, *]
  | .index b k => by
    have ih1 := caE b
    have ih2 := caE k
    intro ns
    simp only [sE, sEs, sIts, sS, sI, sT, sB, calmE, calmEs, calmIts, calmS, calmI, calmT, calmB, *]
  | .call b t as => by
    have ih1 := caE b
    have ih2 := caEs as
    intro ns
    simp only [sE, sEs, sIts, sS, sI, sT, sB, calmE, calmEs, calmIts, calmS, calmI, calmT, calmB, *]
  | .method b x t as => by
    have ih1 := caE b
    have ih2 := caEs as
    intro ns
    simp only [sE, sEs, sIts, sS, sI, sT, sB, calmE, calmEs, calmIts, calmS, calmI, calmT, calmB, *]
  | .table its => by
    have ih1 := caIts its
    intro ns
    simp only [sE, sEs, sIts, sS, sI, sT, sB, calmE, calmEs, calmIts, calmS, calmI, calmT, calmB, *]
theorem caEs : ∀ (x : Exs), ∀ (ns : List Nm), calmEs (sEs ns x) = calmEs x
  | .nil => by
    intro ns
    simp only [sE, sEs, sIts, sS, sI, sT, sB, calmE, calmEs, calmIts, calmS, calmI, calmT, calmB, *]
  | .cons e es => by
    have ih1 := caE e
    have ih2 := caEs es
    intro ns
    simp only [sE, sEs, sIts, sS, sI, sT, sB, calmE, calmEs, calmIts, calmS, calmI, calmT, calmB, *]
theorem caIts : ∀ (x : Its), ∀ (ns : List Nm), calmIts (sIts ns x) = calmIts x
  | .nil => by
    intro ns
    simp only [sE, sEs, sIts, sS, sI, sT, sB, calmE, calmEs, calmIts, calmS, calmI, calmT, calmB, *]
  | .pos e its => by
    have ih1 := caE e
    have ih2 := caIts its
    intro ns
    simp only [sE, sEs, sIts, sS, sI, sT, sB, calmE, calmEs, calmIts, calmS, calmI, calmT, calmB, *]
  | .named x e its => by
    have ih1 := caE e
    have ih2 := caIts its
    intro ns
    simp only [sE, sEs, sIts, sS, sI, sT, sB, calmE, calmEs, calmIts, calmS, calmI, calmT, calmB, *]
  | .keyed k e its => by
    have ih1 := caE k
    have ih2 := caE e
    have ih3 := caIts its
    intro ns
    simp only [sE, sEs, sIts, sS, sI, sT, sB, calmE, calmEs, calmIts, calmS, calmI, calmT, calmB, *]
theorem caS : ∀ (x : St), ∀ (ns : List Nm), calmS (sS ns x) = calmS x
  | .do_ b => by
    have ih1 := caB b
    intro ns
    simp only [sE, sEs, sIts, sS, sI, sT, sB, calmE, calmEs, calmIts, calmS, calmI, calmT, calmB, *]
  | .if_ i => by
    have ih1 := caI i
    intro ns
    simp only [sE, sEs, sIts, sS, sI, sT, sB, calmE, calmEs, calmIts, calmS, calmI, calmT, calmB, *]
  | .while_ e b => by
    have ih1 := caE e
    have ih2 := caB b
    intro ns
    simp only [sE, sEs, sIts, sS, sI, sT, sB, calmE, calmEs, calmIts, calmS, calmI, calmT, calmB, *]
  | .whileShort e b d => by
    have ih1 := caE e
    have ih2 := caB b
    intro ns
    simp only [sE, sEs, sIts, sS, sI, sT, sB, calmE, calmEs, calmIts, calmS, calmI, calmT, calmB, *]
  | .repeat_ b e => by
    have ih1 := caB b
    have ih2 := caE e
    intro ns
    simp only [sE, sEs, sIts, sS, sI, sT, sB, calmE, calmEs, calmIts, calmS, calmI, calmT, calmB, *]
  | .fornum x a b s d => by
    have ih1 := caE a
    have ih2 := caE b
    have ih3 := caEs s
    have ih4 := caB d
    intro ns
    simp only [sE, sEs, sIts, sS, sI, sT, sB, calmE, calmEs, calmIts, calmS, calmI, calmT, calmB, *]
  | .forin xs es d => by
    have ih1 := caEs es
    have ih2 := caB d
    intro ns
    simp only [sE, sEs, sIts, sS, sI, sT, sB, calmE, calmEs, calmIts, calmS, calmI, calmT, calmB, *]
  | .break_ => by
    intro ns
    simp only [sE, sEs, sIts, sS, sI, sT, sB, calmE, calmEs, calmIts, calmS, calmI, calmT, calmB, *]
  | .return_ es => by
    have ih1 := caEs es
    intro ns
    simp only [sE, sEs, sIts, sS, sI, sT, sB, calmE, calmEs, calmIts, calmS, calmI, calmT, calmB, *]
  | .local_ xs es => by
    have ih1 := caEs es
    intro ns
    simp only [sE, sEs, sIts, sS, sI, sT, sB, calmE, calmEs, calmIts, calmS, calmI, calmT, calmB, *]
  | .localfn x ps b => by
    have ih1 := caB b
    intro ns
    simp only [sE, sEs, sIts, sS, sI, sT, sB, calmE, calmEs, calmIts, calmS, calmI, calmT, calmB, *]
  | .goto_ x => by
    intro ns
    simp only [sE, sEs, sIts, sS, sI, sT, sB, calmE, calmEs, calmIts, calmS, calmI, calmT, calmB, *]
  | .label x => by
    intro ns
    simp only [sE, sEs, sIts, sS, sI, sT, sB, calmE, calmEs, calmIts, calmS, calmI, calmT, calmB, *]
  | .func f ps b => by
    have ih1 := caB b
    intro ns
    simp only [sE, sEs, sIts, sS, sI, sT, sB, calmE, calmEs, calmIts, calmS, calmI, calmT, calmB, *]
  | .assign ts es => by
    have ih1 := caEs ts
    have ih2 := caEs es
    intro ns
    simp only [sE, sEs, sIts, sS, sI, sT, sB, calmE, calmEs, calmIts, calmS, calmI, calmT, calmB, *]
  | .opassign o t e => by
    have ih1 := caE t
    have ih2 := caE e
    intro ns
    simp only [sE, sEs, sIts, sS, sI, sT, sB, calmE, calmEs, calmIts, calmS, calmI, calmT, calmB, *]
  | .call e => by
    have ih1 := caE e
    intro ns
    simp only [sE, sEs, sIts, sS, sI, sT, sB, calmE, calmEs, calmIts, calmS, calmI, calmT, calmB, *]
  | .print es => by
    have ih1 := caEs es
    intro ns
    simp only [sE, sEs, sIts, sS, sI, sT, sB, calmE, calmEs, calmIts, calmS, calmI, calmT, calmB, *]
theorem caI : ∀ (x : If), ∀ (ns : List Nm), calmI (sI ns x) = calmI x
  | .long e b t => by
    have ih1 := caE e
    have ih2 := caB b
    have ih3 := caT t
    intro ns
    simp only [sE, sEs, sIts, sS, sI, sT, sB, calmE, calmEs, calmIts, calmS, calmI, calmT, calmB, *]
  | .short e b d => by
    have ih1 := caE e
    have ih2 := caB b
    intro ns
    simp only [sE, sEs, sIts, sS, sI, sT, sB, calmE, calmEs, calmIts, calmS, calmI, calmT, calmB, *]
  | .shortElse e b b' d => by
    have ih1 := caE e
    have ih2 := caB b
    have ih3 := caB b'
    intro ns
    simp only [sE, sEs, sIts, sS, sI, sT, sB, calmE, calmEs, calmIts, calmS, calmI, calmT, calmB, *]
theorem caT : ∀ (x : Syntax.Tail), ∀ (ns : List Nm), calmT (sT ns x) = calmT x
  | .end_ => by
    intro ns
    simp only [sE, sEs, sIts, sS, sI, sT, sB, calmE, calmEs, calmIts, calmS, calmI, calmT, calmB, *]
  | .else_ b => by
    have ih1 := caB b
    intro ns
    simp only [sE, sEs, sIts, sS, sI, sT, sB, calmE, calmEs, calmIts, calmS, calmI, calmT, calmB, *]
  | .elseif_ i => by
    have ih1 := caI i
    intro ns
    simp only [sE, sEs, sIts, sS, sI, sT, sB, calmE, calmEs, calmIts, calmS, calmI, calmT, calmB, *]
theorem caB : ∀ (x : Block), ∀ (ns : List Nm), calmB (sB ns x) = calmB x
  | .nil => by
    intro ns
    simp only [sE, sEs, sIts, sS, sI, sT, sB, calmE, calmEs, calmIts, calmS, calmI, calmT, calmB, *]
  | .semi b => by
    have ih1 := caB b
    intro ns
    simp only [sE, sEs, sIts, sS, sI, sT, sB, calmE, calmEs, calmIts, calmS, calmI, calmT, calmB, *]
  | .cons s b => by
    have ih1 := caS s
    have ih2 := caB b
    intro ns
    simp only [sE, sEs, sIts, sS, sI, sT, sB, calmE, calmEs, calmIts, calmS, calmI, calmT, calmB, *]
end

mutual
theorem daS : ∀ (x : St), ∀ (sh : Bool) (ns : List Nm), dangleS sh (sS ns x) = dangleS sh x
  | .do_ b => by
    have ih1 := daB b
    intro sh ns
    simp only [sE, sEs, sIts, sS, sI, sT, sB, dangleS, dangleI, dangleB, semis_s, *]
  | .if_ i => by
    have ih1 := daI i
    intro sh ns
    simp only [sE, sEs, sIts, sS, sI, sT, sB, dangleS, dangleI, dangleB, semis_s, *]
  | .while_ e b => by
    have ih1 := daB b
    intro sh ns
    simp only [sE, sEs, sIts, sS, sI, sT, sB, dangleS, dangleI, dangleB, semis_s, *]
  | .whileShort e b d => by
    have ih1 := daB b
    intro sh ns
    simp only [sE, sEs, sIts, sS, sI, sT, sB, dangleS, dangleI, dangleB, semis_s, *]
  | .repeat_ b e => by
    have ih1 := daB b
    intro sh ns
    simp only [sE, sEs, sIts, sS, sI, sT, sB, dangleS, dangleI, dangleB, semis_s, *]
  | .fornum x a b s d => by
    have ih1 := daB d
    intro sh ns
    simp only [sE, sEs, sIts, sS, sI, sT, sB, dangleS, dangleI, dangleB, semis_s, *]
  | .forin xs es d => by
    have ih1 := daB d
    intro sh ns
    simp only [sE, sEs, sIts, sS, sI, sT, sB, dangleS, dangleI, dangleB, semis_s, *]
  | .break_ => by
    intro sh ns
    simp only [sE, sEs, sIts, sS, sI, sT, sB, dangleS, dangleI, dangleB, semis_s, *]
  | .return_ es => by
    intro sh ns
    simp only [sE, sEs, sIts, sS, sI, sT, sB, dangleS, dangleI, dangleB, semis_s, *]
  | .local_ xs es => by
    intro sh ns
    simp only [sE, sEs, sIts, sS, sI, sT, sB, dangleS, dangleI, dangleB, semis_s, *]
  | .localfn x ps b => by
    have ih1 := daB b
    intro sh ns
    simp only [sE, sEs, sIts, sS, sI, sT, sB, dangleS, dangleI, dangleB, semis_s, *]
  | .goto_ x => by
    intro sh ns
    simp only [sE, sEs, sIts, sS, sI, sT, sB, dangleS, dangleI, dangleB, semis_s, *]
  | .label x => by
    intro sh ns
    simp only [sE, sEs, sIts, sS, sI, sT, sB, dangleS, dangleI, dangleB, semis_s, *]
  | .func f ps b => by
    have ih1 := daB b
    intro sh ns
    simp only [sE, sEs, sIts, sS, sI, sT, sB, dangleS, dangleI, dangleB, semis_s, *]
  | .assign ts es => by
    intro sh ns
    simp only [sE, sEs, sIts, sS, sI, sT, sB, dangleS, dangleI, dangleB, semis_s, *]
  | .opassign o t e => by
    intro sh ns
    simp only [sE, sEs, sIts, sS, sI, sT, sB, dangleS, dangleI, dangleB, semis_s, *]
  | .call e => by
    intro sh ns
    simp only [sE, sEs, sIts, sS, sI, sT, sB, dangleS, dangleI, dangleB, semis_s, *]
  | .print es => by
    intro sh ns
    simp only [sE, sEs, sIts, sS, sI, sT, sB, dangleS, dangleI, dangleB, semis_s, *]
theorem daI : ∀ (x : If), ∀ (sh : Bool) (ns : List Nm), dangleI sh (sI ns x) = dangleI sh x
  | .long e b t => by
    have ih1 := daB b
    intro sh ns
    simp only [sE, sEs, sIts, sS, sI, sT, sB, dangleS, dangleI, dangleB, semis_s, *]
  | .short e b d => by
    have ih1 := daB b
    intro sh ns
    simp only [sE, sEs, sIts, sS, sI, sT, sB, dangleS, dangleI, dangleB, semis_s, *]
  | .shortElse e b b' d => by
    have ih1 := daB b
    have ih2 := daB b'
    intro sh ns
    simp only [sE, sEs, sIts, sS, sI, sT, sB, dangleS, dangleI, dangleB, semis_s, *]
theorem daB : ∀ (x : Block), ∀ (sh : Bool) (ns : List Nm), dangleB sh (sB ns x) = dangleB sh x
  | .nil => by
    intro sh ns
    simp only [sE, sEs, sIts, sS, sI, sT, sB, dangleS, dangleI, dangleB, semis_s, *]
  | .semi b => by
    have ih1 := daB b
    intro sh ns
    simp only [sE, sEs, sIts, sS, sI, sT, sB, dangleS, dangleI, dangleB, semis_s, *]
  | .cons s b => by
    have ih1 := daS s
    have ih2 := daB b
    intro sh ns
    simp only [sE, sEs, sIts, sS, sI, sT, sB, dangleS, dangleI, dangleB, semis_s, *]
end

mutual
theorem coS : ∀ (x : St), ∀ (L : Lang) (ns : List Nm), condS L (sS ns x) = condS L x
  | .do_ b => by
    have ih1 := coB b
    intro L ns
    simp only [sE, sEs, sIts, sS, sI, sT, sB, condS, condI, condB, *]
  | .if_ i => by
    have ih1 := coI i
    intro L ns
    simp only [sE, sEs, sIts, sS, sI, sT, sB, condS, condI, condB, *]
  | .while_ e b => by
    have ih1 := coB b
    intro L ns
    simp only [sE, sEs, sIts, sS, sI, sT, sB, condS, condI, condB, *]
  | .whileShort e b d => by
    have ih1 := coB b
    intro L ns
    simp only [sE, sEs, sIts, sS, sI, sT, sB, condS, condI, condB, *]
  | .repeat_ b e => by
    have ih1 := coB b
    intro L ns
    simp only [sE, sEs, sIts, sS, sI, sT, sB, condS, condI, condB, *]
  | .fornum x a b s d => by
    have ih1 := coB d
    intro L ns
    simp only [sE, sEs, sIts, sS, sI, sT, sB, condS, condI, condB, *]
  | .forin xs es d => by
    have ih1 := coB d
    intro L ns
    simp only [sE, sEs, sIts, sS, sI, sT, sB, condS, condI, condB, *]
  | .break_ => by
    intro L ns
    simp only [sE, sEs, sIts, sS, sI, sT, sB, condS, condI, condB, *]
  | .return_ es => by
    intro L ns
    simp only [sE, sEs, sIts, sS, sI, sT, sB, condS, condI, condB, *]
  | .local_ xs es => by
    intro L ns
    simp only [sE, sEs, sIts, sS, sI, sT, sB, condS, condI, condB, *]
  | .localfn x ps b => by
    have ih1 := coB b
    intro L ns
    simp only [sE, sEs, sIts, sS, sI, sT, sB, condS, condI, condB, *]
  | .goto_ x => by
    intro L ns
    simp only [sE, sEs, sIts, sS, sI, sT, sB, condS, condI, condB, *]
  | .label x => by
    intro L ns
    simp only [sE, sEs, sIts, sS, sI, sT, sB, condS, condI, condB, *]
  | .func f ps b => by
    have ih1 := coB b
    intro L ns
    simp only [sE, sEs, sIts, sS, sI, sT, sB, condS, condI, condB, *]
  | .assign ts es => by
    intro L ns
    simp only [sE, sEs, sIts, sS, sI, sT, sB, condS, condI, condB, *]
  | .opassign o t e => by
    intro L ns
    simp only [sE, sEs, sIts, sS, sI, sT, sB, condS, condI, condB, *]
  | .call e => by
    intro L ns
    simp only [sE, sEs, sIts, sS, sI, sT, sB, condS, condI, condB, *]
  | .print es => by
    intro L ns
    simp only [sE, sEs, sIts, sS, sI, sT, sB, condS, condI, condB, *]
theorem coI : ∀ (x : If), ∀ (L : Lang) (ns : List Nm), condI L (sI ns x) = condI L x
  | .long e b t => by
    have ih1 := coB b
    intro L ns
    simp only [sE, sEs, sIts, sS, sI, sT, sB, condS, condI, condB, *]
  | .short e b d => by
    have ih1 := coB b
    intro L ns
    simp only [sE, sEs, sIts, sS, sI, sT, sB, condS, condI, condB, *]
  | .shortElse e b b' d => by
    have ih1 := coB b
    have ih2 := coB b'
    intro L ns
    simp only [sE, sEs, sIts, sS, sI, sT, sB, condS, condI, condB, *]
theorem coB : ∀ (x : Block), ∀ (L : Lang) (d : Bool) (ns : List Nm), condB L d (sB ns x) = condB L d x
  | .nil => by
    intro L d ns
    simp only [sE, sEs, sIts, sS, sI, sT, sB, condS, condI, condB, *]
  | .semi b => by
    have ih1 := coB b
    intro L d ns
    simp only [sE, sEs, sIts, sS, sI, sT, sB, condS, condI, condB, *]
  | .cons s b => by
    have ih1 := coS s
    have ih2 := coB b
    intro L d ns
    simp only [sE, sEs, sIts, sS, sI, sT, sB, condS, condI, condB, *]
end

variable (L : Lang)

set_option maxHeartbeats 4000000 in
mutual
theorem tiE : ∀ (x : Ex), ∀ (sh : Bool) (ns : List Nm), tE L sh (sE ns x) ↔ tE L sh x
  | .var x => by
    intro sh ns
    simp only [sE, sEs, sIts, sS, sI, sT, sB, tE, tEs, tIts, tS, tI, tT, tB, isGroup_s, isTarget_s, targets_s, len_s, cutLast_s, doB_s, semis_s, flag_s, isElse_s, isLong_s, isRet0_s, nil_s, caE, caB, daB, coS, *]
  | .num x => by
    intro sh ns
    simp only [sE, sEs, sIts, sS, sI, sT, sB, tE, tEs, tIts, tS, tI, tT, tB, isGroup_s, isTarget_s, targets_s, len_s, cutLast_s, doB_s, semis_s, flag_s, isElse_s, isLong_s, isRet0_s, nil_s, caE, caB, daB, coS, *]
  | .str x => by
    intro sh ns
    simp only [sE, sEs, sIts, sS, sI, sT, sB, tE, tEs, tIts, tS, tI, tT, tB, isGroup_s, isTarget_s, targets_s, len_s, cutLast_s, doB_s, semis_s, flag_s, isElse_s, isLong_s, isRet0_s, nil_s, caE, caB, daB, coS, *]
  | .cst x => by
    intro sh ns
    simp only [sE, sEs, sIts, sS, sI, sT, sB, tE, tEs, tIts, tS, tI, tT, tB, isGroup_s, isTarget_s, targets_s, len_s, cutLast_s, doB_s, semis_s, flag_s, isElse_s, isLong_s, isRet0_s, nil_s, caE, caB, daB, coS, *]
  | .vararg => by
    intro sh ns
    simp only [sE, sEs, sIts, sS, sI, sT, sB, tE, tEs, tIts, tS, tI, tT, tB, isGroup_s, isTarget_s, targets_s, len_s, cutLast_s, doB_s, semis_s, flag_s, isElse_s, isLong_s, isRet0_s, nil_s, caE, caB, daB, coS, *]
  | .func ps b => by
    have ih1 := tiB b
    intro sh ns
    simp only [sE, sEs, sIts, sS, sI, sT, sB, tE, tEs, tIts, tS, tI, tT, tB, isGroup_s, isTarget_s, targets_s, len_s, cutLast_s, doB_s, semis_s, flag_s, isElse_s, isLong_s, isRet0_s, nil_s, caE, caB, daB, coS, *]
  | .group e => by
    have ih1 := tiE e
    intro sh ns
    simp only [sE, sEs, sIts, sS, sI, sT, sB, tE, tEs, tIts, tS, tI, tT, tB, isGroup_s, isTarget_s, targets_s, len_s, cutLast_s, doB_s, semis_s, flag_s, isElse_s, isLong_s, isRet0_s, nil_s, caE, caB, daB, coS, *]
  | .un o e => by
    have ih1 := tiE e
    intro sh ns
    simp only [sE, sEs, sIts, sS, sI, sT, sB, tE, tEs, tIts, tS, tI, tT, tB, isGroup_s, isTarget_s, targets_s, len_s, cutLast_s, doB_s, semis_s, flag_s, isElse_s, isLong_s, isRet0_s, nil_s, caE, caB, daB, coS, *]
  | .bin o l r => by
    have ih1 := tiE l
    have ih2 := tiE r
    intro sh ns
    simp only [sE, sEs, sIts, sS, sI, sT, sB, tE, tEs, tIts, tS, tI, tT, tB, isGroup_s, isTarget_s, targets_s, len_s, cutLast_s, doB_s, semis_s, flag_s, isElse_s, isLong_s, isRet0_s, nil_s, caE, caB, daB, coS, *]
  | .member b x => by
    have ih1 := tiE b
    intro sh ns
    simp only [sE, sEs, sIts, sS, sI, sT, sB, tE, tEs, tIts, tS, tI, tT, tB, isGroup_s, isTarget_s, targets_s, len_s, cutLast_s, doB_s, semis_s, flag_s, isElse_s, isLong_s, isRet0_s, nil_s, caE, caB, daB, coS, *]
  | .index b k => by
    have ih1 := tiE b
    have ih2 := tiE k
    intro sh ns
    simp only [sE, sEs, sIts, sS, sI, sT, sB, tE, tEs, tIts, tS, tI, tT, tB, isGroup_s, isTarget_s, targets_s, len_s, cutLast_s, doB_s, semis_s, flag_s, isElse_s, isLong_s, isRet0_s, nil_s, caE, caB, daB, coS, *]
  | .call b t as => by
    have ih1 := tiE b
    have ih2 := tiEs as
    intro sh ns
    simp only [sE, sEs, sIts, sS, sI, sT, sB, tE, tEs, tIts, tS, tI, tT, tB, isGroup_s, isTarget_s, targets_s, len_s, cutLast_s, doB_s, semis_s, flag_s, isElse_s, isLong_s, isRet0_s, nil_s, caE, caB, daB, coS, *]
  | .method b x t as => by
    have ih1 := tiE b
    have ih2 := tiEs as
    intro sh ns
    simp only [sE, sEs, sIts, sS, sI, sT, sB, tE, tEs, tIts, tS, tI, tT, tB, isGroup_s, isTarget_s, targets_s, len_s, cutLast_s, doB_s, semis_s, flag_s, isElse_s, isLong_s, isRet0_s, nil_s, caE, caB, daB, coS, *]
  | .table its => by
    have ih1 := tiIts its
    intro sh ns
    simp only [sE, sEs, sIts, sS, sI, sT, sB, tE, tEs, tIts, tS, tI, tT, tB, isGroup_s, isTarget_s, targets_s, len_s, cutLast_s, doB_s, semis_s, flag_s, isElse_s, isLong_s, isRet0_s, nil_s, caE, caB, daB, coS, *]
theorem tiEs : ∀ (x : Exs), ∀ (sh : Bool) (ns : List Nm), tEs L sh (sEs ns x) ↔ tEs L sh x
  | .nil => by
    intro sh ns
    simp only [sE, sEs, sIts, sS, sI, sT, sB, tE, tEs, tIts, tS, tI, tT, tB, isGroup_s, isTarget_s, targets_s, len_s, cutLast_s, doB_s, semis_s, flag_s, isElse_s, isLong_s, isRet0_s, nil_s, caE, caB, daB, coS, *]
  | .cons e es => by
    have ih1 := tiE e
    have ih2 := tiEs es
    intro sh ns
    simp only [sE, sEs, sIts, sS, sI, sT, sB, tE, tEs, tIts, tS, tI, tT, tB, isGroup_s, isTarget_s, targets_s, len_s, cutLast_s, doB_s, semis_s, flag_s, isElse_s, isLong_s, isRet0_s, nil_s, caE, caB, daB, coS, *]
theorem tiIts : ∀ (x : Its), ∀ (sh : Bool) (ns : List Nm), tIts L sh (sIts ns x) ↔ tIts L sh x
  | .nil => by
    intro sh ns
    simp only [sE, sEs, sIts, sS, sI, sT, sB, tE, tEs, tIts, tS, tI, tT, tB, isGroup_s, isTarget_s, targets_s, len_s, cutLast_s, doB_s, semis_s, flag_s, isElse_s, isLong_s, isRet0_s, nil_s, caE, caB, daB, coS, *]
  | .pos e its => by
    have ih1 := tiE e
    have ih2 := tiIts its
    intro sh ns
    simp only [sE, sEs, sIts, sS, sI, sT, sB, tE, tEs, tIts, tS, tI, tT, tB, isGroup_s, isTarget_s, targets_s, len_s, cutLast_s, doB_s, semis_s, flag_s, isElse_s, isLong_s, isRet0_s, nil_s, caE, caB, daB, coS, *]
  | .named x e its => by
    have ih1 := tiE e
    have ih2 := tiIts its
    intro sh ns
    simp only [sE, sEs, sIts, sS, sI, sT, sB, tE, tEs, tIts, tS, tI, tT, tB, isGroup_s, isTarget_s, targets_s, len_s, cutLast_s, doB_s, semis_s, flag_s, isElse_s, isLong_s, isRet0_s, nil_s, caE, caB, daB, coS, *]
  | .keyed k e its => by
    have ih1 := tiE k
    have ih2 := tiE e
    have ih3 := tiIts its
    intro sh ns
    simp only [sE, sEs, sIts, sS, sI, sT, sB, tE, tEs, tIts, tS, tI, tT, tB, isGroup_s, isTarget_s, targets_s, len_s, cutLast_s, doB_s, semis_s, flag_s, isElse_s, isLong_s, isRet0_s, nil_s, caE, caB, daB, coS, *]
theorem tiS : ∀ (x : St), ∀ (sh : Bool) (ns : List Nm), tS L sh (sS ns x) ↔ tS L sh x
  | .do_ b => by
    have ih1 := tiB b
    intro sh ns
    simp only [sE, sEs, sIts, sS, sI, sT, sB, tE, tEs, tIts, tS, tI, tT, tB, isGroup_s, isTarget_s, targets_s, len_s, cutLast_s, doB_s, semis_s, flag_s, isElse_s, isLong_s, isRet0_s, nil_s, caE, caB, daB, coS, *]
  | .if_ i => by
    have ih1 := tiI i
    intro sh ns
    simp only [sE, sEs, sIts, sS, sI, sT, sB, tE, tEs, tIts, tS, tI, tT, tB, isGroup_s, isTarget_s, targets_s, len_s, cutLast_s, doB_s, semis_s, flag_s, isElse_s, isLong_s, isRet0_s, nil_s, caE, caB, daB, coS, *]
  | .while_ e b => by
    have ih1 := tiE e
    have ih2 := tiB b
    intro sh ns
    simp only [sE, sEs, sIts, sS, sI, sT, sB, tE, tEs, tIts, tS, tI, tT, tB, isGroup_s, isTarget_s, targets_s, len_s, cutLast_s, doB_s, semis_s, flag_s, isElse_s, isLong_s, isRet0_s, nil_s, caE, caB, daB, coS, *]
  | .whileShort e b d => by
    have ih1 := tiE e
    have ih2 := tiB b
    intro sh ns
    simp only [sE, sEs, sIts, sS, sI, sT, sB, tE, tEs, tIts, tS, tI, tT, tB, isGroup_s, isTarget_s, targets_s, len_s, cutLast_s, doB_s, semis_s, flag_s, isElse_s, isLong_s, isRet0_s, nil_s, caE, caB, daB, coS, *]
  | .repeat_ b e => by
    have ih1 := tiB b
    have ih2 := tiE e
    intro sh ns
    simp only [sE, sEs, sIts, sS, sI, sT, sB, tE, tEs, tIts, tS, tI, tT, tB, isGroup_s, isTarget_s, targets_s, len_s, cutLast_s, doB_s, semis_s, flag_s, isElse_s, isLong_s, isRet0_s, nil_s, caE, caB, daB, coS, *]
  | .fornum x a b s d => by
    have ih1 := tiE a
    have ih2 := tiE b
    have ih3 := tiEs s
    have ih4 := tiB d
    intro sh ns
    simp only [sE, sEs, sIts, sS, sI, sT, sB, tE, tEs, tIts, tS, tI, tT, tB, isGroup_s, isTarget_s, targets_s, len_s, cutLast_s, doB_s, semis_s, flag_s, isElse_s, isLong_s, isRet0_s, nil_s, caE, caB, daB, coS, *]
  | .forin xs es d => by
    have ih1 := tiEs es
    have ih2 := tiB d
    intro sh ns
    simp only [sE, sEs, sIts, sS, sI, sT, sB, tE, tEs, tIts, tS, tI, tT, tB, isGroup_s, isTarget_s, targets_s, len_s, cutLast_s, doB_s, semis_s, flag_s, isElse_s, isLong_s, isRet0_s, nil_s, caE, caB, daB, coS, *]
  | .break_ => by
    intro sh ns
    simp only [sE, sEs, sIts, sS, sI, sT, sB, tE, tEs, tIts, tS, tI, tT, tB, isGroup_s, isTarget_s, targets_s, len_s, cutLast_s, doB_s, semis_s, flag_s, isElse_s, isLong_s, isRet0_s, nil_s, caE, caB, daB, coS, *]
  | .return_ es => by
    have ih1 := tiEs es
    intro sh ns
    simp only [sE, sEs, sIts, sS, sI, sT, sB, tE, tEs, tIts, tS, tI, tT, tB, isGroup_s, isTarget_s, targets_s, len_s, cutLast_s, doB_s, semis_s, flag_s, isElse_s, isLong_s, isRet0_s, nil_s, caE, caB, daB, coS, *]
  | .local_ xs es => by
    have ih1 := tiEs es
    intro sh ns
    simp only [sE, sEs, sIts, sS, sI, sT, sB, tE, tEs, tIts, tS, tI, tT, tB, isGroup_s, isTarget_s, targets_s, len_s, cutLast_s, doB_s, semis_s, flag_s, isElse_s, isLong_s, isRet0_s, nil_s, caE, caB, daB, coS, *]
  | .localfn x ps b => by
    have ih1 := tiB b
    intro sh ns
    simp only [sE, sEs, sIts, sS, sI, sT, sB, tE, tEs, tIts, tS, tI, tT, tB, isGroup_s, isTarget_s, targets_s, len_s, cutLast_s, doB_s, semis_s, flag_s, isElse_s, isLong_s, isRet0_s, nil_s, caE, caB, daB, coS, *]
  | .goto_ x => by
    intro sh ns
    simp only [sE, sEs, sIts, sS, sI, sT, sB, tE, tEs, tIts, tS, tI, tT, tB, isGroup_s, isTarget_s, targets_s, len_s, cutLast_s, doB_s, semis_s, flag_s, isElse_s, isLong_s, isRet0_s, nil_s, caE, caB, daB, coS, *]
  | .label x => by
    intro sh ns
    simp only [sE, sEs, sIts, sS, sI, sT, sB, tE, tEs, tIts, tS, tI, tT, tB, isGroup_s, isTarget_s, targets_s, len_s, cutLast_s, doB_s, semis_s, flag_s, isElse_s, isLong_s, isRet0_s, nil_s, caE, caB, daB, coS, *]
  | .func f ps b => by
    have ih1 := tiB b
    intro sh ns
    simp only [sE, sEs, sIts, sS, sI, sT, sB, tE, tEs, tIts, tS, tI, tT, tB, isGroup_s, isTarget_s, targets_s, len_s, cutLast_s, doB_s, semis_s, flag_s, isElse_s, isLong_s, isRet0_s, nil_s, caE, caB, daB, coS, *]
  | .assign ts es => by
    have ih1 := tiEs ts
    have ih2 := tiEs es
    intro sh ns
    simp only [sE, sEs, sIts, sS, sI, sT, sB, tE, tEs, tIts, tS, tI, tT, tB, isGroup_s, isTarget_s, targets_s, len_s, cutLast_s, doB_s, semis_s, flag_s, isElse_s, isLong_s, isRet0_s, nil_s, caE, caB, daB, coS, *]
  | .opassign o t e => by
    have ih1 := tiE t
    have ih2 := tiE e
    intro sh ns
    simp only [sE, sEs, sIts, sS, sI, sT, sB, tE, tEs, tIts, tS, tI, tT, tB, isGroup_s, isTarget_s, targets_s, len_s, cutLast_s, doB_s, semis_s, flag_s, isElse_s, isLong_s, isRet0_s, nil_s, caE, caB, daB, coS, *]
  | .call e => by
    have ih1 := tiE e
    intro sh ns
    simp only [sE, sEs, sIts, sS, sI, sT, sB, tE, tEs, tIts, tS, tI, tT, tB, isGroup_s, isTarget_s, targets_s, len_s, cutLast_s, doB_s, semis_s, flag_s, isElse_s, isLong_s, isRet0_s, nil_s, caE, caB, daB, coS, *]
  | .print es => by
    have ih1 := tiEs es
    intro sh ns
    simp only [sE, sEs, sIts, sS, sI, sT, sB, tE, tEs, tIts, tS, tI, tT, tB, isGroup_s, isTarget_s, targets_s, len_s, cutLast_s, doB_s, semis_s, flag_s, isElse_s, isLong_s, isRet0_s, nil_s, caE, caB, daB, coS, *]
theorem tiI : ∀ (x : If), ∀ (sh : Bool) (ns : List Nm), tI L sh (sI ns x) ↔ tI L sh x
  | .long e b t => by
    have ih1 := tiE e
    have ih2 := tiB b
    have ih3 := tiT t
    intro sh ns
    simp only [sE, sEs, sIts, sS, sI, sT, sB, tE, tEs, tIts, tS, tI, tT, tB, isGroup_s, isTarget_s, targets_s, len_s, cutLast_s, doB_s, semis_s, flag_s, isElse_s, isLong_s, isRet0_s, nil_s, caE, caB, daB, coS, *]
  | .short e b d => by
    have ih1 := tiE e
    have ih2 := tiB b
    intro sh ns
    simp only [sE, sEs, sIts, sS, sI, sT, sB, tE, tEs, tIts, tS, tI, tT, tB, isGroup_s, isTarget_s, targets_s, len_s, cutLast_s, doB_s, semis_s, flag_s, isElse_s, isLong_s, isRet0_s, nil_s, caE, caB, daB, coS, *]
  | .shortElse e b b' d => by
    have ih1 := tiE e
    have ih2 := tiB b
    have ih3 := tiB b'
    intro sh ns
    simp only [sE, sEs, sIts, sS, sI, sT, sB, tE, tEs, tIts, tS, tI, tT, tB, isGroup_s, isTarget_s, targets_s, len_s, cutLast_s, doB_s, semis_s, flag_s, isElse_s, isLong_s, isRet0_s, nil_s, caE, caB, daB, coS, *]
theorem tiT : ∀ (x : Syntax.Tail), ∀ (sh : Bool) (ns : List Nm), tT L sh (sT ns x) ↔ tT L sh x
  | .end_ => by
    intro sh ns
    simp only [sE, sEs, sIts, sS, sI, sT, sB, tE, tEs, tIts, tS, tI, tT, tB, isGroup_s, isTarget_s, targets_s, len_s, cutLast_s, doB_s, semis_s, flag_s, isElse_s, isLong_s, isRet0_s, nil_s, caE, caB, daB, coS, *]
  | .else_ b => by
    have ih1 := tiB b
    intro sh ns
    simp only [sE, sEs, sIts, sS, sI, sT, sB, tE, tEs, tIts, tS, tI, tT, tB, isGroup_s, isTarget_s, targets_s, len_s, cutLast_s, doB_s, semis_s, flag_s, isElse_s, isLong_s, isRet0_s, nil_s, caE, caB, daB, coS, *]
  | .elseif_ i => by
    have ih1 := tiI i
    intro sh ns
    simp only [sE, sEs, sIts, sS, sI, sT, sB, tE, tEs, tIts, tS, tI, tT, tB, isGroup_s, isTarget_s, targets_s, len_s, cutLast_s, doB_s, semis_s, flag_s, isElse_s, isLong_s, isRet0_s, nil_s, caE, caB, daB, coS, *]
theorem tiB : ∀ (x : Block), ∀ (sh : Bool) (ns : List Nm), tB L sh (sB ns x) ↔ tB L sh x
  | .nil => by
    intro sh ns
    simp only [sE, sEs, sIts, sS, sI, sT, sB, tE, tEs, tIts, tS, tI, tT, tB, isGroup_s, isTarget_s, targets_s, len_s, cutLast_s, doB_s, semis_s, flag_s, isElse_s, isLong_s, isRet0_s, nil_s, caE, caB, daB, coS, *]
  | .semi b => by
    have ih1 := tiB b
    intro sh ns
    simp only [sE, sEs, sIts, sS, sI, sT, sB, tE, tEs, tIts, tS, tI, tT, tB, isGroup_s, isTarget_s, targets_s, len_s, cutLast_s, doB_s, semis_s, flag_s, isElse_s, isLong_s, isRet0_s, nil_s, caE, caB, daB, coS, *]
  | .cons s b => by
    have ih1 := tiS s
    have ih2 := tiB b
    intro sh ns
    simp only [sE, sEs, sIts, sS, sI, sT, sB, tE, tEs, tIts, tS, tI, tT, tB, isGroup_s, isTarget_s, targets_s, len_s, cutLast_s, doB_s, semis_s, flag_s, isElse_s, isLong_s, isRet0_s, nil_s, caE, caB, daB, coS, *]
end

/-- A renamed program is tidy if the program is. -/
theorem tidy_s (b : Block) (ns : List Nm) : Tidy L (sB ns b) ↔ Tidy L b := by
  unfold Tidy
  rw [tiB, endsRet_s]

end Verif.Tidy
