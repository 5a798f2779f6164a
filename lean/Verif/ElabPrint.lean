import Verif.ElabNorm
/-
Helpers for C76: `?` and `print` stand for the same program.
-/
namespace Verif.Elab
open Syntax LuaPrint
open LuaScope (Env look bind named methodParams after atEnd)
open Paren (Op)

mutual
theorem upE : ∀ e : Ex, LuaScope.nE (uE e) = LuaScope.nE e
  | .var _ | .num _ | .str _ | .cst _ | .vararg => rfl
  | .func ps b => by simp only [uE, LuaScope.nE, upB b]
  | .group e => by simp only [uE, LuaScope.nE, upE e]
  | .un o e => by simp only [uE, LuaScope.nE, upE e]
  | .bin o l r => by simp only [uE, LuaScope.nE, upE l, upE r]
  | .member b x => by simp only [uE, LuaScope.nE, upE b]
  | .index b k => by simp only [uE, LuaScope.nE, upE b, upE k]
  | .call b _ as => by simp only [uE, LuaScope.nE, upE b, upEs as]
  | .method b x _ as => by simp only [uE, LuaScope.nE, upE b, upEs as]
  | .table its => by simp only [uE, LuaScope.nE, upIts its]
theorem upEs : ∀ es : Exs, LuaScope.nEs (uEs es) = LuaScope.nEs es
  | .nil => rfl
  | .cons e es => by simp only [uEs, LuaScope.nEs, upE e, upEs es]
theorem upIts : ∀ its : Its, LuaScope.nIts (uIts its) = LuaScope.nIts its
  | .nil => rfl
  | .pos e its => by simp only [uIts, LuaScope.nIts, upE e, upIts its]
  | .named x e its => by simp only [uIts, LuaScope.nIts, upE e, upIts its]
  | .keyed k e its => by simp only [uIts, LuaScope.nIts, upE k, upE e, upIts its]
theorem upS : ∀ s : St, LuaScope.nS (uS s) = LuaScope.nS s
  | .do_ b => by simp only [uS, LuaScope.nS, upB b]
  | .if_ i => by simp only [uS, LuaScope.nS, upI i]
  | .while_ c b => by simp only [uS, LuaScope.nS, upE c, upB b]
  | .whileShort c b _ => by simp only [uS, LuaScope.nS, upE c, upB b]
  | .repeat_ b c => by simp only [uS, LuaScope.nS, upE c, upB b]
  | .fornum x a b c d => by simp only [uS, LuaScope.nS, upE a, upE b, upEs c, upB d]
  | .forin xs es d => by simp only [uS, LuaScope.nS, upEs es, upB d]
  | .break_ => rfl
  | .return_ es => by simp only [uS, LuaScope.nS, upEs es]
  | .local_ xs es => by simp only [uS, LuaScope.nS, upEs es]
  | .localfn _ ps b => by simp only [uS, LuaScope.nS, upB b]
  | .goto_ _ => rfl
  | .label _ => rfl
  | .func f ps b => by simp only [uS, LuaScope.nS, upB b]
  | .assign ts es => by simp only [uS, LuaScope.nS, upEs ts, upEs es]
  | .opassign _ t e => by simp only [uS, LuaScope.nS, upE t, upE e]
  | .call e => by simp only [uS, LuaScope.nS, upE e]
  | .print es => by simp only [uS, LuaScope.nS, LuaScope.nE, upEs es, Nat.zero_add]
theorem upI : ∀ i : If, LuaScope.nI (uI i) = LuaScope.nI i
  | .long c b t => by simp only [uI, LuaScope.nI, upE c, upB b, upT t]
  | .short c b _ => by simp only [uI, LuaScope.nI, upE c, upB b]
  | .shortElse c b d _ => by simp only [uI, LuaScope.nI, upE c, upB b, upB d]
theorem upT : ∀ t : Tail, LuaScope.nT (uT t) = LuaScope.nT t
  | .end_ => rfl
  | .else_ b => by simp only [uT, LuaScope.nT, upB b]
  | .elseif_ i => by simp only [uT, LuaScope.nT, upI i]
theorem upB : ∀ b : Block, LuaScope.nB (uB b) = LuaScope.nB b
  | .nil => rfl
  | .semi b => by simp only [uB, LuaScope.nB, upB b]
  | .cons s b => by simp only [uB, LuaScope.nB, upS s, upB b]
end

theorem after_print (env : Env) (n : Nat) (s : St) : after env n (uS s) = after env n s := by
  cases s <;> rfl

theorem atEnd_print : ∀ (b : Block) (env : Env) (n : Nat), atEnd env n (uB b) = atEnd env n b
  | .nil, _, _ => rfl
  | .semi b, _, _ => by simp only [uB, atEnd, atEnd_print b]
  | .cons s b, _, _ => by simp only [uB, atEnd, after_print, upS, atEnd_print b]

theorem shape_print : ∀ its : Its, shape (uIts its) = shape its
  | .nil => rfl
  | .pos e its => by simp only [uIts, shape, shape_print its]
  | .named x e its => by simp only [uIts, shape, shape_print its]
  | .keyed k e its => by simp only [uIts, shape, shape_print its]

variable (S : Sem)

theorem builtin_print (env : Env) : ∀ e : Ex, builtinOf S env (uE e) = builtinOf S env e
  | .group e => by simp only [uE, builtinOf, builtin_print env e]
  | .un _ _ | .var _ | .num _ | .str _ | .cst _ | .vararg | .func _ _ | .bin _ _ _ | .member _ _ | .index _ _ | .call _ _ _ | .method _ _ _ _
  | .table _ => rfl

mutual
theorem vE : ∀ (e : Ex) (env : Env) (n : Nat), eE S env n (uE e) = eE S env n e
  | .var _, _, _ | .num _, _, _ | .str _, _, _ | .cst _, _, _ | .vararg, _, _ => rfl
  | .func ps b, _, _ => by simp only [uE, eE, vB b]
  | .group e, _, _ => by simp only [uE, eE, vE e]
  | .un o e, _, _ => by simp only [uE, eE, vE e]
  | .bin o l r, _, _ => by simp only [uE, eE, upE, vE l, vE r]
  | .member b x, _, _ => by simp only [uE, eE, vE b]
  | .index b k, _, _ => by simp only [uE, eE, upE, vE b, vE k]
  | .call b _ as, _, _ => by simp only [uE, eE, upE, builtin_print, vE b, vEs as]
  | .method b x _ as, _, _ => by simp only [uE, eE, upE, vE b, vEs as]
  | .table its, _, _ => by simp only [uE, eE, shape_print, vIts its]
theorem vEs : ∀ (es : Exs) (env : Env) (n : Nat), eEs S env n (uEs es) = eEs S env n es
  | .nil, _, _ => rfl
  | .cons e es, _, _ => by simp only [uEs, eEs, upE, vE e, vEs es]
theorem vOnes : ∀ (es : Exs) (env : Env) (n : Nat), eOnes S env n (uEs es) = eOnes S env n es
  | .nil, _, _ => rfl
  | .cons e es, _, _ => by simp only [uEs, eOnes, upE, vE e, vOnes es]
theorem vIts : ∀ (its : Its) (env : Env) (n : Nat), eIts S env n (uIts its) = eIts S env n its
  | .nil, _, _ => rfl
  | .pos e its, _, _ => by simp only [uIts, eIts, upE, vE e, vIts its]
  | .named x e its, _, _ => by simp only [uIts, eIts, upE, vE e, vIts its]
  | .keyed k e its, _, _ => by simp only [uIts, eIts, upE, vE k, vE e, vIts its]
theorem vT : ∀ (t : Ex) (env : Env) (n : Nat), eT S env n (uE t) = eT S env n t
  | .var x, _, _ => rfl
  | .member b x, _, _ => by simp only [uE, eT, vE b]
  | .index b k, _, _ => by simp only [uE, eT, upE, vE b, vE k]
  | .group e, _, _ => by simp only [uE, eT, vT e]
  | .un _ _, _, _ | .num _, _, _ | .str _, _, _ | .cst _, _, _ | .vararg, _, _ | .func _ _, _, _ | .bin _ _ _, _, _ | .call _ _ _, _, _
  | .method _ _ _ _, _, _ | .table _, _, _ => rfl
theorem vTs : ∀ (ts : Exs) (env : Env) (n : Nat), eTs S env n (uEs ts) = eTs S env n ts
  | .nil, _, _ => rfl
  | .cons e es, _, _ => by simp only [uEs, eTs, upE, vT e, vTs es]
theorem vOp (o : Op) (r : Core.Ex) : ∀ (t : Ex) (env : Env) (n : Nat), eOp S env n o r (uE t) = eOp S env n o r t
  | .var x, _, _ => rfl
  | .member b x, _, _ => by simp only [uE, eOp, vE b]
  | .index b k, _, _ => by simp only [uE, eOp, upE, vE b, vE k]
  | .group e, _, _ => by simp only [uE, eOp, vOp o r e]
  | .un _ _, _, _ | .num _, _, _ | .str _, _, _ | .cst _, _, _ | .vararg, _, _ | .func _ _, _, _ | .bin _ _ _, _, _ | .call _ _ _, _, _
  | .method _ _ _ _, _, _ | .table _, _, _ => rfl
theorem vS : ∀ (s : St) (env : Env) (n : Nat), eS S env n (uS s) = eS S env n s
  | .do_ b, _, _ => by simp only [uS, eS, vB b]
  | .if_ (.long c b t), _, _ => by simp only [uS, uI, eS, upE, upB, vE c, vB b, vTail t]
  | .if_ (.short c b _), _, _ => by simp only [uS, uI, eS, upE, vE c, vB b]
  | .if_ (.shortElse c b d _), _, _ => by simp only [uS, uI, eS, upE, upB, vE c, vB b, vB d]
  | .while_ c b, _, _ => by simp only [uS, eS, upE, vE c, vB b]
  | .whileShort c b _, _, _ => by simp only [uS, eS, upE, vE c, vB b]
  | .repeat_ b c, _, _ => by simp only [uS, eS, upB, atEnd_print, vE c, vB b]
  | .fornum x a b c d, _, _ => by simp only [uS, eS, upE, upEs, vE a, vE b, vOnes c, vB d]
  | .forin xs es d, _, _ => by simp only [uS, eS, upEs, vEs es, vB d]
  | .break_, _, _ => rfl
  | .return_ es, _, _ => by simp only [uS, eS, vEs es]
  | .local_ xs es, _, _ => by simp only [uS, eS, vEs es]
  | .localfn _ ps b, _, _ => by simp only [uS, eS, vB b]
  | .goto_ _, _, _ => rfl
  | .label _, _, _ => rfl
  | .func f ps b, _, _ => by simp only [uS, eS, vB b]
  | .assign ts es, _, _ => by simp only [uS, eS, upEs, vTs ts, vEs es]
  | .opassign o t e, _, _ => by simp only [uS, eS, upE, vE e, vOp o _ t]
  | .call e, _, _ => by simp only [uS, eS, vE e]
  | .print es, _, _ => by simp only [uS, eS, eE, LuaScope.nE, Nat.add_zero, vEs es]
theorem vTail : ∀ (t : Tail) (env : Env) (n : Nat), eTail S env n (uT t) = eTail S env n t
  | .end_, _, _ => rfl
  | .else_ b, _, _ => by simp only [uT, eTail, vB b]
  | .elseif_ (.long c b t), _, _ => by simp only [uT, uI, eTail, upE, upB, vE c, vB b, vTail t]
  | .elseif_ (.short c b _), _, _ => by simp only [uT, uI, eTail, upE, vE c, vB b]
  | .elseif_ (.shortElse c b d _), _, _ => by simp only [uT, uI, eTail, upE, upB, vE c, vB b, vB d]
theorem vB : ∀ (b : Block) (env : Env) (n : Nat), eB S env n (uB b) = eB S env n b
  | .nil, _, _ => rfl
  | .semi b, _, _ => by simp only [uB, eB, vB b]
  | .cons s b, _, _ => by simp only [uB, eB, upS, after_print, vS s, vB b]
end

end Verif.Elab
