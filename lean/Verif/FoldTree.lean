import Verif.Spec.LuaSem
/-
Model of constant folding over whole trees (pico_constfold.py 443-473, 498-556, 570-742).

The tree is rewritten bottom up (`traverse_nodes(post=update_node_constval)`).  A node may be known to be constant without having been
replaced (`worse_const`, when the constant would be longer); that decision depends on the printed text and is an arbitrary function
`keep` here.  `Γ` gives the constants of variables (`node.var.constval`).  The outer `none` is an exception.

Simplified: `local`/assignment statements only have their expressions folded here; recording their constants and erasing targets
(684-740) is modelled by `eraseAssign` in FoldAssign.lean.  `goto` is not modelled.  Comments and tokens are not modelled.
-/
namespace Verif
open Spec

structure FoldCtx where
  lang : Lang
  depth : Nat
  Γ : Nat → Option LV
  keep : Ex → LV → Bool

/-- `set_const` (454-473). -/
def FoldCtx.set (c : FoldCtx) (node : Ex) (v : LV) : Ex × Option LV := if c.keep node v then (node, some v) else (.const v, some v)

/-- The unary case (588-595). -/
def FoldCtx.stepUn (c : FoldCtx) (op : UnOp) (e : Ex) (k : Option LV) : Option (Ex × Option LV) :=
  match k with
  | none => some (.un op e, none)
  | some v => (foldUn c.lang op v).map fun r => match r with
    | some x => c.set (.un op e) x
    | none => (.un op e, none)

/-- The binary case (597-617). -/
def FoldCtx.stepBin (c : FoldCtx) (op : BinOp) (l : Ex) (kl : Option LV) (r : Ex) (kr : Option LV) : Option (Ex × Option LV) :=
  match kl, kr with
  | none, _ => some (.bin op l r, none)
  | some a, some b => (foldBin c.depth op a b).map fun q => match q with
    | some x => c.set (.bin op l r) x
    | none => (.bin op l r, none)
  | some a, none =>
    if op = .and then some (if a.truthy then (r, none) else c.set (.bin op l r) a)
    else if op = .or then some (if a.truthy then c.set (.bin op l r) a else (r, none))
    else some (.bin op l r, none)

/-- The case of calls of builtins (629-645). -/
def FoldCtx.stepBuiltin (c : FoldCtx) (f : Builtin) (args : Exs) (ks : Option (List LV)) : Option (Ex × Option LV) :=
  match ks with
  | none => some (.builtin f args, none)
  | some vs => (foldCall c.lang c.depth f vs).map fun q => match q with
    | some x => c.set (.builtin f args) x
    | none => (.builtin f args, none)

mutual
/-- `update_node_constval` on expressions (584-645), with `get_const` (443-452) of the result. -/
def FoldCtx.ex (c : FoldCtx) : Ex → Option (Ex × Option LV)
  | .const v => some (.const v, some v)
  | .var x => some (match c.Γ x with
    | some v => c.set (.var x) v
    | none => (.var x, none))
  | .group e => (c.ex e).map fun p => (.group p.1, p.2)
  | .un op e => (c.ex e).bind fun p => c.stepUn op p.1 p.2
  | .bin op l r => (c.ex l).bind fun p => (c.ex r).bind fun q => c.stepBin op p.1 p.2 q.1 q.2
  | .builtin f args => (c.exs args).bind fun p => c.stepBuiltin f p.1 p.2
  | .call k args => (c.exs args).map fun p => (.call k p.1, none)
  | .other k args => (c.exs args).map fun p => (.other k p.1, none)
/-- A list of expressions, and its constants if all are known. -/
def FoldCtx.exs (c : FoldCtx) : Exs → Option (Exs × Option (List LV))
  | .nil => some (.nil, some [])
  | .cons e es => (c.ex e).bind fun p => (c.exs es).map fun q => (.cons p.1 q.1, match p.2, q.2 with
    | some v, some vs => some (v :: vs)
    | _, _ => none)
end

/-- `create_do_node_if_needed` (535-556): does the block declare or jump? -/
def needsDo : Bl → Bool
  | .nil => false
  | .cons (.locals _ _) _ => true
  | .cons (.ret _) _ => true
  | .cons .brk _ => true
  | .cons _ b => needsDo b

/-- `create_do_node_if_needed`. -/
def doIfNeeded (b : Bl) : Bl := if needsDo b then .cons (.doB b) .nil else b

/-- The case of `if` (647-671) once condition and branches have been folded. -/
def stepIf (c : Ex) (k : Option LV) (t : Bl) (e : El) : Bl :=
  match k with
  | none => .cons (.ifS c t e) .nil
  | some v =>
    if v.truthy then doIfNeeded t
    else match e with
      | .none => .nil
      | .else_ b => doIfNeeded b
      | .elseif c' t' e' => .cons (.ifS c' t' e') .nil

/-- The case of `elseif` (647-671). -/
def stepElseif (c : Ex) (k : Option LV) (t : Bl) (e : El) : El :=
  match k with
  | none => .elseif c t e
  | some v => if v.truthy then .else_ t else e

mutual
/-- Statements; a statement may become several or none. -/
def FoldCtx.st (c : FoldCtx) : St → Option Bl
  | .locals xs es => (c.exs es).map fun p => .cons (.locals xs p.1) .nil
  | .other k es => (c.exs es).map fun p => .cons (.other k p.1) .nil
  | .ret es => (c.exs es).map fun p => .cons (.ret p.1) .nil
  | .brk => some (.cons .brk .nil)
  | .label l => some (.cons (.label l) .nil)
  | .doB b => (c.bl b).map fun b => .cons (.doB b) .nil
  | .loop k es b => (c.exs es).bind fun p => (c.bl b).map fun b => .cons (.loop k p.1 b) .nil
  | .ifS cond t e => (c.ex cond).bind fun p => (c.bl t).bind fun t => (c.el e).map fun e => stepIf p.1 p.2 t e
def FoldCtx.bl (c : FoldCtx) : Bl → Option Bl
  | .nil => some .nil
  | .cons s b => (c.st s).bind fun x => (c.bl b).map fun y => x.append y
def FoldCtx.el (c : FoldCtx) : El → Option El
  | .none => some .none
  | .else_ b => (c.bl b).map .else_
  | .elseif cond t e => (c.ex cond).bind fun p => (c.bl t).bind fun t => (c.el e).map fun e => stepElseif p.1 p.2 t e
end

end Verif
