import Verif.Spec.LuaCore
import Verif.FoldAssign
/-
Model of `fold_consts` (pico_constfold.py 443-742) over whole programs with functions: expressions are folded bottom up, the constants
of locals that are never reassigned are recorded, their uses replaced, their declarations erased, and branches with a constant condition
removed.

`Γ` gives the constants recorded so far (`node.var.constval`).  The code keeps them in the variables; as a variable is only used where it
is visible, after its declaration, passing them along the scopes is the same.  The outer `none` is an exception.

Simplified: globals marked `--[[const]]` and constants given on the command line are not modelled; neither are the errors reported for
variables marked `--[[const]]` that are not constant.  In an assignment the targets are folded before the sources (the code alternates,
which makes no difference as nothing is recorded there).  `goto` and labels are left out (see C24_label_counterexample).  Comments and
tokens are left out.
-/
namespace Verif.Core
open Spec

mutual
/-- The locals assigned to, once per assignment (`mark_reassign`, pico_parse.py 861-864, 500, 877, 887). -/
def Ex.writes : Ex → List Nat
  | .const _ => []
  | .var _ => []
  | .dots => []
  | .group e => e.writes
  | .un _ e => e.writes
  | .bin _ l r => l.writes ++ r.writes
  | .builtin _ es => writesEs es
  | .call f es => f.writes ++ writesEs es
  | .index e k => e.writes ++ k.writes
  | .op _ _ es => writesEs es
  | .func _ _ b => writesBl b
def writesEs : List Ex → List Nat
  | [] => []
  | e :: es => e.writes ++ writesEs es
def St.writes : St → List Nat
  | .locals _ es => writesEs es
  | .localFn _ _ _ b => writesBl b
  | .assign ts es => writesTs ts ++ writesEs es
  | .eval e => e.writes
  | .ret es => writesEs es
  | .brk => []
  | .doB b => writesBl b
  | .whileS c b => c.writes ++ writesBl b
  | .repeatS b c => writesBl b ++ c.writes
  | .forNum _ es b => writesEs es ++ writesBl b
  | .forIn _ es b => writesEs es ++ writesBl b
  | .ifS c t e => c.writes ++ writesBl t ++ e.writes
def writesBl : List St → List Nat
  | [] => []
  | s :: b => s.writes ++ writesBl b
def El.writes : El → List Nat
  | .none => []
  | .else_ b => writesBl b
  | .elseif c t e => c.writes ++ writesBl t ++ e.writes
def Tg.writes : Tg → List Nat
  | .loc x => [x]
  | .put _ es => writesEs es
def writesTs : List Tg → List Nat
  | [] => []
  | t :: ts => t.writes ++ writesTs ts
end

/-- The options: language, depth of nested comparisons of numbers, whether the focus is on characters, the `--[[const]]` attributes, how
often each local is reassigned, and when a constant is too long to replace a node (`worse_const`, 465-470). -/
structure Fold where
  lang : Lang
  depth : Nat
  chars : Bool
  attr : Nat → Option Bool
  reassigned : Nat → Nat
  keep : Ex → LV → Bool

/-- `set_const` (454-473). -/
def Fold.set (c : Fold) (node : Ex) (v : LV) : Ex × Option LV := if c.keep node v then (node, some v) else (.const v, some v)

/-- The unary case (588-595). -/
def Fold.stepUn (c : Fold) (op : UnOp) (e : Ex) (k : Option LV) : Option (Ex × Option LV) :=
  match k with
  | none => some (.un op e, none)
  | some v => (foldUn c.lang op v).map fun r => match r with
    | some x => c.set (.un op e) x
    | none => (.un op e, none)

/-- The binary case (597-617). -/
def Fold.stepBin (c : Fold) (op : BinOp) (l : Ex) (kl : Option LV) (r : Ex) (kr : Option LV) : Option (Ex × Option LV) :=
  match kl, kr with
  | none, _ => some (.bin op l r, none)
  | some a, some b => (foldBin c.depth op a b).map fun q => match q with
    | some x => c.set (.bin op l r) x
    | none => (.bin op l r, none)
  | some a, none =>
    if op = .and then some (if a.truthy then (r, none) else c.set (.bin op l r) a)
    else if op = .or then some (if a.truthy then c.set (.bin op l r) a else (r, none))
    else some (.bin op l r, none)

/-- The case of calls of builtins (629-645). -/
def Fold.stepBuiltin (c : Fold) (f : Builtin) (es : List Ex) (ks : List (Option LV)) : Option (Ex × Option LV) :=
  match ks.mapM id with
  | none => some (.builtin f es, none)
  | some vs => (foldCall c.lang c.depth f vs).map fun q => match q with
    | some x => c.set (.builtin f es) x
    | none => (.builtin f es, none)

/-- `is_vararg_expr`. -/
def Ex.multi : Ex → Bool
  | .call _ _ => true
  | .builtin _ _ => true
  | .dots => true
  | .op _ m _ => m
  | _ => false

/-- What `visit_assign` looks at in the target of a `local` (690-697). -/
def Fold.target (c : Fold) (x : Nat) : AssignTarget := ⟨true, true, c.reassigned x, c.attr x, false⟩

/-- Whether the last source may give several values (708). -/
def lastMany (es : List Ex) : Bool := match es.getLast? with
  | some e => e.multi
  | none => false

/-- Which of the variables of a `local` are found constant (686-717). -/
def Fold.marks (c : Fold) (xs : List Nat) (es : List Ex) (ks : List (Option LV)) : List Bool :=
  Verif.marks c.chars (lastMany es) (xs.map c.target) ks

/-- `target.var.constval = constval` (717-719). -/
def record (Γ : Nat → Option LV) : List Nat → List Bool → List (Option LV) → (Nat → Option LV)
  | x :: xs, m :: ms, ks => record (upd Γ x (if m then ks.headD (some .nil) else none)) xs ms ks.tail
  | _, _, _ => Γ

/-- Variables that never become constants. -/
def forget (Γ : Nat → Option LV) (xs : List Nat) : Nat → Option LV := fun x => if x ∈ xs then none else Γ x

/-- `create_do_node_if_needed` (535-556): does the block declare or jump? -/
def needsDo : List St → Bool
  | [] => false
  | .locals _ _ :: _ => true
  | .localFn _ _ _ _ :: _ => true
  | .ret _ :: _ => true
  | .brk :: _ => true
  | _ :: b => needsDo b

/-- `create_do_node_if_needed`. -/
def doIfNeeded (b : List St) : List St := if needsDo b then [.doB b] else b

/-- The case of `if` (647-671) once condition and branches have been folded. -/
def stepIf (c : Ex) (k : Option LV) (t : List St) (e : El) : List St :=
  match k with
  | none => [.ifS c t e]
  | some v =>
    if v.truthy then doIfNeeded t
    else match e with
      | .none => []
      | .else_ b => doIfNeeded b
      | .elseif c' t' e' => [.ifS c' t' e']

/-- The case of `elseif` (647-671). -/
def stepElseif (c : Ex) (k : Option LV) (t : List St) (e : El) : El :=
  match k with
  | none => .elseif c t e
  | some v => if v.truthy then .else_ t else e

/-- What is left of a `local` (498-528, 739-740). -/
def Fold.stepLocal (c : Fold) (xs : List Nat) (es : List Ex) (ks : List (Option LV)) : List St :=
  match eraseAssign (.const .nil) true xs es (positions (c.marks xs es ks)) with
  | none => []
  | some (xs', es') => [.locals xs' es']

mutual
/-- `update_node_constval` on expressions (584-645), with `get_const` (443-452) of the result. -/
def Fold.ex (c : Fold) (Γ : Nat → Option LV) : Ex → Option (Ex × Option LV)
  | .const v => some (.const v, some v)
  | .var x => some (match Γ x with
    | some v => (.const v, some v)
    | none => (.var x, none))
  | .dots => some (.dots, none)
  | .group e => (c.ex Γ e).map fun p => (.group p.1, p.2)
  | .un op e => (c.ex Γ e).bind fun p => c.stepUn op p.1 p.2
  | .bin op l r => (c.ex Γ l).bind fun p => (c.ex Γ r).bind fun q => c.stepBin op p.1 p.2 q.1 q.2
  | .builtin f es => (c.exs Γ es).bind fun p => c.stepBuiltin f p.1 p.2
  | .call f es => (c.ex Γ f).bind fun p => (c.exs Γ es).map fun q => (.call p.1 q.1, none)
  | .index e k => (c.ex Γ e).bind fun p => (c.ex Γ k).map fun q => (.index p.1 q.1, none)
  | .op k m es => (c.exs Γ es).map fun p => (.op k m p.1, none)
  | .func ps d b => (c.bl (forget Γ ps) b).map fun b => (.func ps d b.2, none)
/-- A list of expressions and their constants. -/
def Fold.exs (c : Fold) (Γ : Nat → Option LV) : List Ex → Option (List Ex × List (Option LV))
  | [] => some ([], [])
  | e :: es => (c.ex Γ e).bind fun p => (c.exs Γ es).map fun q => (p.1 :: q.1, p.2 :: q.2)
/-- Statements; a statement may become several or none.  Also the constants known afterwards. -/
def Fold.st (c : Fold) (Γ : Nat → Option LV) : St → Option ((Nat → Option LV) × List St)
  | .locals xs es => (c.exs Γ es).map fun p => (record Γ xs (c.marks xs p.1 p.2) p.2, c.stepLocal xs p.1 p.2)
  | .localFn x ps d b => (c.bl (forget (forget Γ [x]) ps) b).map fun b => (forget Γ [x], [.localFn x ps d b.2])
  | .assign ts es => (c.tgs Γ ts).bind fun ts => (c.exs Γ es).map fun p => (Γ, [.assign ts p.1])
  | .eval e => (c.ex Γ e).map fun p => (Γ, [.eval p.1])
  | .ret es => (c.exs Γ es).map fun p => (Γ, [.ret p.1])
  | .brk => some (Γ, [.brk])
  | .doB b => (c.bl Γ b).map fun b => (Γ, [.doB b.2])
  | .whileS e b => (c.ex Γ e).bind fun p => (c.bl Γ b).map fun b => (Γ, [.whileS p.1 b.2])
  | .repeatS b e => (c.bl Γ b).bind fun b => (c.ex b.1 e).map fun p => (Γ, [.repeatS b.2 p.1])
  | .forNum x es b => (c.exs Γ es).bind fun p => (c.bl (forget Γ [x]) b).map fun b => (Γ, [.forNum x p.1 b.2])
  | .forIn xs es b => (c.exs Γ es).bind fun p => (c.bl (forget Γ xs) b).map fun b => (Γ, [.forIn xs p.1 b.2])
  | .ifS e t f => (c.ex Γ e).bind fun p => (c.bl Γ t).bind fun t => (c.el Γ f).map fun f => (Γ, stepIf p.1 p.2 t.2 f)
def Fold.bl (c : Fold) (Γ : Nat → Option LV) : List St → Option ((Nat → Option LV) × List St)
  | [] => some (Γ, [])
  | s :: b => (c.st Γ s).bind fun x => (c.bl x.1 b).map fun y => (y.1, x.2 ++ y.2)
def Fold.el (c : Fold) (Γ : Nat → Option LV) : El → Option El
  | .none => some .none
  | .else_ b => (c.bl Γ b).map fun b => .else_ b.2
  | .elseif e t f => (c.ex Γ e).bind fun p => (c.bl Γ t).bind fun t => (c.el Γ f).map fun f => stepElseif p.1 p.2 t.2 f
def Fold.tg (c : Fold) (Γ : Nat → Option LV) : Tg → Option Tg
  | .loc x => some (.loc x)
  | .put k es => (c.exs Γ es).map fun p => .put k p.1
def Fold.tgs (c : Fold) (Γ : Nat → Option LV) : List Tg → Option (List Tg)
  | [] => some []
  | t :: ts => (c.tg Γ t).bind fun t => (c.tgs Γ ts).map fun ts => t :: ts
end

/-- `fold_consts` (570-742). -/
def foldProgram (c : Fold) (b : List St) : Option (List St) :=
  (Fold.bl { c with reassigned := fun x => (writesBl b).count x } (fun _ => none) b).map (·.2)

end Verif.Core
