import Verif.Ast
/-
Which label a `goto` refers to, after the Lua manual (3.3.4): "A label is visible in the entire block where it is defined, except inside
nested functions.  A goto may jump to any visible label".  With labels of the same name, the one in the innermost block counts; within one block (which
only PICO-8 accepts) the last one.

Labels are numbered in the order of the text.
-/
namespace Verif.LuaLabels
open Syntax

mutual
/-- The number of labels in an expression. -/
def lE : Ex → Nat
  | .var _ | .num _ | .str _ | .cst _ | .vararg => 0
  | .func _ b => lB b
  | .group e => lE e
  | .un _ e => lE e
  | .bin _ l r => lE l + lE r
  | .member b _ => lE b
  | .index b k => lE b + lE k
  | .call b _ as => lE b + lEs as
  | .method b _ _ as => lE b + lEs as
  | .table its => lIts its
def lEs : Exs → Nat
  | .nil => 0
  | .cons e es => lE e + lEs es
def lIts : Its → Nat
  | .nil => 0
  | .pos e its => lE e + lIts its
  | .named _ e its => lE e + lIts its
  | .keyed k e its => lE k + lE e + lIts its
def lS : St → Nat
  | .do_ b => lB b
  | .if_ i => lI i
  | .while_ c b => lE c + lB b
  | .whileShort c b _ => lE c + lB b
  | .repeat_ b c => lB b + lE c
  | .fornum _ a b c d => lE a + lE b + lEs c + lB d
  | .forin _ es d => lEs es + lB d
  | .break_ => 0
  | .return_ es => lEs es
  | .local_ _ es => lEs es
  | .localfn _ _ b => lB b
  | .goto_ _ => 0
  | .label _ => 1
  | .func _ _ b => lB b
  | .assign ts es => lEs ts + lEs es
  | .opassign _ t e => lE t + lE e
  | .call e => lE e
  | .print es => lEs es
def lI : If → Nat
  | .long c b t => lE c + lB b + lT t
  | .short c b _ => lE c + lB b
  | .shortElse c b d _ => lE c + lB b + lB d
def lT : Tail → Nat
  | .end_ => 0
  | .else_ b => lB b
  | .elseif_ i => lI i
def lB : Block → Nat
  | .nil => 0
  | .semi b => lB b
  | .cons s b => lS s + lB b
end

/-- The label a statement is, if its labels are numbered from `n` on. -/
def ownS (n : Nat) : St → List (Nm × Nat)
  | .label x => [(x, n)]
  | _ => []

/-- The labels of a block itself, in the order of the text. -/
def own (n : Nat) : Block → List (Nm × Nat)
  | .nil => []
  | .semi b => own n b
  | .cons s b => ownS n s ++ own (n + lS s) b

/-- The visible labels: for each name the number of its label. -/
abbrev Vis := Nm → Option Nat

/-- What is visible in a block that has these labels. -/
def within (vis : Vis) (own : List (Nm × Nat)) : Vis := fun x =>
  match (own.filter fun p => p.1 == x).getLast? with
  | some p => some p.2
  | none => vis x

/-- No label is visible. -/
def nothing : Vis := fun _ => none

mutual
/-- The labels the `goto`s in an expression refer to, in the order of the text. -/
def gE (n : Nat) : Ex → List (Option Nat)
  | .var _ | .num _ | .str _ | .cst _ | .vararg => []
  | .func _ b => gB (within nothing (own n b)) n b
  | .group e => gE n e
  | .un _ e => gE n e
  | .bin _ l r => gE n l ++ gE (n + lE l) r
  | .member b _ => gE n b
  | .index b k => gE n b ++ gE (n + lE b) k
  | .call b _ as => gE n b ++ gEs (n + lE b) as
  | .method b _ _ as => gE n b ++ gEs (n + lE b) as
  | .table its => gIts n its
def gEs (n : Nat) : Exs → List (Option Nat)
  | .nil => []
  | .cons e es => gE n e ++ gEs (n + lE e) es
def gIts (n : Nat) : Its → List (Option Nat)
  | .nil => []
  | .pos e its => gE n e ++ gIts (n + lE e) its
  | .named _ e its => gE n e ++ gIts (n + lE e) its
  | .keyed k e its => gE n k ++ (gE (n + lE k) e ++ gIts (n + lE k + lE e) its)
def gS (vis : Vis) (n : Nat) : St → List (Option Nat)
  | .do_ b => gB (within vis (own n b)) n b
  | .if_ i => gI vis n i
  | .while_ c b => gE n c ++ gB (within vis (own (n + lE c) b)) (n + lE c) b
  | .whileShort c b _ => gE n c ++ gB (within vis (own (n + lE c) b)) (n + lE c) b
  | .repeat_ b c => gB (within vis (own n b)) n b ++ gE (n + lB b) c
  | .fornum _ a b c d => gE n a ++ (gE (n + lE a) b ++ (gEs (n + lE a + lE b) c ++
      gB (within vis (own (n + lE a + lE b + lEs c) d)) (n + lE a + lE b + lEs c) d))
  | .forin _ es d => gEs n es ++ gB (within vis (own (n + lEs es) d)) (n + lEs es) d
  | .break_ => []
  | .return_ es => gEs n es
  | .local_ _ es => gEs n es
  | .localfn _ _ b => gB (within nothing (own n b)) n b
  | .goto_ x => [vis x]
  | .label _ => []
  | .func _ _ b => gB (within nothing (own n b)) n b
  | .assign ts es => gEs n ts ++ gEs (n + lEs ts) es
  | .opassign _ t e => gE n t ++ gE (n + lE t) e
  | .call e => gE n e
  | .print es => gEs n es
def gI (vis : Vis) (n : Nat) : If → List (Option Nat)
  | .long c b t => gE n c ++ (gB (within vis (own (n + lE c) b)) (n + lE c) b ++ gT vis (n + lE c + lB b) t)
  | .short c b _ => gE n c ++ gB (within vis (own (n + lE c) b)) (n + lE c) b
  | .shortElse c b d _ => gE n c ++ (gB (within vis (own (n + lE c) b)) (n + lE c) b ++
      gB (within vis (own (n + lE c + lB b) d)) (n + lE c + lB b) d)
def gT (vis : Vis) (n : Nat) : Tail → List (Option Nat)
  | .end_ => []
  | .else_ b => gB (within vis (own n b)) n b
  | .elseif_ i => gI vis n i
/-- The statements of a block, given what is visible in it. -/
def gB (vis : Vis) (n : Nat) : Block → List (Option Nat)
  | .nil => []
  | .semi b => gB vis n b
  | .cons s b => gS vis n s ++ gB vis (n + lS s) b
end

/-- The labels the `goto`s of a program refer to. -/
def program (b : Block) : List (Option Nat) := gB (within nothing (own 0 b)) 0 b

end Verif.LuaLabels
