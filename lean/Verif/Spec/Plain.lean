import Verif.Spec.Tidy
/-
Programs in plain Lua, for which making shorthands is claimed to work: they have no shorthands; no parenthesis starts the block of an `if` or
`while` or the statement after it; no `do` comes after an `if`, `while` or `;`; and no `print()` is without arguments.
-/
namespace Verif.Plain
open Syntax
open Tidy (doB)

/-- Does the expression start with a parenthesis? -/
def parenE : Ex → Bool
  | .group _ => true
  | .bin _ l _ => parenE l
  | .member b _ => parenE b
  | .index b _ => parenE b
  | .call b _ _ => parenE b
  | .method b _ _ _ => parenE b
  | _ => false

/-- Does the block start with a parenthesis? -/
def parenB : Block → Bool
  | .cons (.assign (.cons e _) _) _ => parenE e
  | .cons (.opassign _ e _) _ => parenE e
  | .cons (.call e) _ => parenE e
  | _ => false

/-- `if` or `while`. -/
def isCond : St → Bool
  | .if_ _ | .while_ _ _ => true
  | _ => false

mutual
def plE : Ex → Prop
  | .func _ b => plB b
  | .group e => plE e
  | .un _ e => plE e
  | .bin _ l r => plE l ∧ plE r
  | .member b _ => plE b
  | .index b k => plE b ∧ plE k
  | .call b _ as => plE b ∧ plEs as
  | .method b _ _ as => plE b ∧ plEs as
  | .table its => plIts its
  | _ => True
def plEs : Exs → Prop
  | .nil => True
  | .cons e es => plE e ∧ plEs es
def plIts : Its → Prop
  | .nil => True
  | .pos e its => plE e ∧ plIts its
  | .named _ e its => plE e ∧ plIts its
  | .keyed k e its => plE k ∧ plE e ∧ plIts its
def plS : St → Prop
  | .do_ b => plB b
  | .if_ i => plI i
  | .while_ e b => plE e ∧ plB b ∧ parenB b = false
  | .whileShort _ _ _ => False
  | .repeat_ b e => plB b ∧ plE e
  | .fornum _ a b s d => plE a ∧ plE b ∧ plEs s ∧ plB d
  | .forin _ es d => plEs es ∧ plB d
  | .return_ es => plEs es
  | .local_ _ es => plEs es
  | .localfn _ _ b => plB b
  | .func _ _ b => plB b
  | .assign ts es => plEs ts ∧ plEs es
  | .opassign _ t e => plE t ∧ plE e
  | .call e => plE e ∧ ∀ t, e ≠ .call (.var (nm "print")) t .nil
  | .print _ => False
  | _ => True
def plI : If → Prop
  | .long e b t => plE e ∧ plB b ∧ parenB b = false ∧ plT t
  | .short _ _ _ => False
  | .shortElse _ _ _ _ => False
def plT : Tail → Prop
  | .end_ => True
  | .else_ b => plB b
  | .elseif_ i => plI i
def plB : Block → Prop
  | .nil => True
  | .semi b => doB b = false ∧ plB b
  | .cons s b => plS s ∧ plB b ∧ (isCond s = true → parenB b = false ∧ doB b = false)
end

end Verif.Plain
