import Verif.Minify
/-
Trees for which merged declarations can be written down: no `local` without values is followed by a statement that begins with a parenthesis.
-/
namespace Verif.Elab.Mt
open Syntax
open Mini (leadB)

mutual
/-- Does it end with a `local` without values, which may be merged into a declaration before it? -/
def bareS : St → Bool
  | .local_ _ .nil => true
  | .if_ i => bareI i
  | .whileShort _ b _ => bareB false b
  | _ => false
def bareI : If → Bool
  | .long _ _ _ => false
  | .short _ b _ => bareB false b
  | .shortElse _ _ b _ => bareB false b
/-- The same for a block, and for an empty one what is given. -/
def bareB (d : Bool) : Block → Bool
  | .nil => d
  | .semi b => bareB false b
  | .cons s b => bareB (bareS s) b
end

mutual
def QuietE : Ex → Prop
  | .func _ b => QuietB b
  | .group e => QuietE e
  | .un _ e => QuietE e
  | .bin _ l r => QuietE l ∧ QuietE r
  | .member b _ => QuietE b
  | .index b k => QuietE b ∧ QuietE k
  | .call b _ as => QuietE b ∧ QuietEs as
  | .method b _ _ as => QuietE b ∧ QuietEs as
  | .table its => QuietIts its
  | _ => True
def QuietEs : Exs → Prop
  | .nil => True
  | .cons e es => QuietE e ∧ QuietEs es
def QuietIts : Its → Prop
  | .nil => True
  | .pos e its => QuietE e ∧ QuietIts its
  | .named _ e its => QuietE e ∧ QuietIts its
  | .keyed k e its => QuietE k ∧ QuietE e ∧ QuietIts its
def QuietS : St → Prop
  | .do_ b => QuietB b
  | .if_ i => QuietI i
  | .while_ c b => QuietE c ∧ QuietB b
  | .whileShort c b _ => QuietE c ∧ QuietB b
  | .repeat_ b c => QuietB b ∧ QuietE c
  | .fornum _ a b s d => QuietE a ∧ QuietE b ∧ QuietEs s ∧ QuietB d
  | .forin _ es d => QuietEs es ∧ QuietB d
  | .return_ es => QuietEs es
  | .local_ _ es => QuietEs es
  | .localfn _ _ b => QuietB b
  | .func _ _ b => QuietB b
  | .assign ts es => QuietEs ts ∧ QuietEs es
  | .opassign _ t e => QuietE t ∧ QuietE e
  | .call e => QuietE e
  | .print es => QuietEs es
  | _ => True
def QuietI : If → Prop
  | .long c b t => QuietE c ∧ QuietB b ∧ QuietT t
  | .short c b _ => QuietE c ∧ QuietB b
  | .shortElse c b e _ => QuietE c ∧ QuietB b ∧ QuietB e
def QuietT : Tail → Prop
  | .end_ => True
  | .else_ b => QuietB b
  | .elseif_ i => QuietI i
/-- Blocks. -/
def QuietB : Block → Prop
  | .nil => True
  | .semi b => QuietB b
  | .cons s b => QuietS s ∧ QuietB b ∧ (bareS s = true → leadB b = false)
end

end Verif.Elab.Mt
