import Verif.Ast
import Verif.Spec.LuaNorm
/-
The programs for which minifying is claimed to work: what is ruled out is what Lua rules out too although the parser of shrinko8 does not, and
the uses of shorthands that do not survive being printed (see the counterexamples in Verif/Props/Minify.lean).

Empty statements do not count: they are about to be dropped.
-/
namespace Verif.Tidy
open Syntax
open Paren (Op Lang)

/-- A parenthesised expression. -/
def isGroup : Ex → Bool
  | .group _ => true
  | _ => false

/-- What may be assigned to. -/
def isTarget : Ex → Bool
  | .var _ | .member _ _ | .index _ _ => true
  | _ => false

def targets : Exs → Bool
  | .nil => true
  | .cons e es => isTarget e && targets es

/-- Only empty statements. -/
def semis : Block → Bool
  | .nil => true
  | .semi b => semis b
  | .cons _ _ => false

/-- Does it start with `do`? -/
def doB : Block → Bool
  | .nil => false
  | .semi b => doB b
  | .cons (.do_ _) _ => true
  | .cons _ _ => false

/-- For shorthands, whether more follows on the line. -/
def flagI : If → Option Nested
  | .long _ _ _ => none
  | .short _ _ d => some d
  | .shortElse _ _ _ d => some d

def flag : St → Option Nested
  | .whileShort _ _ d => some d
  | .if_ i => flagI i
  | _ => none

def isElse : Tail → Bool
  | .else_ _ => true
  | _ => false

def isLong : If → Bool
  | .long _ _ _ => true
  | _ => false

/-- A `return` without values. -/
def isRet0 : St → Bool
  | .return_ .nil => true
  | _ => false

/-- Does it end with a `return` without values? -/
def endsRet : Block → Bool
  | .nil => false
  | .semi b => endsRet b
  | .cons s b => if semis b then isRet0 s else endsRet b

mutual
/-- No shorthand in it is followed by a line break. -/
def calmE : Ex → Bool
  | .func _ b => calmB b
  | .group e => calmE e
  | .un _ e => calmE e
  | .bin _ l r => calmE l && calmE r
  | .member b _ => calmE b
  | .index b k => calmE b && calmE k
  | .call b _ as => calmE b && calmEs as
  | .method b _ _ as => calmE b && calmEs as
  | .table its => calmIts its
  | _ => true
def calmEs : Exs → Bool
  | .nil => true
  | .cons e es => calmE e && calmEs es
def calmIts : Its → Bool
  | .nil => true
  | .pos e its => calmE e && calmIts its
  | .named _ e its => calmE e && calmIts its
  | .keyed k e its => calmE k && (calmE e && calmIts its)
def calmS : St → Bool
  | .do_ b => calmB b
  | .if_ i => calmI i
  | .while_ c b => calmE c && calmB b
  | .whileShort c b d => d && (calmE c && calmB b)
  | .repeat_ b c => calmB b && calmE c
  | .fornum _ a b s d => calmE a && (calmE b && (calmEs s && calmB d))
  | .forin _ es d => calmEs es && calmB d
  | .return_ es => calmEs es
  | .local_ _ es => calmEs es
  | .localfn _ _ b => calmB b
  | .func _ _ b => calmB b
  | .assign ts es => calmEs ts && calmEs es
  | .opassign _ t e => calmE t && calmE e
  | .call e => calmE e
  | .print _ => false
  | _ => true
def calmI : If → Bool
  | .long c b t => calmE c && (calmB b && calmT t)
  | .short c b d => d && (calmE c && calmB b)
  | .shortElse c b e d => d && (calmE c && (calmB b && calmB e))
def calmT : Tail → Bool
  | .end_ => true
  | .else_ b => calmB b
  | .elseif_ i => calmI i
def calmB : Block → Bool
  | .nil => true
  | .semi b => calmB b
  | .cons s b => calmS s && calmB b
end

mutual
/-- Does it end with an `if` shorthand that could take an `else` on its line?  `sh`: it is printed on one line. -/
def dangleS (sh : Bool) : St → Bool
  | .if_ i => dangleI sh i
  | .whileShort _ b d => (sh || d) && dangleB sh b
  | _ => false
def dangleI (sh : Bool) : If → Bool
  | .long _ _ _ => false
  | .short _ _ d => sh || d
  | .shortElse _ _ b d => (sh || d) && dangleB sh b
def dangleB (sh : Bool) : Block → Bool
  | .nil => false
  | .semi b => dangleB sh b
  | .cons s b => if semis b then dangleS sh s else dangleB sh b
end

mutual
/-- Does it end with the condition of a shorthand, which `do` would make a long form? -/
def condS (L : Lang) : St → Bool
  | .if_ i => condI L i
  | .whileShort _ b _ => condB L true b
  | _ => false
def condI (L : Lang) : If → Bool
  | .long _ _ _ => false
  | .short _ b _ => condB L (L == .pico8) b
  | .shortElse _ _ b _ => condB L false b
/-- The same for a block, and for an empty one what is given. -/
def condB (L : Lang) (d : Bool) : Block → Bool
  | .nil => d
  | .semi b => condB L d b
  | .cons s b => condB L (condS L s) b
end

/-- Is the last one a parenthesised expression that could have any number of values? -/
def cutLast : Exs → Bool
  | .nil => false
  | .cons (.group e) .nil => LuaNorm.multi e
  | .cons _ .nil => false
  | .cons _ es => cutLast es

variable (L : Lang)

mutual
/-- `sh`: inside of a shorthand that ends with its line. -/
def tE (sh : Bool) : Ex → Prop
  | .func _ b => tB sh b
  | .group e => tE sh e
  | .un _ e => tE sh e
  | .bin _ l r => tE sh l ∧ tE sh r
  | .member b _ => tE sh b
  | .index b k => tE sh b ∧ tE sh k
  | .call b _ as => tE sh b ∧ tEs sh as
  | .method b _ _ as => tE sh b ∧ tEs sh as
  | .table its => tIts sh its
  | _ => True
def tEs (sh : Bool) : Exs → Prop
  | .nil => True
  | .cons e es => tE sh e ∧ tEs sh es
def tIts (sh : Bool) : Its → Prop
  | .nil => True
  | .pos e its => tE sh e ∧ tIts sh its
  | .named _ e its => tE sh e ∧ tIts sh its
  | .keyed k e its => tE sh k ∧ tE sh e ∧ tIts sh its
def tS (sh : Bool) : St → Prop
  | .do_ b => tB sh b
  | .if_ i => tI sh i
  | .while_ e b => tE sh e ∧ tB sh b
  -- the condition of a shorthand is in parentheses, and its block does not start with `do`
  | .whileShort e b d => isGroup e = true ∧ tE (sh || !d) e ∧ tB (sh || !d) b ∧
      (sh = false → d = true → calmE e = true ∧ calmB b = true) ∧ doB b = false
  | .repeat_ b e => tB sh b ∧ tE sh e
  | .fornum _ a b s d => tE sh a ∧ tE sh b ∧ tEs sh s ∧ tB sh d
  -- Lua 5.4 has a fourth value, which parentheses around the third keep away
  | .forin _ es d => tEs sh es ∧ tB sh d ∧ (L = .picotron → LuaNorm.len es = 3 → cutLast es = false)
  | .return_ es => tEs sh es
  | .local_ _ es => tEs sh es
  | .localfn _ _ b => tB sh b
  | .func _ _ b => tB sh b
  | .assign ts es => targets ts = true ∧ tEs sh ts ∧ tEs sh es
  | .opassign _ t e => isTarget t = true ∧ tE sh t ∧ tE sh e
  | .call e => tE sh e
  | .print es => tEs true es
  | _ => True
def tI (sh : Bool) : If → Prop
  | .long e b t => tE sh e ∧ tB sh b ∧ tT sh t ∧ (sh = true → isElse t = true → dangleB sh b = false)
  -- in PICO-8, `do` can take the place of `then`
  | .short e b d => isGroup e = true ∧ tE (sh || !d) e ∧ tB (sh || !d) b ∧
      (sh = false → d = true → calmE e = true ∧ calmB b = true) ∧ (L = .pico8 → doB b = false)
  | .shortElse e b b' d => isGroup e = true ∧ tE (sh || !d) e ∧ tB (sh || !d) b ∧ tB (sh || !d) b' ∧
      (sh = false → d = true → calmE e = true ∧ calmB b = true ∧ calmB b' = true) ∧ (L = .pico8 → doB b = false) ∧
      ((sh || !d) = true → dangleB (sh || !d) b = false)
def tT (sh : Bool) : Tail → Prop
  | .end_ => True
  | .else_ b => tB sh b
  -- `elseif` has no shorthand
  | .elseif_ i => isLong i = true ∧ tI sh i
def tB (sh : Bool) : Block → Prop
  | .nil => True
  | .semi b => tB sh b
  -- a shorthand inside of another one is the last statement, as is `return`; no `do` follows the condition of a shorthand
  | .cons s b => tS sh s ∧ tB sh b ∧ (∀ d, flag s = some d → sh = true → b = .nil) ∧ (isRet0 s = true → semis b = true) ∧
      (condS L s = true → doB b = false)
end

/-- Whole programs; they do not end with a `return` without values. -/
def Tidy (b : Block) : Prop := tB L false b ∧ endsRet b = false

end Verif.Tidy
