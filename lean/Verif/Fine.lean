import Verif.Minify
import Verif.Syntax
import Verif.Spec.LuaGrammar
import Verif.Spec.Tidy
/-
Trees that can be printed and parsed again: operators bind as their levels say, nothing goes on beyond its end, and shorthands end with
their line.
-/
namespace Verif.Mini
open Syntax Tidy
open LuaGrammar (openEnd Binary unaryOps)
open Paren (Op Lang prec)

/-- The level of an expression in the grammar. -/
def lvl : Ex → Nat
  | .bin o _ _ => prec o
  | .un _ _ => 11
  | _ => 13

/-- The level of left operands. -/
def lo : Op → Nat
  | .concat => 9
  | .caret => 13
  | o => prec o

/-- The level of right operands. -/
def hi : Op → Nat
  | .concat => 8
  | .caret => 11
  | o => prec o + 1

/-- Does the last expression end with something that a parenthesis goes on? -/
def openEs : Exs → Bool
  | .nil => false
  | .cons e .nil => openEnd e
  | .cons _ es => openEs es

mutual
/-- Does it end with something that a parenthesis goes on? -/
def openS : St → Bool
  | .if_ i => openI i
  | .whileShort _ b _ => openB true b
  | .repeat_ _ c => openEnd c
  | .return_ es => openEs es
  | .local_ _ es => openEs es
  | .assign _ es => openEs es
  | .opassign _ _ e => openEnd e
  | .call _ => true
  | .print _ => true
  | _ => false
def openI : If → Bool
  | .long _ _ _ => false
  | .short _ b _ => openB true b
  | .shortElse _ _ b _ => openB false b
/-- The same for a block, and for an empty one what is given. -/
def openB (d : Bool) : Block → Bool
  | .nil => d
  | .semi b => openB false b
  | .cons s b => openB (openS s) b
end

def isLong : If → Bool
  | .long _ _ _ => true
  | _ => false

def okAttr (L : Lang) (a : Option Nm) : Prop := ∀ n, a = some n → L = .picotron ∧ (n = nm "const" ∨ n = nm "close")

/-- `x`: whether the states of shorthands inside of others have to be right; `sh`: whether it is inside of a shorthand that ends with its line;
`c`: whether something follows on the line. -/
def okFlag (x sh c : Bool) (d : Nested) : Prop := (x = true → sh = true → d = c) ∧ (sh = false → d = true → c = true)

variable (x : Bool) (L : Lang)

mutual
def fE (sh : Bool) : Ex → Prop
  | .func _ b => fB sh true b
  | .group e => fE sh e
  | .un o e => o ∈ unaryOps L ∧ 11 ≤ lvl e ∧ fE sh e
  | .bin o l r => Binary L o ∧ lo o ≤ lvl l ∧ hi o ≤ lvl r ∧ fE sh l ∧ fE sh r
  | .member b _ => isPre b = true ∧ fE sh b
  | .index b k => isPre b = true ∧ fE sh b ∧ fE sh k
  | .call b t as => isPre b = true ∧ fE sh b ∧ fEs sh as ∧ (t = true → bareArg as = true)
  | .method b _ t as => isPre b = true ∧ fE sh b ∧ fEs sh as ∧ (t = true → bareArg as = true)
  | .table its => fIts sh its
  | _ => True
def fEs (sh : Bool) : Exs → Prop
  | .nil => True
  | .cons e es => fE sh e ∧ fEs sh es
def fIts (sh : Bool) : Its → Prop
  | .nil => True
  | .pos e its => fE sh e ∧ fIts sh its
  | .named _ e its => fE sh e ∧ fIts sh its
  | .keyed k e its => fE sh k ∧ fE sh e ∧ fIts sh its
def fS (sh c : Bool) : St → Prop
  | .do_ b => fB sh true b
  | .if_ i => fI sh c i
  | .while_ e b => fE sh e ∧ fB sh true b
  | .whileShort e b d => okFlag x sh c d ∧ isGroup e = true ∧ fE (sh || !d) e ∧ fB (sh || !d) d b ∧
      (sh = false → d = true → calmE e = true ∧ calmB b = true) ∧ leadB b = false ∧ doB b = false
  | .repeat_ b e => fB sh true b ∧ fE sh e
  | .fornum _ a b s d => fE sh a ∧ fE sh b ∧ fEs sh s ∧ (s = .nil ∨ ∃ e, s = .cons e .nil) ∧ fB sh true d
  | .forin xs es d => xs ≠ [] ∧ es ≠ .nil ∧ fEs sh es ∧ fB sh true d
  | .return_ es => fEs sh es
  | .local_ xs es => xs ≠ [] ∧ (∀ p ∈ xs, okAttr L p.2) ∧ fEs sh es
  | .localfn _ _ b => fB sh true b
  | .func _ _ b => fB sh true b
  | .assign ts es => targets ts = true ∧ ts ≠ .nil ∧ es ≠ .nil ∧ fEs sh ts ∧ fEs sh es
  | .opassign _ t e => isTarget t = true ∧ fE sh t ∧ fE sh e
  | .call e => isCall e = true ∧ fE sh e
  | .print es => es ≠ .nil ∧ fEs true es
  | _ => True
def fI (sh c : Bool) : If → Prop
  | .long e b t => fE sh e ∧ fB sh true b ∧ fT sh t ∧ (isElse t = true → dangleB sh b = false)
  | .short e b d => okFlag x sh c d ∧ isGroup e = true ∧ fE (sh || !d) e ∧ fB (sh || !d) d b ∧
      (sh = false → d = true → calmE e = true ∧ calmB b = true) ∧ leadB b = false ∧ (L = .pico8 → doB b = false)
  | .shortElse e b b' d => okFlag x sh c d ∧ isGroup e = true ∧ fE (sh || !d) e ∧ fB (sh || !d) true b ∧ fB (sh || !d) d b' ∧
      (sh = false → d = true → calmE e = true ∧ calmB b = true ∧ calmB b' = true) ∧ leadB b = false ∧ (L = .pico8 → doB b = false) ∧
      dangleB (sh || !d) b = false
def fT (sh : Bool) : Tail → Prop
  | .end_ => True
  | .else_ b => fB sh true b
  | .elseif_ i => isLong i = true ∧ fI sh true i
def fB (sh c : Bool) : Block → Prop
  | .nil => True
  | .semi b => fB sh c b
  | .cons s b => fS sh c s ∧ fB sh c b ∧ (openS s = true → leadB b = false) ∧ (∀ d, flag s = some d → sh = true ∨ d = true → b = .nil) ∧
      (isRet0 s = true → semis b = true) ∧ (condS L s = true → doB b = false)
end

/-- A whole program. -/
def Fine (b : Block) : Prop := fB x L false false b ∧ endsRet b = false

end Verif.Mini
