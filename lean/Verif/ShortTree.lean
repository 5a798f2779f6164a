import Verif.Short
import Verif.Fine
/-
Making and undoing shorthands on its own, and the programs for which it is claimed to work.
-/
namespace Verif.Mini
open Syntax Tidy
open Paren (Op Lang)

variable (O : Sh)

/-- The block of a made shorthand: an empty one gets a `;`, empty statements are dropped. -/
def fill (b b' : Block) : Block := if isNil b then .semi .nil else if semis b then .nil else b'

mutual
/-- Shorthands made and undone, and nothing else. -/
def kE (p : Pc) : Ex → Ex
  | .func ps b => .func ps (kB p.mid b)
  | .group e => .group (kE p e)
  | .un o e => .un o (kE p e)
  | .bin o l r => .bin o (kE p l) (kE p r)
  | .member b x => .member (kE p b) x
  | .index b k => .index (kE p b) (kE p k)
  | .call b t as => .call (kE p b) t (kEs p as)
  | .method b x t as => .method (kE p b) x t (kEs p as)
  | .table its => .table (kIts p its)
  | .var x => .var x
  | .num s => .num s
  | .str s => .str s
  | .cst s => .cst s
  | .vararg => .vararg
def kEs (p : Pc) : Exs → Exs
  | .nil => .nil
  | .cons e es => .cons (kE p e) (kEs p es)
def kIts (p : Pc) : Its → Its
  | .nil => .nil
  | .pos e its => .pos (kE p e) (kIts p its)
  | .named x e its => .named x (kE p e) (kIts p its)
  | .keyed k e its => .keyed (kE p k) (kE p e) (kIts p its)
def kS (p : Pc) : St → St
  | .do_ b => .do_ (kB p.mid b)
  | .if_ i => .if_ (kI true p i)
  | .while_ e b =>
    if O.makeWhile && mayIf O p e b none then .whileShort (.group (kE p.mid e)) (fill b (kB p.mid b)) false
    else .while_ (kE p.mid e) (kB p.mid b)
  | .whileShort e b d => if O.undoWhile then .while_ (kE .bad e) (kB (p.body O.nest) b) else .whileShort (kE .bad e) (kB (p.body O.nest) b) d
  | .repeat_ b e => .repeat_ (kB p.mid b) (kE p.mid e)
  | .fornum x a b s d => .fornum x (kE p.mid a) (kE p.mid b) (kEs p.mid s) (kB p.mid d)
  | .forin xs es d => .forin xs (kEs p.mid es) (kB p.mid d)
  | .break_ => .break_
  | .return_ es => .return_ (kEs p.mid es)
  | .local_ xs es => .local_ xs (kEs p.mid es)
  | .localfn x ps b => .localfn x ps (kB p.mid b)
  | .goto_ x => .goto_ x
  | .label x => .label x
  | .func f ps b => .func f ps (kB p.mid b)
  | .assign ts es => .assign (kEs p.mid ts) (kEs p.mid es)
  | .opassign o t e => .opassign o (kE p.mid t) (kE p.mid e)
  | .call e => if O.makePrint && O.mayPrint p e (smE O p.mid e) then .print (argsOf (kE p.mid e)) else .call (kE p.mid e)
  | .print es => .print (kEs .bad es)
def kI (can : Bool) (p : Pc) : If → If
  | .long e b .end_ =>
    if can && O.makeIf && mayIf O p e b none then .short (.group (kE p.mid e)) (fill b (kB p.mid b)) false
    else .long (kE p.mid e) (kB p.mid b) .end_
  | .long e b (.else_ b') =>
    if can && O.makeIf && mayIf O p e b (some b') then .shortElse (.group (kE p.mid e)) (fill b (kB p.mid b)) (fill b' (kB p.mid b')) false
    else .long (kE p.mid e) (kB p.mid b) (.else_ (kB p.mid b'))
  | .long e b (.elseif_ i) => .long (kE p.mid e) (kB p.mid b) (.elseif_ (kI false p.mid i))
  | .short e b d =>
    if can && O.undoIf then .long (kE .bad e) (kB (p.body O.nest) b) .end_ else .short (kE .bad e) (kB (p.body O.nest) b) d
  | .shortElse e b b' d =>
    if can && O.undoIf then .long (kE .bad e) (kB (p.first O.nest) b) (.else_ (kB (p.body O.nest) b'))
    else .shortElse (kE .bad e) (kB (p.first O.nest) b) (kB (p.body O.nest) b') d
def kB (p : Pc) : Block → Block
  | .nil => .nil
  | .semi b => .semi (kB p b)
  | .cons s .nil => .cons (kS p s) .nil
  | .cons s b => .cons (kS p.mid s) (kB p b)
end

mutual
/-- Does the statement end with a shorthand that has been made? -/
def newS (p : Pc) : St → Bool
  | .if_ i => newI true p i
  | .while_ e b => O.makeWhile && mayIf O p e b none
  | .whileShort _ b _ => !O.undoWhile && newB (p.body O.nest) b
  | _ => false
def newI (can : Bool) (p : Pc) : If → Bool
  | .long e b .end_ => can && O.makeIf && mayIf O p e b none
  | .long e b (.else_ b') => can && O.makeIf && mayIf O p e b (some b')
  | .long _ _ (.elseif_ _) => false
  | .short _ b _ => !(can && O.undoIf) && newB (p.body O.nest) b
  | .shortElse _ _ b' _ => !(can && O.undoIf) && newB (p.body O.nest) b'
def newB (p : Pc) : Block → Bool
  | .nil => false
  | .semi b => newB p b
  | .cons s .nil => newS p s
  | .cons _ b => newB p b
end

variable (L : Lang)

/-- What the block of a made shorthand must not look like: it does not start with a parenthesis, which would go on with the condition, nor with
`do` after empty statements. -/
def Opens (do_ : Prop) (b : Block) : Prop := leadB b = false ∧ (do_ → ∀ b', b = .semi b' → doB b' = false)

mutual
/-- `sh`: it ends up in a shorthand that ends with its line. -/
def aptE (p : Pc) (sh : Bool) : Ex → Prop
  | .func _ b => aptB p.mid sh b
  | .group e => aptE p sh e
  | .un _ e => aptE p sh e
  | .bin _ l r => aptE p sh l ∧ aptE p sh r
  | .member b _ => aptE p sh b
  | .index b k => aptE p sh b ∧ aptE p sh k
  | .call b _ as => aptE p sh b ∧ aptEs p sh as
  | .method b _ _ as => aptE p sh b ∧ aptEs p sh as
  | .table its => aptIts p sh its
  | _ => True
def aptEs (p : Pc) (sh : Bool) : Exs → Prop
  | .nil => True
  | .cons e es => aptE p sh e ∧ aptEs p sh es
def aptIts (p : Pc) (sh : Bool) : Its → Prop
  | .nil => True
  | .pos e its => aptE p sh e ∧ aptIts p sh its
  | .named _ e its => aptE p sh e ∧ aptIts p sh its
  | .keyed k e its => aptE p sh k ∧ aptE p sh e ∧ aptIts p sh its
def aptS (p : Pc) (sh : Bool) : St → Prop
  | .do_ b => aptB p.mid sh b
  | .if_ i => aptI true p sh i
  | .while_ e b =>
    let m := O.makeWhile && mayIf O p e b none
    aptE p.mid (sh || m) e ∧ aptB p.mid (sh || m) b ∧ (m = true → Opens True b)
  | .whileShort e b d =>
    let sh' := if O.undoWhile then sh else sh || !d
    aptE .bad sh' e ∧ aptB (p.body O.nest) sh' b ∧
    -- nothing is made inside of a shorthand that goes on on its line
    (O.undoWhile = false → sh = false → d = true → calmE (kE O .bad e) = true ∧ calmB (kB O (p.body O.nest) b) = true)
  | .repeat_ b e => aptB p.mid sh b ∧ aptE p.mid sh e
  | .fornum _ a b s d => aptE p.mid sh a ∧ aptE p.mid sh b ∧ aptEs p.mid sh s ∧ aptB p.mid sh d
  | .forin _ es d => aptEs p.mid sh es ∧ aptB p.mid sh d
  | .return_ es => aptEs p.mid sh es
  | .local_ _ es => aptEs p.mid sh es
  | .localfn _ _ b => aptB p.mid sh b
  | .func _ _ b => aptB p.mid sh b
  | .assign ts es => aptEs p.mid sh ts ∧ aptEs p.mid sh es
  | .opassign _ t e => aptE p.mid sh t ∧ aptE p.mid sh e
  -- `print()` has nothing to print
  | .call e =>
    let m := O.makePrint && O.mayPrint p e (smE O p.mid e)
    aptE p.mid (sh || m) e ∧ (m = true → argsOf e ≠ .nil)
  | .print es => aptEs .bad true es
  | _ => True
def aptI (can : Bool) (p : Pc) (sh : Bool) : If → Prop
  | .long e b .end_ =>
    let m := can && O.makeIf && mayIf O p e b none
    aptE p.mid (sh || m) e ∧ aptB p.mid (sh || m) b ∧ (m = true → Opens (L = .pico8) b)
  | .long e b (.else_ b') =>
    let m := can && O.makeIf && mayIf O p e b (some b')
    aptE p.mid (sh || m) e ∧ aptB p.mid (sh || m) b ∧ aptB p.mid (sh || m) b' ∧ (m = true → Opens (L = .pico8) b)
  | .long e b (.elseif_ i) => aptE p.mid sh e ∧ aptB p.mid sh b ∧ aptI false p.mid sh i
  | .short e b d =>
    let sh' := if can && O.undoIf then sh else sh || !d
    aptE .bad sh' e ∧ aptB (p.body O.nest) sh' b ∧
    ((can && O.undoIf) = false → sh = false → d = true → calmE (kE O .bad e) = true ∧ calmB (kB O (p.body O.nest) b) = true)
  | .shortElse e b b' d =>
    let sh' := if can && O.undoIf then sh else sh || !d
    aptE .bad sh' e ∧ aptB (p.first O.nest) sh' b ∧ aptB (p.body O.nest) sh' b' ∧
    ((can && O.undoIf) = false → sh = false → d = true →
      calmE (kE O .bad e) = true ∧ calmB (kB O (p.first O.nest) b) = true ∧ calmB (kB O (p.body O.nest) b') = true) ∧
    -- nothing made in the first block takes the `else`
    dangleB sh' (kB O (p.first O.nest) b) = false
def aptB (p : Pc) (sh : Bool) : Block → Prop
  | .nil => True
  | .semi b => aptB p sh b
  -- no parenthesis follows what has been made, and no `do` follows its condition
  | .cons s .nil => aptS p sh s
  | .cons s b => aptS p.mid sh s ∧ aptB p sh b ∧ (newS O p.mid s = true → leadB b = false) ∧ (condS L (kS O p.mid s) = true → doB b = false)
end

/-- A whole program. -/
def Apt (b : Block) : Prop := aptB O L .free false b

end Verif.Mini
