import Verif.Ast
/-
`?` is short for a call of `print`.
-/
namespace Verif.LuaPrint
open Syntax

mutual
/-- A tree with all `?` written out. -/
def uE : Ex → Ex
  | .func ps b => .func ps (uB b)
  | .group e => .group (uE e)
  | .un o e => .un o (uE e)
  | .bin o l r => .bin o (uE l) (uE r)
  | .member b x => .member (uE b) x
  | .index b k => .index (uE b) (uE k)
  | .call b t as => .call (uE b) t (uEs as)
  | .method b x t as => .method (uE b) x t (uEs as)
  | .table its => .table (uIts its)
  | .var x => .var x
  | .num s => .num s
  | .str s => .str s
  | .cst s => .cst s
  | .vararg => .vararg
def uEs : Exs → Exs
  | .nil => .nil
  | .cons e es => .cons (uE e) (uEs es)
def uIts : Its → Its
  | .nil => .nil
  | .pos e its => .pos (uE e) (uIts its)
  | .named x e its => .named x (uE e) (uIts its)
  | .keyed k e its => .keyed (uE k) (uE e) (uIts its)
def uS : St → St
  | .do_ b => .do_ (uB b)
  | .if_ i => .if_ (uI i)
  | .while_ c b => .while_ (uE c) (uB b)
  | .whileShort c b d => .whileShort (uE c) (uB b) d
  | .repeat_ b c => .repeat_ (uB b) (uE c)
  | .fornum x a b s d => .fornum x (uE a) (uE b) (uEs s) (uB d)
  | .forin xs es d => .forin xs (uEs es) (uB d)
  | .break_ => .break_
  | .return_ es => .return_ (uEs es)
  | .local_ xs es => .local_ xs (uEs es)
  | .localfn x ps b => .localfn x ps (uB b)
  | .goto_ x => .goto_ x
  | .label x => .label x
  | .func f ps b => .func f ps (uB b)
  | .assign ts es => .assign (uEs ts) (uEs es)
  | .opassign o t e => .opassign o (uE t) (uE e)
  | .call e => .call (uE e)
  | .print es => .call (.call (.var (nm "print")) false (uEs es))
def uI : If → If
  | .long c b t => .long (uE c) (uB b) (uT t)
  | .short c b d => .short (uE c) (uB b) d
  | .shortElse c b e d => .shortElse (uE c) (uB b) (uB e) d
def uT : Tail → Tail
  | .end_ => .end_
  | .else_ b => .else_ (uB b)
  | .elseif_ i => .elseif_ (uI i)
def uB : Block → Block
  | .nil => .nil
  | .semi b => .semi (uB b)
  | .cons s b => .cons (uS s) (uB b)
end

end Verif.LuaPrint
