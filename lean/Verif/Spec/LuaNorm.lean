import Verif.Ast
/-
What a program means, as far as its syntax goes: the tree without what has no meaning in Lua, PICO-8 and Picotron, namely

* parentheses, except that they cut off all values but the first where all of them would be taken (Lua manual, section 3.4: function calls,
  table constructors, `return`, assignments with more targets than values, generic `for`);
* empty statements; parentheses of a single string or table argument; shorthands as opposed to their long forms;
* which of two names of an operator is used;
* how numbers and strings are written: `num s` is the value of a numeral, `sgn o v` that of a number with a sign, `str s` that of a string.
-/
namespace Verif.LuaNorm
open Syntax
open Paren (Op Lang)

/-- What literals mean. -/
structure Lit where
  num : String → String
  sgn : Op → String → String
  str : String → String

/-- Can it have any number of values?  Parentheses do not count. -/
def multi : Ex → Bool
  | .call _ _ _ | .method _ _ _ _ | .vararg => true
  | .group e => multi e
  | _ => false

/-- One name for each operator. -/
def oneName : Op → Op
  | .bangEq => .tildeEq
  | .caret2 => .tilde
  | .slash2 => .bslash
  | o => o

def len : Exs → Nat
  | .nil => 0
  | .cons _ es => len es + 1

/-- How many values a generic `for` takes: the iterator, the state and the initial value, in Lua 5.4 also the closing value. -/
def forValues : Lang → Nat
  | .pico8 => 3
  | .picotron => 4

/-- A sign in front of a number belongs to it. -/
def sign (V : Lit) (o : Op) : Ex → Ex
  | .num s => if o = .minus ∨ o = .tilde then .num (V.sgn o s) else .un o (.num s)
  | e => .un o e

variable (L : Lang) (V : Lit)

mutual
/-- An expression; `all` tells whether all of its values are taken. -/
def nE (all : Bool) : Ex → Ex
  | .var x => .var x
  | .num s => .num (V.num s)
  | .str s => .str (V.str s)
  | .cst s => .cst s
  | .vararg => .vararg
  | .func ps b => .func ps (nB b)
  | .group e => if all && multi e then .group (nE false e) else nE all e
  | .un o e => sign V o (nE false e)
  | .bin o l r => .bin (oneName o) (nE false l) (nE false r)
  | .member b x => .member (nE false b) x
  | .index b k => .index (nE false b) (nE false k)
  | .call b _ as => .call (nE false b) false (nEs true as)
  | .method b x _ as => .method (nE false b) x false (nEs true as)
  | .table its => .table (nIts its)
/-- A list of expressions; `all` tells whether all values of the last one are taken. -/
def nEs (all : Bool) : Exs → Exs
  | .nil => .nil
  | .cons e .nil => .cons (nE all e) .nil
  | .cons e es => .cons (nE false e) (nEs all es)
def nIts : Its → Its
  | .nil => .nil
  | .pos e .nil => .pos (nE true e) .nil
  | .pos e its => .pos (nE false e) (nIts its)
  | .named x e its => .named x (nE false e) (nIts its)
  | .keyed k e its => .keyed (nE false k) (nE false e) (nIts its)
def nS : St → St
  | .do_ b => .do_ (nB b)
  | .if_ i => .if_ (nI i)
  | .while_ c b => .while_ (nE false c) (nB b)
  | .whileShort c b _ => .while_ (nE false c) (nB b)
  | .repeat_ b c => .repeat_ (nB b) (nE false c)
  | .fornum x a b s d => .fornum x (nE false a) (nE false b) (nEs false s) (nB d)
  | .forin xs es d => .forin xs (nEs (decide (len es < forValues L)) es) (nB d)
  | .break_ => .break_
  | .return_ es => .return_ (nEs true es)
  | .local_ xs es => .local_ xs (nEs (decide (len es < xs.length)) es)
  | .localfn x ps b => .localfn x ps (nB b)
  | .goto_ x => .goto_ x
  | .label x => .label x
  | .func f ps b => .func f ps (nB b)
  | .assign ts es => .assign (nEs false ts) (nEs (decide (len es < len ts)) es)
  | .opassign o t e => .opassign (oneName o) (nE false t) (nE false e)
  | .call e => .call (nE false e)
  | .print es => .print (nEs true es)
def nI : If → If
  | .long c b t => .long (nE false c) (nB b) (nT t)
  | .short c b _ => .long (nE false c) (nB b) .end_
  | .shortElse c b e _ => .long (nE false c) (nB b) (.else_ (nB e))
def nT : Tail → Tail
  | .end_ => .end_
  | .else_ b => .else_ (nB b)
  | .elseif_ i => .elseif_ (nI i)
def nB : Block → Block
  | .nil => .nil
  | .semi b => nB b
  | .cons s b => .cons (nS s) (nB b)
end

end Verif.LuaNorm
