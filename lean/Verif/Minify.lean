import Verif.Output
import Verif.Spec.Tidy
/-
Model of `minify_code` (pico_minify.py 352-501) on whole programs: which parentheses, empty statements and call parentheses are dropped, and
which tokens are replaced.

Not part of it: merging assignments (see C32), making or undoing shorthands, minifying of sublanguages.  Since the output of `then` or `do` is
the same for all `if`s, its replacement is left to `Output` (pico_minify.py 474-475), as are the separators of tables.
-/
namespace Verif.Mini
open Syntax
open Tidy (semis)
open Paren (Op Lang prec Ctx ctxPrec ctxRightAssoc ctxIsRight canUnary unPrec)

/-- What becomes of a numeral (pico_minify.py 486-501): another numeral, one with a sign, or one with a sign in parentheses. -/
inductive NumOut where
  | plain (s : String) | signed (o : Op) (s : String) | parens (o : Op) (s : String)
  deriving DecidableEq

/-- The expression that its tokens spell. -/
def NumOut.ex : NumOut → Ex
  | .plain s => .num s
  | .signed o s => .un o (.num s)
  | .parens o s => .group (.un o (.num s))

/-- What the transformation depends on. -/
structure Cfg where
  L : Lang
  /-- `ctxt.version >= 37` -/
  v37 : Bool
  /-- `focus.tokens` -/
  focus : Bool
  /-- `value_is_negative` of a numeral (pico_minify.py 344-350; C18, C19) -/
  neg : String → Bool
  /-- `format_fixnum` or `format_luanum`, told whether a sign is allowed (C18, C19) -/
  fmt : Bool → String → NumOut
  /-- `minify_string_literal` (C17) -/
  fstr : String → String

/-- pico_parse.py 1090-1094: `get_precedence`. -/
def exPrec : Ex → Option Nat
  | .bin o _ _ => some (prec o)
  | .un _ _ => some unPrec
  | _ => none

/-- pico_parse.py 1083-1084: `is_vararg_expr`. -/
def isVararg : Ex → Bool
  | .call _ _ _ | .method _ _ _ _ | .vararg => true
  | _ => false

/-- pico_minify.py 376-383: is the group around an operand dropped? -/
def removeOperand (C : Cfg) (c : Ctx) (outer : Nat) (inner : Ex) : Bool :=
  match exPrec inner with
  | some ip => decide (ip > outer) || (decide (ip = outer) && (decide (outer = unPrec) || ctxRightAssoc c == ctxIsRight c))
  | none =>
    match inner with
    | .group _ | .var _ | .index _ _ | .member _ _ | .call _ _ _ | .method _ _ _ _ | .vararg => true
    | .num s => C.focus || canUnary c || !C.neg s
    | .cst _ | .str _ => true
    | _ => false

/-- pico_minify.py 385-387: groups around these can be dropped before `.`, `[`, `:` and calls. -/
def isBase : Ex → Bool
  | .group _ | .var _ | .index _ _ | .member _ _ | .call _ _ _ | .method _ _ _ _ => true
  | _ => false

/-- pico_minify.py 371-404: is the group around `inner` dropped? -/
def removes (C : Cfg) (c : Ctx) (inner : Ex) : Bool :=
  match ctxPrec c with
  | some outer => removeOperand C c outer inner
  | none =>
    match c with
    | .base => isBase inner
    | .single => true
    | .last => !isVararg inner
    | _ => false

/-- pico_minify.py 468-481: operators replaced by their equals. -/
def canonOp (C : Cfg) : Op → Op
  | .bangEq => .tildeEq
  | .caret2 => if C.v37 then .tilde else .caret2
  | .slash2 => if C.L == .picotron then .bslash else .slash2
  | o => o

/-- pico_minify.py 480-481: `//=`. -/
def canonEq (C : Cfg) : Op → Op
  | .slash2 => if C.L == .picotron then .bslash else .slash2
  | o => o

def lenEs : Exs → Nat
  | .nil => 0
  | .cons _ es => lenEs es + 1

/-- pico_minify.py 455-461: the only argument is a string or a table. -/
def bareArg : Exs → Bool
  | .cons (.str _) .nil | .cons (.table _) .nil => true
  | _ => false

/-- Does it start with a parenthesis? -/
def leadLp : Ex → Bool
  | .group _ => true
  | .bin _ l _ => leadLp l
  | .member b _ => leadLp b
  | .index b _ => leadLp b
  | .call b _ _ => leadLp b
  | .method b _ _ _ => leadLp b
  | _ => false

def leadEs : Exs → Bool
  | .nil => false
  | .cons e _ => leadLp e

def leadS : St → Bool
  | .assign ts _ => leadEs ts
  | .opassign _ t _ => leadLp t
  | .call e => leadLp e
  | _ => false

def leadB : Block → Bool
  | .cons s _ => leadS s
  | _ => false

/-- pico_minify.py 444: is the next token a parenthesis?  `nx`: whether one follows the block. -/
def nextLp (nx : Bool) : Block → Bool
  | .nil => nx
  | b => leadB b

/-- pico_minify.py 397-399: the place of the last value, given how many are wanted. -/
def lastCtx (want : Nat) (es : Exs) : Ctx := if want ≤ lenEs es then .single else .last

variable (C : Cfg)

mutual
/-- An expression at its place. -/
def mE (c : Ctx) : Ex → Ex
  | .var x => .var x
  | .num s => (C.fmt (canUnary c) s).ex
  | .str s => .str (C.fstr s)
  | .cst s => .cst s
  | .vararg => .vararg
  | .func ps b => .func ps (mB false false b)
  | .group e => if removes C c e then mE c e else .group (mE .single e)
  | .un o e => .un o (mE .unArg e)
  | .bin o l r => .bin (canonOp C o) (mE (.left o) l) (mE (.right o) r)
  | .member b x => .member (mE .base b) x
  | .index b k => .index (mE .base b) (mE .single k)
  -- the parenthesis comes before the arguments, whose groups are still there
  | .call b _ as => .call (mE .base b) (bareArg as) (mEs .last as)
  -- the name counts as an argument (pico_parse.py 668)
  | .method b x t as => .method (mE .base b) x t (mEs .last as)
  | .table its => .table (mIts its)
/-- A list of expressions, given the place of the last one. -/
def mEs (c : Ctx) : Exs → Exs
  | .nil => .nil
  | .cons e .nil => .cons (mE c e) .nil
  | .cons e es => .cons (mE .single e) (mEs c es)
/-- Targets. -/
def mTs : Exs → Exs
  | .nil => .nil
  | .cons e es => .cons (mE .keep e) (mTs es)
def mIts : Its → Its
  | .nil => .nil
  | .pos e .nil => .pos (mE .last e) .nil
  | .pos e its => .pos (mE .single e) (mIts its)
  | .named x e its => .named x (mE .single e) (mIts its)
  | .keyed k e its => .keyed (mE .single k) (mE .single e) (mIts its)
/-- A statement; `nx` tells whether a parenthesis follows. -/
def mS (nx : Bool) : St → St
  | .do_ b => .do_ (mB false false b)
  | .if_ i => .if_ (mI nx i)
  | .while_ c b => .while_ (mE .single c) (mB false false b)
  | .whileShort c b d => .whileShort (mE .keep c) (mB nx (semis b) b) d
  | .repeat_ b c => .repeat_ (mB false false b) (mE .single c)
  | .fornum x a b s d => .fornum x (mE .single a) (mE .single b) (mEs .single s) (mB false false d)
  | .forin xs es d => .forin xs (mEs (lastCtx 3 es) es) (mB false false d)
  | .break_ => .break_
  | .return_ es => .return_ (mEs .last es)
  | .local_ xs es => .local_ xs (mEs (lastCtx xs.length es) es)
  | .localfn x ps b => .localfn x ps (mB false false b)
  | .goto_ x => .goto_ x
  | .label x => .label x
  | .func f ps b => .func f ps (mB false false b)
  | .assign ts es => .assign (mTs ts) (mEs (lastCtx (lenEs ts) es) es)
  | .opassign o t e => .opassign (canonEq C o) (mE .single t) (mE .single e)
  | .call e => .call (mE .keep e)
  | .print es => .print (mEs .last es)
/-- The conditions of shorthands keep their parentheses. -/
def mI (nx : Bool) : If → If
  | .long c b t => .long (mE .single c) (mB false false b) (mT t)
  | .short c b d => .short (mE .keep c) (mB nx (semis b) b) d
  | .shortElse c b e d => .shortElse (mE .keep c) (mB false (semis b) b) (mB nx (semis e) e) d
def mT : Tail → Tail
  | .end_ => .end_
  | .else_ b => .else_ (mB false false b)
  | .elseif_ i => .elseif_ (mI false i)
/-- A block; `keep`: it is that of a shorthand and has only empty statements (pico_minify.py 444-448). -/
def mB (nx keep : Bool) : Block → Block
  | .nil => .nil
  | .semi b => if keep || nextLp nx b then .semi (mB nx keep b) else mB nx keep b
  | .cons s b => .cons (mS (nextLp nx b) s) (mB nx keep b)
end

/-- A whole program. -/
def mini (b : Block) : Block := mB C false false b

/-- pico_minify.py 474-475: `then` becomes `do` in PICO-8 from version 42 on. -/
def thenTok (L : Lang) (v42 : Bool) : K := if L == .pico8 && v42 then .kDo else .kThen

end Verif.Mini
