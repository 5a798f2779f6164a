import Verif.Minify
/-
Model of making and undoing shorthands: `analyze_code_for_minify` and what `minify_code` does with its outcome (pico_minify.py 31-207, 364-432).

The decision for each kind of statement as a whole (`new_shorts`, pico_minify.py 123-143) depends on how often each form is used; it is a
parameter here.  Simplification: whether a call is one of the builtin `print` (pico_minify.py 113-115) is decided by its name and one option for
the whole program, not per call.

`next_token` is not modelled by positions: where a statement stands in a block tells whether it ends where a surrounding block does.
-/
namespace Verif.Mini
open Syntax
open Tidy (semis)
open Paren (Op Lang Ctx canUnary)

/-- What the transformation depends on. -/
structure Sh where
  /-- `shorthands_can_nest`: `ctxt.version >= 42` -/
  nest : Bool
  /-- `focus.chars` -/
  chars : Bool
  /-- `print` is the builtin function and is never assigned -/
  builtin : Bool
  /-- `new_shorts[if_] == False` -/
  undoIf : Bool
  /-- `new_shorts[while_] == False` -/
  undoWhile : Bool
  /-- `new_shorts[if_]` -/
  makeIf : Bool
  /-- `new_shorts[while_]` -/
  makeWhile : Bool
  /-- `new_shorts[call]` -/
  makePrint : Bool

/-! ### The analysis -/

/-- What surrounds a statement, as far as `allow_parent_shorthands` (pico_minify.py 56-67) is concerned: no shorthand; shorthands that end where
it ends (`els`: one of them needs it to have an `else`); or shorthands that go on. -/
inductive Pc
  | free | tail (els : Bool) | bad
  deriving DecidableEq

/-- pico_minify.py 56-67: may a statement become a shorthand there? -/
def Pc.fits : Pc → Bool → Bool
  | .free, _ => true
  | .tail els, hasElse => !els || hasElse
  | .bad, _ => false

/-- A place after which something follows in the same shorthand. -/
def Pc.mid : Pc → Pc
  | .free => .free
  | _ => .bad

/-- The block that a shorthand ends with. -/
def Pc.body (nest : Bool) : Pc → Pc
  | .free => if nest then .tail false else .bad
  | p => p

/-- The first block of a shorthand with `else`. -/
def Pc.first (nest : Bool) : Pc → Pc
  | .free => if nest then .tail true else .bad
  | _ => .bad

/-- The shorthands in some part of the program, made or to be made: whether there are any, any that do not end where this part ends, and any
that have no `else` (pico_minify.py 37-54). -/
structure Sm where
  any : Bool
  bad : Bool
  noElse : Bool
  deriving DecidableEq

/-- Of a part after which something follows. -/
def Sm.shut (a : Bool) : Sm := ⟨a, a, a⟩

def Sm.or (a b : Sm) : Sm := ⟨a.any || b.any, a.bad || b.bad, a.noElse || b.noElse⟩

/-- pico_minify.py 69-77: `allow_child_shorthands`; `els`: they are in the first block of a statement with `else`. -/
def Sm.ok (nest els : Bool) (s : Sm) : Bool := if nest then !s.bad && !(els && s.noElse) else !s.any

def isNil : Block → Bool
  | .nil => true
  | _ => false

/-- pico_minify.py 104: does the block start with `do`? -/
def startsDo : Block → Bool
  | .cons (.do_ _) _ => true
  | _ => false

/-- pico_minify.py 91-110: may a long form without `elseif` become a shorthand?  `c`: there are shorthands in the condition; `b`, `sb`: the first
block and its shorthands; `e`, `se`: the same for that of `else`. -/
def Sh.may (O : Sh) (p : Pc) (c : Bool) (b : Block) (sb : Sm) (e : Option (Block × Sm)) : Bool :=
  p.fits e.isSome && !c && sb.ok O.nest e.isSome && e.all (·.2.ok O.nest false) &&
  !((isNil b || e.any (isNil ·.1)) && !O.chars) && !startsDo b

/-- The builtin function. -/
def isPrint : Ex → Bool
  | .call (.var x) _ _ => decide (x = nm "print")
  | _ => false

/-- The arguments of a call. -/
def argsOf : Ex → Exs
  | .call _ _ as => as
  | _ => .nil

/-- pico_minify.py 113-120: may a call of `print` become a shorthand?  `a`: there are shorthands in it. -/
def Sh.mayPrint (O : Sh) (p : Pc) (e : Ex) (a : Bool) : Bool := O.builtin && isPrint e && p.fits false && !a

variable (O : Sh)

mutual
/-- Are there shorthands, made or to be made, in an expression? -/
def smE (p : Pc) : Ex → Bool
  | .func _ b => (smB p.mid b).any
  | .group e => smE p e
  | .un _ e => smE p e
  | .bin _ l r => smE p l || smE p r
  | .member b _ => smE p b
  | .index b k => smE p b || smE p k
  | .call b _ as => smE p b || smEs p as
  | .method b _ _ as => smE p b || smEs p as
  | .table its => smIts p its
  | _ => false
def smEs (p : Pc) : Exs → Bool
  | .nil => false
  | .cons e es => smE p e || smEs p es
def smIts (p : Pc) : Its → Bool
  | .nil => false
  | .pos e its => smE p e || smIts p its
  | .named _ e its => smE p e || smIts p its
  | .keyed k e its => smE p k || (smE p e || smIts p its)
/-- The shorthands, made or to be made, in a statement. -/
def smS (p : Pc) : St → Sm
  | .do_ b => .shut (smB p.mid b).any
  | .if_ i => smI true p i
  | .while_ e b => (Sm.shut (smE p.mid e || (smB p.mid b).any)).or
      ⟨O.may p (smE p.mid e) b (smB p.mid b) none, false, O.may p (smE p.mid e) b (smB p.mid b) none⟩
  | .whileShort e b _ => (Sm.mk true false true).or ((Sm.shut (smE .bad e)).or (smB (p.body O.nest) b))
  | .repeat_ b e => .shut ((smB p.mid b).any || smE p.mid e)
  | .fornum _ a b s d => .shut (smE p.mid a || (smE p.mid b || (smEs p.mid s || (smB p.mid d).any)))
  | .forin _ es d => .shut (smEs p.mid es || (smB p.mid d).any)
  | .return_ es => .shut (smEs p.mid es)
  | .local_ _ es => .shut (smEs p.mid es)
  | .localfn _ _ b => .shut (smB p.mid b).any
  | .func _ _ b => .shut (smB p.mid b).any
  | .assign ts es => .shut (smEs p.mid ts || smEs p.mid es)
  | .opassign _ t e => .shut (smE p.mid t || smE p.mid e)
  | .call e => (Sm.shut (smE p.mid e)).or ⟨O.mayPrint p e (smE p.mid e), false, O.mayPrint p e (smE p.mid e)⟩
  | .print es => (Sm.mk true false true).or (.shut (smEs .bad es))
  | _ => .shut false
/-- `can`: it is an `if`, not an `elseif`.  A shorthand with `else` has a node for its `else` too, which has no `else` (pico_minify.py 42). -/
def smI (can : Bool) (p : Pc) : If → Sm
  | .long e b .end_ => (Sm.shut (smE p.mid e || (smB p.mid b).any)).or
      ⟨can && O.may p (smE p.mid e) b (smB p.mid b) none, false, can && O.may p (smE p.mid e) b (smB p.mid b) none⟩
  | .long e b (.else_ b') => (Sm.shut (smE p.mid e || ((smB p.mid b).any || (smB p.mid b').any))).or
      ⟨can && O.may p (smE p.mid e) b (smB p.mid b) (some (b', smB p.mid b')), false, false⟩
  | .long e b (.elseif_ i) => .shut (smE p.mid e || ((smB p.mid b).any || (smI false p.mid i).any))
  | .short e b _ => (Sm.mk true false true).or ((Sm.shut (smE .bad e)).or (smB (p.body O.nest) b))
  | .shortElse e b b' _ => (Sm.mk true false true).or
      ((Sm.shut (smE .bad e)).or ((Sm.shut (smB (p.first O.nest) b).any).or (smB (p.body O.nest) b')))
def smB (p : Pc) : Block → Sm
  | .nil => .shut false
  | .semi b => smB p b
  | .cons s .nil => smS p s
  | .cons s b => (Sm.shut (smS p.mid s).any).or (smB p b)
end

/-- May the long form become a shorthand? -/
def mayIf (p : Pc) (e : Ex) (b : Block) : Option Block → Bool
  | none => O.may p (smE O p.mid e) b (smB O p.mid b) none
  | some b' => O.may p (smE O p.mid e) b (smB O p.mid b) (some (b', smB O p.mid b'))

/-! ### The transformation -/

variable (C : Cfg)

/-- pico_minify.py 174-176: an empty block gets a `;`. -/
def orSemi (b b' : Block) : Block := if isNil b then .semi .nil else b'

mutual
/-- As `mE`, with shorthands made and undone. -/
def wE (p : Pc) (c : Ctx) : Ex → Ex
  | .var x => .var x
  | .num s => (C.fmt (canUnary c) s).ex
  | .str s => .str (C.fstr s)
  | .cst s => .cst s
  | .vararg => .vararg
  | .func ps b => .func ps (wB p.mid false false b)
  | .group e => if removes C c e then wE p c e else .group (wE p .single e)
  | .un o e => .un o (wE p .unArg e)
  | .bin o l r => .bin (canonOp C o) (wE p (.left o) l) (wE p (.right o) r)
  | .member b x => .member (wE p .base b) x
  | .index b k => .index (wE p .base b) (wE p .single k)
  | .call b _ as => .call (wE p .base b) (bareArg as) (wEs p .last as)
  | .method b x t as => .method (wE p .base b) x t (wEs p .last as)
  | .table its => .table (wIts p its)
def wEs (p : Pc) (c : Ctx) : Exs → Exs
  | .nil => .nil
  | .cons e .nil => .cons (wE p c e) .nil
  | .cons e es => .cons (wE p .single e) (wEs p c es)
def wTs (p : Pc) : Exs → Exs
  | .nil => .nil
  | .cons e es => .cons (wE p .keep e) (wTs p es)
def wIts (p : Pc) : Its → Its
  | .nil => .nil
  | .pos e .nil => .pos (wE p .last e) .nil
  | .pos e its => .pos (wE p .single e) (wIts p its)
  | .named x e its => .named x (wE p .single e) (wIts p its)
  | .keyed k e its => .keyed (wE p .single k) (wE p .single e) (wIts p its)
/-- pico_minify.py 147-207, 364-368, 412-421: made shorthands are not marked as nested. -/
def wS (p : Pc) (nx : Bool) : St → St
  | .do_ b => .do_ (wB p.mid false false b)
  | .if_ i => .if_ (wI true p nx i)
  | .while_ e b =>
    if O.makeWhile && mayIf O p e b none then .whileShort (.group (wE p.mid .single e)) (orSemi b (wB p.mid false false b)) false
    else .while_ (wE p.mid .single e) (wB p.mid false false b)
  | .whileShort e b d =>
    if O.undoWhile then .while_ (wE .bad .single e) (wB (p.body O.nest) false false b)
    else .whileShort (wE .bad .keep e) (wB (p.body O.nest) nx (semis b) b) d
  | .repeat_ b e => .repeat_ (wB p.mid false false b) (wE p.mid .single e)
  | .fornum x a b s d => .fornum x (wE p.mid .single a) (wE p.mid .single b) (wEs p.mid .single s) (wB p.mid false false d)
  | .forin xs es d => .forin xs (wEs p.mid (lastCtx 3 es) es) (wB p.mid false false d)
  | .break_ => .break_
  | .return_ es => .return_ (wEs p.mid .last es)
  | .local_ xs es => .local_ xs (wEs p.mid (lastCtx xs.length es) es)
  | .localfn x ps b => .localfn x ps (wB p.mid false false b)
  | .goto_ x => .goto_ x
  | .label x => .label x
  | .func f ps b => .func f ps (wB p.mid false false b)
  | .assign ts es => .assign (wTs p.mid ts) (wEs p.mid (lastCtx (lenEs ts) es) es)
  | .opassign o t e => .opassign (canonEq C o) (wE p.mid .single t) (wE p.mid .single e)
  | .call e =>
    if O.makePrint && O.mayPrint p e (smE O p.mid e) then .print (argsOf (wE p.mid .keep e)) else .call (wE p.mid .keep e)
  | .print es => .print (wEs .bad .last es)
def wI (can : Bool) (p : Pc) (nx : Bool) : If → If
  | .long e b .end_ =>
    if can && O.makeIf && mayIf O p e b none then .short (.group (wE p.mid .single e)) (orSemi b (wB p.mid false false b)) false
    else .long (wE p.mid .single e) (wB p.mid false false b) .end_
  | .long e b (.else_ b') =>
    if can && O.makeIf && mayIf O p e b (some b') then
      .shortElse (.group (wE p.mid .single e)) (orSemi b (wB p.mid false false b)) (orSemi b' (wB p.mid false false b')) false
    else .long (wE p.mid .single e) (wB p.mid false false b) (.else_ (wB p.mid false false b'))
  | .long e b (.elseif_ i) => .long (wE p.mid .single e) (wB p.mid false false b) (.elseif_ (wI false p.mid false i))
  | .short e b d =>
    if can && O.undoIf then .long (wE .bad .single e) (wB (p.body O.nest) false false b) .end_
    else .short (wE .bad .keep e) (wB (p.body O.nest) nx (semis b) b) d
  | .shortElse e b b' d =>
    if can && O.undoIf then .long (wE .bad .single e) (wB (p.first O.nest) false false b) (.else_ (wB (p.body O.nest) false false b'))
    else .shortElse (wE .bad .keep e) (wB (p.first O.nest) false (semis b) b) (wB (p.body O.nest) nx (semis b') b') d
def wB (p : Pc) (nx keep : Bool) : Block → Block
  | .nil => .nil
  | .semi b => if keep || nextLp nx b then .semi (wB p nx keep b) else wB p nx keep b
  | .cons s .nil => .cons (wS p (nextLp nx .nil) s) .nil
  | .cons s b => .cons (wS p.mid (nextLp nx b) s) (wB p nx keep b)
end

/-- A whole program. -/
def shorten (b : Block) : Block := wB O C .free false false b

end Verif.Mini
