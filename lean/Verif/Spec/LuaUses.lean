import Verif.Spec.LuaScope
/-
How the names of a program are used: for every occurrence of a name in the order of the text (as in `LuaScope`), what happens to the name there,
whether globals may be defined there, how deep it is nested, and which declarations are visible.

Globals are defined outside functions and in a function called `_init` that is not inside another one (README.md, "Undefined variable lints").
-/
namespace Verif.LuaUses
open Syntax LuaScope

/-- What happens to a name. -/
inductive How
  /-- it is declared, as this declaration; `last` tells whether it makes sense to leave the declaration out if the name is not used, i.e. whether
  it is no parameter that others follow, nor an implicit one -/
  | declared (n : Nat) (last : Bool)
  | read
  /-- `x = e` -/
  | assigned
  /-- `x += e` -/
  | changed
  /-- `function x() ... end` -/
  | func
  /-- a key, a label, or the target of `goto` -/
  | other
  deriving DecidableEq, Repr

/-- Where in the functions of a program one is. -/
inductive Place | outside | init | inside
  deriving DecidableEq, Repr

/-- The body of a function that is called `x`, if it has a name. -/
def Place.enter : Place → Option Nm → Place
  | .outside, some x => if x = nm "_init" then .init else .inside
  | _, _ => .inside

/-- An occurrence: the name, what happens to it, in which functions, in how many functions and blocks (the program being a function and a block), and
what is visible; for a declaration, this is what is visible just before it. -/
structure At where
  name : Nm
  how : How
  place : Place
  fn : Nat
  depth : Nat
  env : Env
  deriving DecidableEq, Repr

/-- Where one is. -/
structure Pos where
  place : Place
  fn : Nat
  depth : Nat

/-- In a block. -/
def Pos.block (p : Pos) : Pos := { p with depth := p.depth + 1 }
/-- In a function. -/
def Pos.func (p : Pos) (x : Option Nm) : Pos := ⟨p.place.enter x, p.fn + 1, p.depth + 1⟩

def occ (p : Pos) (env : Env) (h : How) (x : Nm) : At := ⟨x, h, p.place, p.fn, p.depth, env⟩

/-- Names that are declared together, numbered from `n` on. -/
def decls (p : Pos) (env : Env) : Nat → List Nm → List At
  | _, [] => []
  | n, x :: xs => occ p env (.declared n true) x :: decls p env (n + 1) xs

/-- Parameters: only a last one makes sense to leave out. -/
def params (p : Pos) (env : Env) : Nat → List Param → List At
  | _, [] => []
  | n, none :: ps => params p env n ps
  | n, some x :: ps => occ p env (.declared n ps.isEmpty) x :: params p env (n + 1) ps

/-- The implicit parameter of a method. -/
def selfParam (p : Pos) (env : Env) (n : Nat) (f : FnName) : List At :=
  match f.meth with
  | some _ => [occ p env (.declared n false) (nm "self")]
  | none => []

/-- The name of a function statement: `function a.b:c` is called `a.b:c`. -/
def fullName (f : FnName) : Nm :=
  f.base ++ f.keys.flatMap (fun k => nm "." ++ k) ++ (match f.meth with | some m => nm ":" ++ m | none => [])

/-- The name that a function statement assigns to, and its keys. -/
def fnName (p : Pos) (env : Env) (f : FnName) : List At :=
  occ p env (if f.keys = [] ∧ f.meth = none then .func else .read) f.base :: (f.keys ++ f.meth.toList).map (occ p env .other)

mutual
/-- The names in an expression. -/
def uE (p : Pos) (env : Env) (n : Nat) : Ex → List At
  | .var x => [occ p env .read x]
  | .num _ | .str _ | .cst _ | .vararg => []
  | .func ps b => params (p.func none) env n ps ++ uB (p.func none) (bind env n (named ps)) (n + (named ps).length) b
  | .group e => uE p env n e
  | .un _ e => uE p env n e
  | .bin _ l r => uE p env n l ++ uE p env (n + nE l) r
  | .member b x => uE p env n b ++ [occ p env .other x]
  | .index b k => uE p env n b ++ uE p env (n + nE b) k
  | .call b _ as => uE p env n b ++ uEs p env (n + nE b) as
  | .method b x _ as => uE p env n b ++ occ p env .other x :: uEs p env (n + nE b) as
  | .table its => uIts p env n its
def uEs (p : Pos) (env : Env) (n : Nat) : Exs → List At
  | .nil => []
  | .cons e es => uE p env n e ++ uEs p env (n + nE e) es
/-- The targets of an assignment. -/
def uTgts (p : Pos) (env : Env) (n : Nat) : Exs → List At
  | .nil => []
  | .cons (.var x) es => occ p env .assigned x :: uTgts p env n es
  | .cons e es => uE p env n e ++ uTgts p env (n + nE e) es
def uIts (p : Pos) (env : Env) (n : Nat) : Its → List At
  | .nil => []
  | .pos e its => uE p env n e ++ uIts p env (n + nE e) its
  | .named x e its => occ p env .other x :: (uE p env n e ++ uIts p env (n + nE e) its)
  | .keyed k e its => uE p env n k ++ (uE p env (n + nE k) e ++ uIts p env (n + nE k + nE e) its)
/-- The names in a statement. -/
def uS (p : Pos) (env : Env) (n : Nat) : St → List At
  | .do_ b => uB p.block env n b
  | .if_ i => uI p env n i
  | .while_ c b => uE p env n c ++ uB p.block env (n + nE c) b
  | .whileShort c b _ => uE p env n c ++ uB p.block env (n + nE c) b
  | .repeat_ b c => uB p.block env n b ++ uE p.block (atEnd env n b) (n + nB b) c
  | .fornum x a b c d => occ p.block env (.declared n true) x :: (uE p env (n + 1) a ++ (uE p env (n + 1 + nE a) b ++
      (uEs p env (n + 1 + nE a + nE b) c ++ uB p.block (bind env n [x]) (n + 1 + nE a + nE b + nEs c) d)))
  | .forin xs es d => decls p.block env n xs ++ (uEs p env (n + xs.length) es ++ uB p.block (bind env n xs) (n + xs.length + nEs es) d)
  | .break_ => []
  | .return_ es => uEs p env n es
  | .local_ xs es => decls p env n (xs.map (·.1)) ++ uEs p env (n + xs.length) es
  | .localfn x ps b => occ p env (.declared n true) x :: (params (p.func (some x)) (bind env n [x]) (n + 1) ps ++
      uB (p.func (some x)) (bind (bind env n [x]) (n + 1) (named ps)) (n + 1 + (named ps).length) b)
  | .goto_ x => [occ p env .other x]
  | .label x => [occ p env .other x]
  | .func f ps b => fnName p env f ++ (selfParam (p.func (some (fullName f))) env n f ++
      (params (p.func (some (fullName f))) env (n + (selfParam (p.func (some (fullName f))) env n f).length) ps ++
      uB (p.func (some (fullName f))) (bind env n (methodParams f ps)) (n + (methodParams f ps).length) b))
  | .assign ts es => uTgts p env n ts ++ uEs p env (n + nEs ts) es
  | .opassign _ (.var x) e => occ p env .changed x :: uE p env n e
  | .opassign _ t e => uE p env n t ++ uE p env (n + nE t) e
  | .call e => uE p env n e
  | .print es => uEs p env n es ++ [occ p env .read (nm "print")]
def uI (p : Pos) (env : Env) (n : Nat) : If → List At
  | .long c b t => uE p env n c ++ (uB p.block env (n + nE c) b ++ uT p env (n + nE c + nB b) t)
  | .short c b _ => uE p env n c ++ uB p.block env (n + nE c) b
  | .shortElse c b d _ => uE p env n c ++ (uB p.block env (n + nE c) b ++ uB p.block env (n + nE c + nB b) d)
def uT (p : Pos) (env : Env) (n : Nat) : Tail → List At
  | .end_ => []
  | .else_ b => uB p.block env n b
  | .elseif_ i => uI p env n i
/-- The names in a block. -/
def uB (p : Pos) (env : Env) (n : Nat) : Block → List At
  | .nil => []
  | .semi b => uB p env n b
  | .cons s b => uS p env n s ++ uB p (after env n s) (n + nS s) b
end

/-- The names in a program, in which `_ENV` (declaration 0) and `lb` (from 1 on) are visible from the start. -/
def program (lb : List Nm) (b : Block) : List At := uB ⟨.outside, 1, 1⟩ (bind [(nm "_ENV", 0)] 1 lb) (lb.length + 1) b

end Verif.LuaUses
