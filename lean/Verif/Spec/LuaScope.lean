import Verif.Ast
/-
Which declaration a name refers to, after the Lua manual (3.5 "Visibility Rules", 3.3.4, 3.3.5, 3.3.7, 3.4.11 of Lua 5.4):

"The scope of a local variable begins at the first statement after its declaration and lasts until the last non-void statement of the
innermost block that includes the declaration."  The condition of `repeat ... until` sees the locals of the block.  A `local function`
sees itself.  The loop variables of `for` are seen by its body only.  `function a:f(...)` has a first parameter `self`.  A name that no local
declaration is visible for is a global, i.e. a field of the `_ENV` that is visible there.

Declarations are numbered in the order of the text.  `env` lists the visible ones, the innermost first.
-/
namespace Verif.LuaScope
open Syntax

/-- What an occurrence of a name is: the declaration of a local, a local, a global, or a key. -/
inductive Occ
  | bind (n : Nat)
  | loc (n : Nat)
  | glob (x : Nm) (env : Option Nat)
  /-- a key, and whether it is a key of `_ENV`, i.e. a global as well: `_ENV.x`, or `_ENV = {x = ...}` -/
  | key (x : Nm) (ofEnv : Bool)
  | label (x : Nm)
  | goto_ (x : Nm)
  deriving DecidableEq, Repr

abbrev Env := List (Nm × Nat)

/-- The innermost visible declaration of a name. -/
def look (env : Env) (x : Nm) : Option Nat := (env.find? fun p => p.1 == x).map (·.2)

/-- A name in an expression. -/
def occ (env : Env) (x : Nm) : Occ :=
  match look env x with
  | some n => .loc n
  | none => .glob x (look env (nm "_ENV"))

/-- Whether an expression is just `_ENV`. -/
def isEnv : Ex → Bool
  | .var x => x == nm "_ENV"
  | _ => false

/-- Which ones of the targets of an assignment are `_ENV`. -/
def envs : Exs → List Bool
  | .nil => []
  | .cons t ts => isEnv t :: envs ts

/-- The environment with further declarations, numbered from `n` on. -/
def bind (env : Env) (n : Nat) : List Nm → Env
  | [] => env
  | x :: xs => bind ((x, n) :: env) (n + 1) xs

/-- The occurrences that declare them. -/
def binds (n : Nat) : List Nm → List Occ
  | [] => []
  | _ :: xs => .bind n :: binds (n + 1) xs

/-- The named parameters. -/
def named (ps : List Param) : List Nm := ps.filterMap id

/-- The parameters of a function statement: `self` comes first if it is a method. -/
def methodParams (f : FnName) (ps : List Param) : List Nm := (match f.meth with | some _ => [nm "self"] | none => []) ++ named ps

mutual
/-- The number of declarations in an expression. -/
def nE : Ex → Nat
  | .var _ | .num _ | .str _ | .cst _ | .vararg => 0
  | .func ps b => (named ps).length + nB b
  | .group e => nE e
  | .un _ e => nE e
  | .bin _ l r => nE l + nE r
  | .member b _ => nE b
  | .index b k => nE b + nE k
  | .call b _ as => nE b + nEs as
  | .method b _ _ as => nE b + nEs as
  | .table its => nIts its
def nEs : Exs → Nat
  | .nil => 0
  | .cons e es => nE e + nEs es
def nIts : Its → Nat
  | .nil => 0
  | .pos e its => nE e + nIts its
  | .named _ e its => nE e + nIts its
  | .keyed k e its => nE k + nE e + nIts its
def nS : St → Nat
  | .do_ b => nB b
  | .if_ i => nI i
  | .while_ c b => nE c + nB b
  | .whileShort c b _ => nE c + nB b
  | .repeat_ b c => nB b + nE c
  | .fornum _ a b c d => 1 + nE a + nE b + nEs c + nB d
  | .forin xs es d => xs.length + nEs es + nB d
  | .break_ => 0
  | .return_ es => nEs es
  | .local_ xs es => xs.length + nEs es
  | .localfn _ ps b => 1 + (named ps).length + nB b
  | .goto_ _ => 0
  | .label _ => 0
  | .func f ps b => (methodParams f ps).length + nB b
  | .assign ts es => nEs ts + nEs es
  | .opassign _ t e => nE t + nE e
  | .call e => nE e
  | .print es => nEs es
def nI : If → Nat
  | .long c b t => nE c + nB b + nT t
  | .short c b _ => nE c + nB b
  | .shortElse c b d _ => nE c + nB b + nB d
def nT : Tail → Nat
  | .end_ => 0
  | .else_ b => nB b
  | .elseif_ i => nI i
def nB : Block → Nat
  | .nil => 0
  | .semi b => nB b
  | .cons s b => nS s + nB b
end

/-- What is visible after a statement, if the statement's declarations are numbered from `n` on. -/
def after (env : Env) (n : Nat) : St → Env
  | .local_ xs _ => bind env n (xs.map (·.1))
  | .localfn x _ _ => bind env n [x]
  | _ => env

/-- What is visible at the end of a block. -/
def atEnd (env : Env) (n : Nat) : Block → Env
  | .nil => env
  | .semi b => atEnd env n b
  | .cons s b => atEnd (after env n s) (n + nS s) b

/-- The keys of `a.b.c`; the first one is a key of `a`. -/
def keys (ofEnv : Bool) : List Nm → List Occ
  | [] => []
  | x :: xs => .key x ofEnv :: xs.map (.key · false)

mutual
/-- The occurrences of names in an expression. -/
def oE (env : Env) (n : Nat) : Ex → List Occ
  | .var x => [occ env x]
  | .num _ | .str _ | .cst _ | .vararg => []
  | .func ps b => binds n (named ps) ++ oB (bind env n (named ps)) (n + (named ps).length) b
  | .group e => oE env n e
  | .un _ e => oE env n e
  | .bin _ l r => oE env n l ++ oE env (n + nE l) r
  | .member b x => oE env n b ++ [.key x (isEnv b)]
  | .index b k => oE env n b ++ oE env (n + nE b) k
  | .call b _ as => oE env n b ++ oEs env (n + nE b) as
  | .method b x _ as => oE env n b ++ .key x (isEnv b) :: oEs env (n + nE b) as
  | .table its => oIts env n false its
def oEs (env : Env) (n : Nat) : Exs → List Occ
  | .nil => []
  | .cons e es => oE env n e ++ oEs env (n + nE e) es
/-- The expressions assigned to a list of targets, which are `_ENV` where the flags say so. -/
def oSrc (env : Env) (n : Nat) : List Bool → Exs → List Occ
  | _, .nil => []
  | fs, .cons (.table its) es => oIts env n (fs.headD false) its ++ oSrc env (n + nIts its) fs.tail es
  | fs, .cons e es => oE env n e ++ oSrc env (n + nE e) fs.tail es
def oIts (env : Env) (n : Nat) (ofEnv : Bool) : Its → List Occ
  | .nil => []
  | .pos e its => oE env n e ++ oIts env (n + nE e) ofEnv its
  | .named x e its => .key x ofEnv :: (oE env n e ++ oIts env (n + nE e) ofEnv its)
  | .keyed k e its => oE env n k ++ (oE env (n + nE k) e ++ oIts env (n + nE k + nE e) ofEnv its)
/-- The occurrences of names in a statement; in `local x = e` and `for x = a, b do`, the expressions come after the names but do not see them. -/
def oS (env : Env) (n : Nat) : St → List Occ
  | .do_ b => oB env n b
  | .if_ i => oI env n i
  | .while_ c b => oE env n c ++ oB env (n + nE c) b
  | .whileShort c b _ => oE env n c ++ oB env (n + nE c) b
  | .repeat_ b c => oB env n b ++ oE (atEnd env n b) (n + nB b) c
  | .fornum x a b c d => .bind n :: (oE env (n + 1) a ++ (oE env (n + 1 + nE a) b ++ (oEs env (n + 1 + nE a + nE b) c ++
      oB (bind env n [x]) (n + 1 + nE a + nE b + nEs c) d)))
  | .forin xs es d => binds n xs ++ (oEs env (n + xs.length) es ++ oB (bind env n xs) (n + xs.length + nEs es) d)
  | .break_ => []
  | .return_ es => oEs env n es
  | .local_ xs es => binds n (xs.map (·.1)) ++ oSrc env (n + xs.length) (xs.map (·.1 == nm "_ENV")) es
  | .localfn x ps b => .bind n :: (binds (n + 1) (named ps) ++
      oB (bind (bind env n [x]) (n + 1) (named ps)) (n + 1 + (named ps).length) b)
  | .goto_ x => [.goto_ x]
  | .label x => [.label x]
  | .func f ps b => occ env f.base :: (keys (f.base == nm "_ENV") (f.keys ++ f.meth.toList) ++ (binds n (methodParams f ps) ++
      oB (bind env n (methodParams f ps)) (n + (methodParams f ps).length) b))
  | .assign ts es => oEs env n ts ++ oSrc env (n + nEs ts) (envs ts) es
  | .opassign _ t e => oE env n t ++ oE env (n + nE t) e
  | .call e => oE env n e
  | .print es => oEs env n es ++ [occ env (nm "print")]
def oI (env : Env) (n : Nat) : If → List Occ
  | .long c b t => oE env n c ++ (oB env (n + nE c) b ++ oT env (n + nE c + nB b) t)
  | .short c b _ => oE env n c ++ oB env (n + nE c) b
  | .shortElse c b d _ => oE env n c ++ (oB env (n + nE c) b ++ oB env (n + nE c + nB b) d)
def oT (env : Env) (n : Nat) : Tail → List Occ
  | .end_ => []
  | .else_ b => oB env n b
  | .elseif_ i => oI env n i
/-- The occurrences of names in a block. -/
def oB (env : Env) (n : Nat) : Block → List Occ
  | .nil => []
  | .semi b => oB env n b
  | .cons s b => oS env n s ++ oB (after env n s) (n + nS s) b
end

/-- The occurrences of names in a program, in which `_ENV` (declaration 0) and `lb` (from 1 on) are visible from the start. -/
def program (lb : List Nm) (b : Block) : List Occ := oB (bind [(nm "_ENV", 0)] 1 lb) (lb.length + 1) b

end Verif.LuaScope
