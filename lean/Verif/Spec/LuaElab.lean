import Verif.Spec.LuaScope
import Verif.Spec.LuaCore
/-
What a syntax tree does when it is run: the program of `LuaCore` it stands for, after the Lua manual and the manual of PICO-8.

Declarations are numbered as in `LuaScope`.  Globals, members, methods, table constructors and the operators that only PICO-8 has are left to
the world; how the things it is asked to do are numbered does not matter (`enc`).  Programs with `goto` are not covered (`LuaCore` has none);
the attributes `<const>` and `<close>` are ignored.
-/
namespace Verif.Elab
open Syntax LuaScope
open Paren (Op)

/-- What the world is asked to do. -/
inductive Prim where
  /-- a variable the program starts with: `_ENV`, or one of the locals it is given -/
  | given (n : Nat)
  | global (x : Nm)
  | member (x : Nm)
  | elem
  | method (x : Nm)
  /-- a table; an item is positional (`none`), named, or has a key that is computed (`some none`) -/
  | table (items : List (Option (Option Nm)))
  | un (o : Op)
  | bin (o : Op)
  /-- `a.x += e`, reading the member and storing it -/
  | opMember (o : Option BinOp) (x : Nm)
  | opElem (o : Option BinOp)
  /-- a number that is not one of `LV` (floating point) -/
  | number (s : String)
  | jump (x : Nm)
  | invalid
  deriving DecidableEq

/-- What a numeral stands for: a constant, something the world knows, or a number with a sign. -/
inductive Num where
  | lit (v : LV)
  | prim (s : String)
  | sgn (u : UnOp) (n : Num)

/-- What literals mean, the numbers of the things the world does, how many variables are given, and the builtin functions that are known. -/
structure Sem where
  num : String → Num
  str : String → LV
  enc : Prim → Nat
  given : Nat
  builtin : Nm → Option Builtin

def unOp : Op → Option UnOp
  | .minus => some .neg
  | .tilde => some .bnot
  | .not_ => some .not
  | .hash => some .len
  | _ => none

def binOp : Op → Option BinOp
  | .or_ => some .or | .and_ => some .and | .bangEq | .tildeEq => some .ne | .eqEq => some .eq | .lt => some .lt | .le => some .le
  | .gt => some .gt | .ge => some .ge | .bar => some .bor | .caret2 | .tilde => some .bxor | .amp => some .band | .shl => some .shl
  | .shr => some .shr | .lshr => some .lshr | .rotr => some .rotr | .rotl => some .rotl | .concat => some .cat | .plus => some .add
  | .minus => some .sub | .star => some .mul | .slash => some .div | .slash2 | .bslash => some .idiv | .percent => some .mod
  | .caret => some .pow
  | .not_ | .hash | .at_ | .dollar => none

def cst (s : String) : LV := if s = "true" then .bool true else if s = "false" then .bool false else .nil

variable (S : Sem)

def numeral : Num → Core.Ex
  | .lit v => .const v
  | .prim s => .op (S.enc (.number s)) false []
  | .sgn u n => .un u (numeral n)

/-- Declaration `n`. -/
def ref (n : Nat) : Core.Ex := if n < S.given then .op (S.enc (.given n)) false [] else .var n

/-- A global: a field of the `_ENV` that is visible. -/
def global (env : Env) (x : Nm) : Core.Ex :=
  match look env (nm "_ENV") with
  | some n => if n < S.given then .op (S.enc (.global x)) false [] else .op (S.enc (.member x)) false [.var n]
  | none => .op (S.enc (.global x)) false []

/-- A name. -/
def name (env : Env) (x : Nm) : Core.Ex :=
  match look env x with
  | some n => ref S n
  | none => global S env x

/-- A name that is assigned to. -/
def target (env : Env) (x : Nm) : Core.Tg :=
  match look env x with
  | some n => if n < S.given then .put (S.enc (.given n)) [] else .loc n
  | none => match look env (nm "_ENV") with
    | some n => if n < S.given then .put (S.enc (.global x)) [] else .put (S.enc (.member x)) [.var n]
    | none => .put (S.enc (.global x)) []

/-- Whether globals are fields of the `_ENV` the program starts with. -/
def ownEnv (env : Env) : Bool :=
  match look env (nm "_ENV") with
  | some n => decide (n < S.given)
  | none => true

/-- The builtin function an expression that is called stands for: a global with its name. -/
def builtinOf (env : Env) : Ex → Option Builtin
  | .var x => if look env x = none ∧ ownEnv S env = true then S.builtin x else none
  | .group e => builtinOf env e
  | _ => none

def callOf (f : Option Builtin) (e : Core.Ex) (es : List Core.Ex) : Core.Ex :=
  match f with
  | some f => .builtin f es
  | none => .call e es

/-- `a.b.c` as an expression; only the first value of `a` counts. -/
def chain (e : Core.Ex) : List Nm → Core.Ex
  | [] => e
  | x :: xs => chain (.op (S.enc (.member x)) false [.group e]) xs

/-- The target of a function statement. -/
def fnTarget (env : Env) (f : FnName) : Core.Tg :=
  match (f.keys ++ f.meth.toList).reverse with
  | [] => target S env f.base
  | x :: xs => .put (S.enc (.member x)) [.group (chain S (name S env f.base) xs.reverse)]

def shape : Its → List (Option (Option Nm))
  | .nil => []
  | .pos _ its => none :: shape its
  | .named x _ its => some (some x) :: shape its
  | .keyed _ _ its => some none :: shape its

/-- Whether a function takes further arguments. -/
def isVar (ps : List Param) : Bool := ps.any Option.isNone

/-- The operator of a compound assignment. -/
def opBin (o : Op) (l r : Core.Ex) : Core.Ex :=
  match binOp o with
  | some b => .bin b l r
  | none => .op (S.enc (.bin o)) false [l, .group r]

mutual
/-- An expression, with the declarations visible and the number of the next one. -/
def eE (env : Env) (n : Nat) : Ex → Core.Ex
  | .var x => name S env x
  | .num s => numeral S (S.num s)
  | .str s => .const (S.str s)
  | .cst s => .const (cst s)
  | .vararg => .dots
  | .func ps b => .func (List.range' n (named ps).length) (isVar ps) (eB (bind env n (named ps)) (n + (named ps).length) b)
  | .group e => .group (eE env n e)
  | .un o e => match unOp o with
    | some u => .un u (eE env n e)
    | none => .op (S.enc (.un o)) false [.group (eE env n e)]
  | .bin o l r => opBin S o (eE env n l) (eE env (n + nE l) r)
  | .member b x => .op (S.enc (.member x)) false [.group (eE env n b)]
  | .index b k => .index (eE env n b) (eE env (n + nE b) k)
  | .call b _ as => callOf (builtinOf S env b) (eE env n b) (eEs env (n + nE b) as)
  | .method b x _ as => .op (S.enc (.method x)) true (.group (eE env n b) :: eEs env (n + nE b) as)
  | .table its => .op (S.enc (.table (shape its))) false (eIts env n its)
def eEs (env : Env) (n : Nat) : Exs → List Core.Ex
  | .nil => []
  | .cons e es => eE env n e :: eEs env (n + nE e) es
/-- Each by itself has one value. -/
def eOnes (env : Env) (n : Nat) : Exs → List Core.Ex
  | .nil => []
  | .cons e es => .group (eE env n e) :: eOnes env (n + nE e) es
/-- The items of a table; all values of the last one count if it is positional. -/
def eIts (env : Env) (n : Nat) : Its → List Core.Ex
  | .nil => []
  | .pos e its => eE env n e :: eIts env (n + nE e) its
  | .named _ e its => .group (eE env n e) :: eIts env (n + nE e) its
  | .keyed k e its => eE env n k :: .group (eE env (n + nE k) e) :: eIts env (n + nE k + nE e) its
/-- A target of an assignment. -/
def eT (env : Env) (n : Nat) : Ex → Core.Tg
  | .var x => target S env x
  | .member b x => .put (S.enc (.member x)) [.group (eE env n b)]
  | .index b k => .put (S.enc .elem) [eE env n b, .group (eE env (n + nE b) k)]
  | .group e => eT env n e
  | _ => .put (S.enc .invalid) []
def eTs (env : Env) (n : Nat) : Exs → List Core.Tg
  | .nil => []
  | .cons t ts => eT env n t :: eTs env (n + nE t) ts
/-- `t op= e`, where `e` stands for `r`. -/
def eOp (env : Env) (n : Nat) (o : Op) (r : Core.Ex) : Ex → Core.St
  | .var x => .assign [target S env x] [opBin S o (name S env x) r]
  | .member b x => .assign [.put (S.enc (.opMember (binOp o) x)) [.group (eE env n b)]] [r]
  | .index b k => .assign [.put (S.enc (.opElem (binOp o))) [eE env n b, .group (eE env (n + nE b) k)]] [r]
  | .group e => eOp env n o r e
  | _ => .assign [.put (S.enc .invalid) []] [r]
def eS (env : Env) (n : Nat) : St → Core.St
  | .do_ b => .doB (eB env n b)
  | .if_ (.long c b t) => .ifS (eE env n c) (eB env (n + nE c) b) (eTail env (n + nE c + nB b) t)
  | .if_ (.short c b _) => .ifS (eE env n c) (eB env (n + nE c) b) .none
  | .if_ (.shortElse c b d _) => .ifS (eE env n c) (eB env (n + nE c) b) (.else_ (eB env (n + nE c + nB b) d))
  | .while_ c b => .whileS (eE env n c) (eB env (n + nE c) b)
  | .whileShort c b _ => .whileS (eE env n c) (eB env (n + nE c) b)
  | .repeat_ b c => .repeatS (eB env n b) (eE (atEnd env n b) (n + nB b) c)
  | .fornum x a b c d => .forNum n (.group (eE env (n + 1) a) :: .group (eE env (n + 1 + nE a) b) :: eOnes env (n + 1 + nE a + nE b) c)
      (eB (bind env n [x]) (n + 1 + nE a + nE b + nEs c) d)
  | .forin xs es d => .forIn (List.range' n xs.length) (eEs env (n + xs.length) es) (eB (bind env n xs) (n + xs.length + nEs es) d)
  | .break_ => .brk
  | .return_ es => .ret (eEs env n es)
  | .local_ xs es => .locals (List.range' n xs.length) (eEs env (n + xs.length) es)
  | .localfn x ps b => .localFn n (List.range' (n + 1) (named ps).length) (isVar ps)
      (eB (bind (bind env n [x]) (n + 1) (named ps)) (n + 1 + (named ps).length) b)
  | .goto_ x => .eval (.op (S.enc (.jump x)) true [])
  | .label x => .eval (.op (S.enc (.jump x)) true [])
  | .func f ps b => .assign [fnTarget S env f] [.func (List.range' n (methodParams f ps).length) (isVar ps)
      (eB (bind env n (methodParams f ps)) (n + (methodParams f ps).length) b)]
  | .assign ts es => .assign (eTs env n ts) (eEs env (n + nEs ts) es)
  | .opassign o t e => eOp env n o (eE env (n + nE t) e) t
  | .call e => .eval (eE env n e)
  | .print es => .eval (callOf (builtinOf S env (.var (nm "print"))) (name S env (nm "print")) (eEs env n es))
def eTail (env : Env) (n : Nat) : Tail → Core.El
  | .end_ => .none
  | .else_ b => .else_ (eB env n b)
  | .elseif_ (.long c b t) => .elseif (eE env n c) (eB env (n + nE c) b) (eTail env (n + nE c + nB b) t)
  | .elseif_ (.short c b _) => .elseif (eE env n c) (eB env (n + nE c) b) .none
  | .elseif_ (.shortElse c b d _) => .elseif (eE env n c) (eB env (n + nE c) b) (.else_ (eB env (n + nE c + nB b) d))
def eB (env : Env) (n : Nat) : Block → List Core.St
  | .nil => []
  | .semi b => eB env n b
  | .cons s b => eS env n s :: eB (after env n s) (n + nS s) b
end

/-- A whole program, in which `_ENV` (declaration 0) and `lb` (from 1 on) are visible from the start. -/
def program (lb : List Nm) (b : Block) : List Core.St := eB S (bind [(nm "_ENV", 0)] 1 lb) (lb.length + 1) b

/-- The same thing, when globals and keys have new names. -/
def Prim.map (ρ μ : Nm → Nm) : Prim → Prim
  | .global x => .global (ρ x)
  | .member x => .member (μ x)
  | .method x => .method (μ x)
  | .table its => .table (its.map (Option.map (Option.map μ)))
  | .opMember o x => .opMember o (μ x)
  | p => p

/-- Its names are globals in `G` and keys in `K`. -/
def Prim.In (G K : Nm → Prop) : Prim → Prop
  | .global x => G x
  | .member x | .method x | .opMember _ x => K x
  | .table its => ∀ x, some (some x) ∈ its → K x
  | _ => True

end Verif.Elab
