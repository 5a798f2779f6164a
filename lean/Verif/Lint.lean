import Verif.Resolve
import Verif.Spec.LuaLint
/-
Model of the linter (pico_lint.py 6-152) on the nodes that name resolution gives (`Resolve`).

`lvB` lists the same events as `evB`, each with what the linter asks of the parents of a node and of its scope.  Simplified: nodes for the implicit
use of `_ENV` by globals (pico_parse.py 451-454) are left out, they only make locals called `_ENV` used, about which there is no warning anyway;
warnings are in the order of the text; labels, sublanguages and `--$lint: func::` are left out, other `--$lint:` comments are part of the options.
-/
namespace Verif.Lint
open Syntax Resolve LuaLint

/-- What a `var` node is for its parent (pico_parse.py 1066-1073; pico_lint.py 104-106). -/
inductive Role
  /-- one of the `targets` of an assignment -/
  | assign
  /-- the `target` of a compound assignment -/
  | opAssign
  /-- the `target` of a function -/
  | func
  /-- the parameter with this index in `params`, which has this length; `child` tells whether it is one of the `children`, i.e. not implicit -/
  | param (i len : Nat) (child : Bool)
  | other
  deriving DecidableEq, Repr

/-- The names of the functions that a node is in, innermost first; `depth` and `funcdepth`, one larger than in the code. -/
structure Ctx where
  fns : List (Option Nm)
  depth : Nat
  fdepth : Nat

structure Site where
  role : Role
  fns : List (Option Nm)
  /-- for a declaration, `depth` and `funcdepth` are those of the new scope -/
  depth : Nat
  fdepth : Nat
  deriving DecidableEq, Repr

def Ctx.at (c : Ctx) (r : Role) (e : Ev) : Ev × Site := (e, ⟨r, c.fns, c.depth, c.fdepth⟩)

/-- In a block (pico_parse.py 962). -/
def Ctx.block (c : Ctx) : Ctx := { c with depth := c.depth + 1 }

/-- In a function, and in the scope of its parameters (pico_parse.py 469, 523-525, 532). -/
def Ctx.func (c : Ctx) (x : Option Nm) : Ctx := ⟨x :: c.fns, c.depth + 1, c.fdepth + 1⟩

/-- Parameters (pico_parse.py 503-517). -/
def lvPs (c : Ctx) (len : Nat) : Nat → List Param → List (Ev × Site)
  | _, [] => []
  | i, none :: ps => lvPs c len (i + 1) ps
  | i, some x :: ps => c.at (.param i len true) (.tgt x) :: lvPs c len (i + 1) ps

def lvHead (c : Ctx) (self : Bool) (ps : List Param) : List (Ev × Site) :=
  c.at (.param 0 (self.toNat + ps.length) false) (.newScope self) ::
    (lvPs c (self.toNat + ps.length) self.toNat ps ++ [c.at .other .add, c.at .other (.enter true)])

def lvFoot (c : Ctx) : List (Ev × Site) := [c.at .other .leave, c.at .other .close]

/-- `name` of a function statement (pico_parse.py 483-495). -/
def funcName (f : FnName) : Nm :=
  let x := f.keys.foldl (fun x k => x ++ nm "." ++ k) f.base
  match f.meth with
  | some m => x ++ nm ":" ++ m
  | none => x

/-- The target of a function statement; with keys it is a `member` node, whose child is no target (pico_parse.py 482-503). -/
def lvFn (c : Ctx) (f : FnName) : List (Ev × Site) :=
  c.at (if f.keys.isEmpty && f.meth.isNone then .func else .other) (.use f.base) ::
    ((f.keys ++ f.meth.toList).zipIdx.map fun p => c.at .other (.member p.1 (p.2 == 0 && f.base == envName)))

mutual
/-- Expressions; `r` is what the expression itself is for its parent. -/
def lvE (c : Ctx) (r : Role) : Ex → List (Ev × Site)
  | .var x => [c.at r (.use x)]
  | .num _ | .str _ | .cst _ | .vararg => []
  | .func ps b => lvHead (c.func none) false ps ++ (lvB (c.func none) b ++ lvFoot c)
  | .group e => lvE c .other e
  | .un _ e => lvE c .other e
  | .bin _ l r => lvE c .other l ++ lvE c .other r
  | .member b x => lvE c .other b ++ [c.at .other (.member x (isEnv b))]
  | .index b k => lvE c .other b ++ lvE c .other k
  | .call b _ as => lvE c .other b ++ lvEs c .other as
  | .method b x _ as => lvE c .other b ++ c.at .other (.member x (isEnv b)) :: lvEs c .other as
  | .table its => lvIts c false its
def lvEs (c : Ctx) (r : Role) : Exs → List (Ev × Site)
  | .nil => []
  | .cons e es => lvE c r e ++ lvEs c r es
def lvSrc (c : Ctx) : List Bool → Exs → List (Ev × Site)
  | _, .nil => []
  | fs, .cons (.table its) es => lvIts c (fs.headD false) its ++ lvSrc c fs.tail es
  | fs, .cons e es => lvE c .other e ++ lvSrc c fs.tail es
def lvIts (c : Ctx) (onEnv : Bool) : Its → List (Ev × Site)
  | .nil => []
  | .pos e its => lvE c .other e ++ lvIts c onEnv its
  | .named x e its => c.at .other (.member x onEnv) :: (lvE c .other e ++ lvIts c onEnv its)
  | .keyed k e its => lvE c .other k ++ (lvE c .other e ++ lvIts c onEnv its)
/-- Statements; the scopes of `for` loops are one deeper (pico_parse.py 778, 802), those of `local` are not (847, 466). -/
def lvS (c : Ctx) : St → List (Ev × Site)
  | .do_ b => c.at .other (.enter false) :: (lvB c.block b ++ [c.at .other .leave])
  | .if_ i => lvI c i
  | .while_ d b => lvE c .other d ++ c.at .other (.enter false) :: (lvB c.block b ++ [c.at .other .leave])
  | .whileShort d b _ => lvE c .other d ++ c.at .other (.enter false) :: (lvB c.block b ++ [c.at .other .leave])
  | .repeat_ b d => c.at .other (.enter false) :: (lvB c.block b ++ (lvE c.block .other d ++ [c.at .other .leave]))
  | .fornum x e f g d => c.at .other (.newScope false) :: c.block.at .other (.tgt x) :: (lvE c .other e ++ (lvE c .other f ++ (lvEs c .other g ++
      c.at .other .add :: c.at .other (.enter false) :: (lvB c.block d ++ [c.at .other .leave, c.at .other .close]))))
  | .forin xs es d => c.at .other (.newScope false) :: (xs.map (fun x => c.block.at .other (.tgt x)) ++ (lvEs c .other es ++
      c.at .other .add :: c.at .other (.enter false) :: (lvB c.block d ++ [c.at .other .leave, c.at .other .close])))
  | .break_ => []
  | .return_ es => lvEs c .other es
  | .local_ xs es => c.at .other (.newScope false) :: (xs.map (fun x => c.at .other (.tgt x.1)) ++
      (lvSrc c (xs.map (·.1 == envName)) es ++ [c.at .other .add]))
  | .localfn x ps b => c.at .other (.newScope false) :: c.at .func (.tgt x) :: c.at .other .add ::
      (lvHead (c.func (some x)) false ps ++ (lvB (c.func (some x)) b ++ lvFoot c))
  | .goto_ x => [c.at .other (.goto_ x)]
  | .label x => [c.at .other (.label x)]
  | .func f ps b => lvFn c f ++ (lvHead (c.func (some (funcName f))) f.meth.isSome ps ++ (lvB (c.func (some (funcName f))) b ++ lvFoot c))
  | .assign ts es => lvEs c .assign ts ++ lvSrc c (envTargets ts) es
  | .opassign _ t e => lvE c .opAssign t ++ lvE c .other e
  | .call e => lvE c .other e
  | .print es => lvEs c .other es ++ [c.at .other .print]
def lvI (c : Ctx) : If → List (Ev × Site)
  | .long d b t => lvE c .other d ++ c.at .other (.enter false) :: (lvB c.block b ++ c.at .other .leave :: lvT c t)
  | .short d b _ => lvE c .other d ++ c.at .other (.enter false) :: (lvB c.block b ++ [c.at .other .leave])
  | .shortElse d b f _ => lvE c .other d ++ c.at .other (.enter false) :: (lvB c.block b ++ c.at .other .leave ::
      c.at .other (.enter false) :: (lvB c.block f ++ [c.at .other .leave]))
def lvT (c : Ctx) : Tail → List (Ev × Site)
  | .end_ => []
  | .else_ b => c.at .other (.enter false) :: (lvB c.block b ++ [c.at .other .leave])
  | .elseif_ i => lvI c i
def lvB (c : Ctx) : Block → List (Ev × Site)
  | .nil => []
  | .semi b => lvB c b
  | .cons s b => lvS c s ++ lvB c b
end

/-- The context of a program (pico_parse.py 302-303, 962, 1035). -/
def top : Ctx := ⟨[], 1, 1⟩

def lvRoot (b : Block) : List (Ev × Site) := top.at .other (.enter true) :: (lvB top b ++ [top.at .other .leave])

/-- The nodes with their sites. -/
def lrun (s : State) : List (Ev × Site) → List (Node × Site)
  | [] => []
  | e :: es => ((step s e.1).2.map fun n => (n, e.2)) ++ lrun (step s e.1).1 es

def sites (lb : List Nm) (b : Block) : List (Node × Site) := lrun (start lb) (lvRoot b)

/-- `is_assign_target`, `is_op_assign_target`, `is_function_target` (pico_parse.py 1066-1073). -/
def Site.anyTarget (t : Site) : Bool := t.role == .assign || t.role == .opAssign || t.role == .func

section
variable (o : Opts) (ns : List (Node × Site))

/-- `builtin` of a local (pico_parse.py 329-331). -/
def builtin (v : RVar) : Bool := v.scope == 0 && v.id != 0

/-- `scope.funcdepth` and `scope.depth` of a local: the site of its declaration has them; the outermost scope has 0 here, -1 in the code. -/
def levels (v : RVar) : Nat × Nat :=
  match ns.find? (fun p => p.1.ref == .bind v) with
  | some p => (p.2.fdepth, p.2.depth)
  | none => (0, 0)

/-- `is_root_global_or_builtin_local` (pico_parse.py 1075-1081). -/
def rootGlobal (n : Node) : Bool :=
  match n.ref with
  | .glob (some v) => (levels ns v).1 == 0
  | .loc v => builtin v
  | _ => false

/-- Whether an assignment defines a global: `func` is the innermost function, without `_init` inside of others (44-53). -/
def defines (t : Site) : Bool :=
  (t.role == .assign || t.role == .func) &&
    match t.fns with
    | [] => true
    | f :: r => f == some (nm "_init") && r.isEmpty

/-- `custom_globals` after the first traversal (16, 34, 42-53). -/
def customGlobals : List Nm := o.globals ++ (ns.filter fun p => rootGlobal ns p.1 && defines p.2).map (·.1.name)
/-- `assigned_globals` (55-56). -/
def assignedGlobals : List Nm := (ns.filter fun p => rootGlobal ns p.1 && p.2.anyTarget).map (·.1.name)
/-- `used_globals` (36, 57-58). -/
def usedGlobals : List Nm := o.used ++ (ns.filter fun p => rootGlobal ns p.1 && !p.2.anyTarget).map (·.1.name)

/-- The local that a node which is not new refers to. -/
def localOf (n : Node) : Option RVar :=
  match n.ref with
  | .loc v => some v
  | _ => none

/-- `assigned_locals` (61-62). -/
def assignedLocals : List RVar := (ns.filter fun p => p.2.anyTarget).filterMap fun p => localOf p.1
/-- `used_locals` (63-64). -/
def usedLocals : List RVar := (ns.filter fun p => !p.2.anyTarget).filterMap fun p => localOf p.1

/-- All locals, from which the scopes are built. -/
def locals (lb : List Nm) : List RVar := (rootVars lb).reverse ++ (ns.map (·.1)).filterMap fun n => match n.ref with | .bind v => some v | _ => none

/-- `Scope.find` on a scope, given by its number and those around it (pico_parse.py 61-66). -/
def findScope (D : List RVar) (x : Nm) (chain : List Nat) : Option RVar :=
  findIn x (chain.map fun i => ⟨i, (D.filter fun v => v.scope = i).reverse⟩)

/-- Warnings about a new local that has the name of something else (87-105). -/
def dupChecks (lb : List Nm) (n : Node) (v : RVar) : List Warning :=
  if o.duplicate && !(n.name == nm "_" || n.name == nm "_ENV") then
    match findScope (locals ns lb) n.name n.chain.tail with
    | none => global
    | some w =>
      if builtin w then global
      else if (levels ns w).1 < (levels ns v).1 then
        if (levels ns w).1 = 0 then [] else if (levels ns w).1 = 1 then [.dupTop] else [.dupFunc]
      else if (levels ns w).2 < (levels ns v).2 then [.dupScope]
      else [.dupSame]
  else []
where
  global : List Warning :=
    if o.duplicateGlobal then
      if n.name ∈ customGlobals o ns then [.dupGlobal]
      else if n.name ∈ usedGlobals o ns ∨ n.name ∈ assignedGlobals ns then [.dupBuiltin]
      else []
    else []

/-- Don't warn for non-last or implicit parameters (110-111). -/
def excused : Role → Bool
  | .param i len child => i + 1 != len || !child
  | _ => false

/-- Warnings about a new local that is not used (107-112). -/
def unusedChecks (n : Node) (t : Site) (v : RVar) : List Warning :=
  if o.unused && !(usedLocals ns).contains v && !(n.name.head? == some 95) then
    if (assignedLocals ns).contains v then [.localAssigned]
    else if excused t.role then [] else [.localUnused]
  else []

/-- Warnings about a global (129-147). -/
def globalChecks (n : Node) (t : Site) : List Warning :=
  (if o.undefined && !(customGlobals o ns).contains n.name then
    if n.name ∈ o.builtins then
      if t.role == .assign then [.builtinAssigned] else if t.role == .func then [.builtinFunc] else []
    else if t.role == .assign then [.notFoundAssigned] else if t.role == .func then [.notFoundFunc] else [.notFound]
  else []) ++
  (if o.unused && o.unusedGlobal && !(usedGlobals o ns).contains n.name && !(n.name.head? == some 95) then
    if n.name ∈ assignedGlobals ns then [.globalAssigned] else [.globalUnused]
  else [])

/-- `lint_pre` (84-148). -/
def check (lb : List Nm) (p : Node × Site) : List Warning :=
  match p.1.ref with
  | .bind v => dupChecks o ns lb p.1 v ++ unusedChecks o ns p.1 p.2 v
  | _ => if rootGlobal ns p.1 then globalChecks o ns p.1 p.2 else []

end

/-- `lint_code` (6-152): the warnings with the number of the node they are about. -/
def lint (o : Opts) (lb : List Nm) (b : Block) : List (Nat × Warning) :=
  (sites lb b).zipIdx.flatMap fun p => (check o (sites lb b) lb p.1).map fun w => (p.2, w)

end Verif.Lint
