import Verif.Ast
import Verif.RenameScope
/-
Model of name resolution in the parser (pico_parse.py 50-133, 300-331, 374-538, 763-864, 957-1002).

The parser resolves names while it parses.  Here this is split in two: `evB` lists, in the order of the source, what parsing a tree does to
the scopes and which names it meets, and `step` does it.  Simplified: the scope of a parameter list is created after the target of
the function has been met rather than before (469, this only changes the order in which scopes are numbered); compiler tokens, hints,
inline code and constants are left out.
-/
namespace Verif.Resolve
open Syntax

/-- What parsing does to the scopes, and the names it meets. -/
inductive Ev
  /-- the start of a block: `oldscope = scope`, and a new `LabelScope` (959-962); the flag tells whether it is the body of a function or the
  whole program (`funcdepth`, 525, 1004) -/
  | enter (fn : Bool)
  /-- the end of a block (986-990) -/
  | leave
  /-- a new `Scope` (466, 469, 782, 806, 847); the flag tells whether it is the scope of the parameters of a method, which gets a variable `self` (498-500) -/
  | newScope (self : Bool)
  /-- the targets are added to the new scope, which becomes the current one (519-526, 794-797, 811-814, 856-858) -/
  | add
  /-- `scope = scope.parent` (530, 801, 818) -/
  | close
  /-- `parse_var(new=newscope)` -/
  | tgt (x : Nm)
  /-- `parse_var()` -/
  | use (x : Nm)
  /-- the implicit use of `print` by `?` (838-839) -/
  | print
  /-- `parse_var(member=True)`; the flag tells whether the table is called `_ENV` (pico_rename.py 209-240) -/
  | member (x : Nm) (onEnv : Bool)
  | label (x : Nm)
  | goto_ (x : Nm)
  deriving DecidableEq, Repr

def printName : Nm := nm "print"
def selfName : Nm := nm "self"

/-- `node.parent.child.type == NodeType.var` and its name is `_ENV` (pico_rename.py 212-214, 239). -/
def isEnv : Ex → Bool
  | .var x => x == envName
  | _ => false

/-- Which targets of an assignment are called `_ENV` (pico_rename.py 226-231). -/
def envTargets : Exs → List Bool
  | .nil => []
  | .cons t ts => isEnv t :: envTargets ts

/-- Parameters (507-513). -/
def evPs (ps : List Param) : List Ev := ps.filterMap fun p => p.map fun x => .tgt x

/-- The target of a function statement (482-501). -/
def evFn (f : FnName) : List Ev :=
  .use f.base :: ((f.keys ++ f.meth.toList).zipIdx.map fun p => .member p.1 (p.2 == 0 && f.base == envName))

/-- The parameter list of a function and what opens its body (466-527). -/
def evHead (self : Bool) (ps : List Param) : List Ev := .newScope self :: (evPs ps ++ [.add, .enter true])

/-- What closes the body of a function (529-531). -/
def evFoot : List Ev := [.leave, .close]

mutual
/-- `parse_expr`, `parse_core_expr`, `parse_call` (573-677). -/
def evE : Ex → List Ev
  | .var x => [.use x]
  | .num _ | .str _ | .cst _ | .vararg => []
  | .func ps b => evHead false ps ++ (evB b ++ evFoot)
  | .group e => evE e
  | .un _ e => evE e
  | .bin _ l r => evE l ++ evE r
  | .member b x => evE b ++ [.member x (isEnv b)]
  | .index b k => evE b ++ evE k
  | .call b _ as => evE b ++ evEs as
  | .method b x _ as => evE b ++ .member x (isEnv b) :: evEs as
  | .table its => evIts false its
/-- `parse_list` (679-685). -/
def evEs : Exs → List Ev
  | .nil => []
  | .cons e es => evE e ++ evEs es
/-- The sources of an assignment or `local` (852-854, 869-874); a table assigned to `_ENV` has globals for keys. -/
def evSrc : List Bool → Exs → List Ev
  | _, .nil => []
  | fs, .cons (.table its) es => evIts (fs.headD false) its ++ evSrc fs.tail es
  | fs, .cons e es => evE e ++ evSrc fs.tail es
/-- `parse_table` (540-571). -/
def evIts (onEnv : Bool) : Its → List Ev
  | .nil => []
  | .pos e its => evE e ++ evIts onEnv its
  | .named x e its => .member x onEnv :: (evE e ++ evIts onEnv its)
  | .keyed k e its => evE k ++ (evE e ++ evIts onEnv its)
/-- `parse_stmt` and what it calls (698-953). -/
def evS : St → List Ev
  | .do_ b => .enter false :: (evB b ++ [.leave])
  | .if_ i => evI i
  | .while_ c b => evE c ++ .enter false :: (evB b ++ [.leave])
  | .whileShort c b _ => evE c ++ .enter false :: (evB b ++ [.leave])
  | .repeat_ b c => .enter false :: (evB b ++ (evE c ++ [.leave]))
  | .fornum x a b c d => .newScope false :: .tgt x :: (evE a ++ (evE b ++ (evEs c ++ .add :: .enter false :: (evB d ++ [.leave, .close]))))
  | .forin xs es d => .newScope false :: (xs.map .tgt ++ (evEs es ++ .add :: .enter false :: (evB d ++ [.leave, .close])))
  | .break_ => []
  | .return_ es => evEs es
  | .local_ xs es => .newScope false :: (xs.map (.tgt ·.1) ++ (evSrc (xs.map (·.1 == envName)) es ++ [.add]))
  | .localfn x ps b => .newScope false :: .tgt x :: .add :: (evHead false ps ++ (evB b ++ evFoot))
  | .goto_ x => [.goto_ x]
  | .label x => [.label x]
  | .func f ps b => evFn f ++ (evHead f.meth.isSome ps ++ (evB b ++ evFoot))
  | .assign ts es => evEs ts ++ evSrc (envTargets ts) es
  | .opassign _ t e => evE t ++ evE e
  | .call e => evE e
  | .print es => evEs es ++ [.print]
/-- `parse_if` (698-741). -/
def evI : If → List Ev
  | .long c b t => evE c ++ .enter false :: (evB b ++ .leave :: evT t)
  | .short c b _ => evE c ++ .enter false :: (evB b ++ [.leave])
  | .shortElse c b d _ => evE c ++ .enter false :: (evB b ++ .leave :: .enter false :: (evB d ++ [.leave]))
/-- The rest of an `if` statement (715-727). -/
def evT : Tail → List Ev
  | .end_ => []
  | .else_ b => .enter false :: (evB b ++ [.leave])
  | .elseif_ i => evI i
/-- The statements of a block (965-981). -/
def evB : Block → List Ev
  | .nil => []
  | .semi b => evB b
  | .cons s b => evS s ++ evB b
end

/-- `parse_root` (1004-1008). -/
def evRoot (b : Block) : List Ev := .enter true :: (evB b ++ [.leave])

/-- A `Scope` (50-72) with its number and its variables, the last one first: `add` replaces an older entry of the same name, so the first
entry counts. -/
structure Frame where
  id : Nat
  vars : List RVar
  deriving DecidableEq, Repr

/-- `Scope.find` (61-66) on a scope and those around it. -/
def findIn (x : Nm) : List Frame → Option RVar
  | [] => none
  | f :: fs => match f.vars.find? (fun v => decide (v.name = x)) with
    | some v => some v
    | none => findIn x fs

/-- What a `var` node refers to (374-456). -/
inductive Ref
  /-- declares this local -/
  | bind (v : RVar)
  | loc (v : RVar)
  /-- a global, found in the table that this local `_ENV` holds (451-454) -/
  | glob (env : Option RVar)
  | mem (onEnv : Bool)
  | label (v : RVar)
  /-- resolved at the end of the function -/
  | goto_
  deriving DecidableEq, Repr

/-- A `var` node: its name, whether it is implicit, what it refers to, and the numbers of its (label) scope and those around it. -/
structure Node where
  name : Nm
  imp : Bool
  ref : Ref
  chain : List Nat
  deriving DecidableEq, Repr

/-- The state of the parser as far as names are concerned: how many scopes, locals, label scopes and labels there are; the current scope and
those around it, innermost first; new scopes that are not current yet, with those around them; the current label scope and those around it in
this function; the scopes and label scopes at the start of the blocks being parsed; the parents of all scopes and label scopes (those of other
functions do not count for the latter, 106-120). -/
structure State where
  nscope : Nat
  nvar : Nat
  nlab : Nat
  nlabel : Nat
  cur : List Frame
  pend : List (Frame × List Frame)
  labs : List Nat
  saved : List (List Frame × List Nat)
  parents : List (Nat × Option Nat)
  labParents : List (Nat × Option Nat)

/-- The numbers of scopes. -/
def ids (fs : List Frame) : List Nat := fs.map (·.id)

/-- `parse_var()` for a variable that is not new (402-418, 451-454). -/
def useNode (s : State) (x : Nm) (imp : Bool) : Node :=
  match findIn x s.cur with
  | some v => ⟨x, imp, .loc v, ids s.cur⟩
  | none => ⟨x, imp, .glob (findIn envName s.cur), ids s.cur⟩

/-- One event: the new state, and the node if there is one. -/
def step (s : State) : Ev → State × List Node
  | .enter fn =>
    ({ s with
      saved := (s.cur, s.labs) :: s.saved
      labs := s.nlab :: (if fn then [] else s.labs)
      nlab := s.nlab + 1
      labParents := s.labParents ++ [(s.nlab, if fn then none else s.labs.head?)] }, [])
  | .leave =>
    match s.saved with
    | p :: r => ({ s with cur := p.1, labs := p.2, saved := r }, [])
    | [] => (s, [])
  | .newScope false =>
    ({ s with
      pend := (⟨s.nscope, []⟩, s.cur) :: s.pend
      nscope := s.nscope + 1
      parents := s.parents ++ [(s.nscope, (ids s.cur).head?)] }, [])
  | .newScope true =>
    ({ s with
      pend := (⟨s.nscope, [⟨.loc, selfName, s.nvar, s.nscope⟩]⟩, s.cur) :: s.pend
      nscope := s.nscope + 1
      nvar := s.nvar + 1
      parents := s.parents ++ [(s.nscope, (ids s.cur).head?)] },
    [⟨selfName, true, .bind ⟨.loc, selfName, s.nvar, s.nscope⟩, s.nscope :: ids s.cur⟩])
  | .add =>
    match s.pend with
    | p :: r => ({ s with cur := p.1 :: p.2, pend := r }, [])
    | [] => (s, [])
  | .close => ({ s with cur := s.cur.tail }, [])
  | .tgt x =>
    match s.pend with
    | p :: r =>
      ({ s with pend := (⟨p.1.id, ⟨.loc, x, s.nvar, p.1.id⟩ :: p.1.vars⟩, p.2) :: r, nvar := s.nvar + 1 },
        [⟨x, false, .bind ⟨.loc, x, s.nvar, p.1.id⟩, p.1.id :: ids p.2⟩])
    | [] => (s, [])
  | .use x => (s, [useNode s x false])
  | .print => (s, [useNode s printName true])
  | .member x onEnv => (s, [⟨x, false, .mem onEnv, []⟩])
  | .label x => ({ s with nlabel := s.nlabel + 1 }, [⟨x, false, .label ⟨.lab, x, s.nlabel, s.labs.headD 0⟩, s.labs⟩])
  | .goto_ x => (s, [⟨x, false, .goto_, s.labs⟩])

/-- All events in turn. -/
def run (s : State) : List Ev → State × List Node
  | [] => (s, [])
  | e :: es => ((run (step s e).1 es).1, (step s e).2 ++ (run (step s e).1 es).2)

/-- The variables of the outermost scope: `_ENV` and the local built-ins (325-331), the last one first. -/
def rootVars (lb : List Nm) : List RVar := ((envName :: lb).zipIdx.map fun p => ⟨.loc, p.1, p.2, 0⟩).reverse

/-- The state at the start (300-331): an outermost scope and an outermost label scope. -/
def start (lb : List Nm) : State := ⟨1, lb.length + 1, 1, 0, [⟨0, rootVars lb⟩], [], [0], [], [(0, none)], [(0, none)]⟩

/-- The nodes of a program. -/
def nodes (lb : List Nm) (b : Block) : List Node := (run (start lb) (evRoot b)).2

/-- The labels of a program. -/
def labelsOf (ns : List Node) : List RVar := ns.filterMap fun n => match n.ref with | .label v => some v | _ => none

/-- `late_resolve_labels` (995-1002) with `LabelScope.find` (106-111).  It runs at the end of the function, when all labels of the scopes in
the chain are known; labels of the same name in the same block replace each other. -/
def gotoLabel (ns : List Node) (n : Node) : Option RVar := findVar ((labelsOf ns).map fun v => (v, v.name)) n.name n.chain

end Verif.Resolve
