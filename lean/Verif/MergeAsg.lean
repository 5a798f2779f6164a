/-
Model of the merging of consecutive assignments in pico_minify.py (`minify_merge_assignments` and the
predicates it uses), and of the evaluation of (multiple) assignments.
-/
namespace Verif.MergeAsg

/-- What is known of a variable: pico_parse.py (`Var`), `VarKind.global_`, `captured`, and the name
after renaming. -/
structure VarInfo where
  global : Bool
  captured : Bool
  name : Nat

mutual
/-- Expressions, as far as the predicates distinguish them.  A call of a builtin that is never
reassigned is `bcall`, any other call is `call`.  A function expression is opaque apart from the variables it uses. -/
inductive E where
  | const (k : Nat) | varargs | group (e : E) | var (x : Nat)
  | notE (e : E) | logic (isAnd : Bool) (l r : E)
  | un (o : Nat) (e : E) | bin (o : Nat) (l r : E)
  | member (e : E) (n : Nat) | index (e k : E)
  | call (f : E) (args : Es) | bcall (f : Nat) (args : Es)
  | table (items : Es) | func (id : Nat) (uses : List Nat) (members : List Nat)
/-- Lists of expressions. -/
inductive Es where
  | nil | cons (e : E) (es : Es)
end

/-- Assignment targets. -/
inductive Target where
  | var (x : Nat) | member (e : E) (n : Nat) | index (e k : E)

/-- An assignment or a local declaration. -/
structure Stmt where
  isLocal : Bool
  targets : List Target
  sources : List E

/-- pico_parse.py:1083-1084: `is_vararg_expr`. -/
def isVararg : E → Bool
  | .call _ _ | .bcall _ _ | .varargs => true
  | _ => false

mutual
/-- pico_minify.py:206-216: `node_contains_vars` for variables `xs` and member names `ms`. -/
def contains (xs ms : List Nat) : E → Bool
  | .const _ | .varargs => false
  | .var x => xs.contains x
  | .group e | .notE e | .un _ e => contains xs ms e
  | .logic _ l r | .bin _ l r | .index l r => contains xs ms l || contains xs ms r
  | .member e n => contains xs ms e || ms.contains n
  | .call f args => contains xs ms f || containsAll xs ms args
  | .bcall _ args => containsAll xs ms args
  | .table items => containsAll xs ms items
  | .func _ uses members => uses.any xs.contains || members.any ms.contains
def containsAll (xs ms : List Nat) : Es → Bool
  | .nil => false
  | .cons e es => contains xs ms e || containsAll xs ms es
end

/-- The switches of `expr_is_trivial`, and `builtins_with_callbacks` (pico_process.py:60). -/
structure TrivOpts where
  safe : Bool
  callbacks : Nat → Bool
  allowMember : Bool := true
  allowIndex : Bool := true
  allowCall : Bool := true
  hasEnv : Bool := true

mutual
/-- pico_minify.py:218-251: `expr_is_trivial`. -/
def trivialE (info : Nat → VarInfo) (o : TrivOpts) : E → Bool
  | .const _ | .varargs => true
  | .group e | .notE e => trivialE info o e
  | .logic _ l r => trivialE info o l && trivialE info o r
  | .table items => trivialAll info o items
  | .var x => !(info x).global || !o.hasEnv || !o.safe
  | .func _ _ _ => true
  | .call _ _ => false
  | .bcall f args => !o.safe && o.allowCall && !o.callbacks f && trivialAll info o args
  | .member e _ => o.allowMember && !o.safe && trivialE info o e
  | .index e k => o.allowIndex && !o.safe && trivialE info o e && trivialE info o k
  | .un _ e => !o.safe && trivialE info o e
  | .bin _ l r => !o.safe && trivialE info o l && trivialE info o r
def trivialAll (info : Nat → VarInfo) (o : TrivOpts) : Es → Bool
  | .nil => true
  | .cons e es => trivialE info o e && trivialAll info o es
end

/-- A target as the expression node it is. -/
def Target.expr : Target → E
  | .var x => .var x
  | .member e n => .member e n
  | .index e k => .index e k

/-- pico_minify.py:271-289: the variables among the targets. -/
def targetVars (ts : List Target) : List Nat :=
  ts.filterMap fun | .var x => some x | _ => none

/-- pico_minify.py:276-277: the member names among the targets. -/
def targetMembers (ts : List Target) : List Nat :=
  ts.filterMap fun | .member _ n => some n | _ => none

/-- pico_minify.py:273-275, 278, 281: can `next` reach the target without naming it? -/
def needsTrivial (info : Nat → VarInfo) (isLocal : Bool) : Target → Bool
  | .var x => (info x).global || (!isLocal && (info x).captured)
  | _ => true

def Target.isIndex : Target → Bool
  | .index _ _ => true
  | _ => false

def Target.isMember : Target → Bool
  | .member _ _ => true
  | _ => false

/-- Names of the variables among some targets (only locals are asked for). -/
def targetNames (info : Nat → VarInfo) (ts : List Target) : List Nat :=
  (targetVars ts).map fun x => (info x).name

/-- pico_minify.py:258: is the last source one that may have many values? -/
def lastVararg (es : List E) : Bool :=
  match es.getLast? with
  | some e => isVararg e
  | none => false

/-- pico_minify.py:254-260: the conditions on the numbers of targets and sources. -/
def countsOk (prev next : Stmt) : Bool :=
  !decide (prev.targets.length < prev.sources.length) &&
  !(decide (prev.targets.length > prev.sources.length) &&
    (lastVararg prev.sources || lastVararg next.sources ||
      decide (next.targets.length < next.sources.length)))

/-- pico_minify.py:267-297: the conditions on what `next` uses. -/
def usesOk (info : Nat → VarInfo) (callbacks : Nat → Bool) (safe hasEnv : Bool) (prev next : Stmt) : Bool :=
  let xs := targetVars prev.targets
  let ms := targetMembers prev.targets
  let req := prev.targets.any (needsTrivial info prev.isLocal)
  let noIndex := prev.targets.any fun t => t.isIndex || t.isMember
  let noMember := prev.targets.any Target.isIndex
  next.sources.all (fun e => !contains xs ms e &&
    (!req || trivialE info ⟨safe, callbacks, !noMember, !noIndex, true, hasEnv⟩ e)) &&
  next.targets.all (fun t => !contains xs ms t.expr &&
    (!req || trivialE info ⟨safe, callbacks, !noMember, !noIndex, false, hasEnv⟩ t.expr))

/-- pico_minify.py:302-306: no local of `prev` that is moved behind those of `next` shares a name
with one of them. -/
def namesOk (info : Nat → VarInfo) (prev next : Stmt) : Bool :=
  !(prev.isLocal && (targetNames info (prev.targets.drop prev.sources.length)).any
    (targetNames info next.targets).contains)

/-- pico_minify.py:253-342: does `minify_merge_assignments` merge?  (The `no-merge` hint is left
out.) -/
def merges (info : Nat → VarInfo) (callbacks : Nat → Bool) (safe hasEnv : Bool) (prev next : Stmt) : Bool :=
  countsOk prev next && usesOk info callbacks safe hasEnv prev next && namesOk info prev next

/-- pico_minify.py:338-339: the merged statement. -/
def mergeStmt (prev next : Stmt) : Stmt where
  isLocal := prev.isLocal
  targets := prev.targets.take prev.sources.length ++ next.targets ++
    prev.targets.drop prev.sources.length
  sources := prev.sources ++ next.sources

end Verif.MergeAsg
