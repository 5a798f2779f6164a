import Verif.FoldProg
/-
Model of the merging of consecutive local declarations over a whole program: `minify_code` calls `minify_merge_assignments` for every `local`
statement, after its children, with the statement before it (pico_minify.py:453-462; plain assignments are merged only when the focus is on
tokens, see C32).  On the programs of `Spec.LuaCore`.
-/
namespace Verif.Core

mutual
/-- The variables an expression uses, also inside functions: the nodes pico_minify.py:206-216 `node_contains_vars` looks at.  (Declarations
are left out: each is a variable of its own.) -/
def Ex.uses : Ex → List Nat
  | .const _ => []
  | .var x => [x]
  | .dots => []
  | .group e => e.uses
  | .un _ e => e.uses
  | .bin _ l r => l.uses ++ r.uses
  | .builtin _ es => usesEs es
  | .call f es => f.uses ++ usesEs es
  | .index e k => e.uses ++ k.uses
  | .op _ _ es => usesEs es
  | .func _ _ b => usesBl b
def usesEs : List Ex → List Nat
  | [] => []
  | e :: es => e.uses ++ usesEs es
def St.uses : St → List Nat
  | .locals _ es => usesEs es
  | .localFn _ _ _ b => usesBl b
  | .assign ts es => usesTs ts ++ usesEs es
  | .eval e => e.uses
  | .ret es => usesEs es
  | .brk => []
  | .doB b => usesBl b
  | .whileS e b => e.uses ++ usesBl b
  | .repeatS b e => usesBl b ++ e.uses
  | .forNum _ es b => usesEs es ++ usesBl b
  | .forIn _ es b => usesEs es ++ usesBl b
  | .ifS e t f => e.uses ++ usesBl t ++ f.uses
def usesBl : List St → List Nat
  | [] => []
  | s :: b => s.uses ++ usesBl b
def El.uses : El → List Nat
  | .none => []
  | .else_ b => usesBl b
  | .elseif e t f => e.uses ++ usesBl t ++ f.uses
def Tg.uses : Tg → List Nat
  | .loc x => [x]
  | .put _ es => usesEs es
def usesTs : List Tg → List Nat
  | [] => []
  | t :: ts => t.uses ++ usesTs ts
end

/-- What merging looks at besides the program: the names of the variables (after renaming), and which declarations bear a no-merge hint
(pico_minify.py:262-264). -/
structure Merge where
  name : Nat → Nat
  hint : List Nat → Bool

/-- pico_minify.py:253-306 for two local declarations.  (A local is never reached by functions called in the same statement before it is
declared, so `require_trivial` stays False.) -/
def Merge.ok (o : Merge) (xs : List Nat) (es : List Ex) (ys : List Nat) (fs : List Ex) : Bool :=
  !decide (xs.length < es.length) &&
  !(decide (es.length < xs.length) && (lastMany es || lastMany fs || decide (ys.length < fs.length))) &&
  !o.hint ys &&
  fs.all (fun e => !e.uses.any xs.contains) &&
  ys.all (fun y => !xs.contains y) &&
  !(decide (es.length < xs.length) && (xs.drop es.length).any fun x => ys.any fun y => o.name x == o.name y)

/-- pico_minify.py:337-341: the targets of the second go before those of the first that have no source. -/
def Merge.two (o : Merge) : St → St → Option St
  | .locals xs es, .locals ys fs =>
    if o.ok xs es ys fs then some (.locals (xs.take es.length ++ ys ++ xs.drop es.length) (es ++ fs)) else none
  | _, _ => none

/-- pico_minify.py:455-462, over the statements of a block: each is merged into the one before if possible. -/
def Merge.join (o : Merge) (p : St) : List St → List St
  | [] => [p]
  | s :: b => match o.two p s with
    | some q => o.join q b
    | none => p :: o.join s b

def Merge.joinAll (o : Merge) : List St → List St
  | [] => []
  | s :: b => o.join s b

mutual
/-- pico_minify.py:440-462: the traversal, children first. -/
def Ex.merged (o : Merge) : Ex → Ex
  | .const v => .const v
  | .var x => .var x
  | .dots => .dots
  | .group e => .group (e.merged o)
  | .un op e => .un op (e.merged o)
  | .bin op l r => .bin op (l.merged o) (r.merged o)
  | .builtin f es => .builtin f (mergedEs o es)
  | .call f es => .call (f.merged o) (mergedEs o es)
  | .index e k => .index (e.merged o) (k.merged o)
  | .op k m es => .op k m (mergedEs o es)
  | .func ps d b => .func ps d (o.joinAll (mergedBl o b))
def mergedEs (o : Merge) : List Ex → List Ex
  | [] => []
  | e :: es => e.merged o :: mergedEs o es
def St.merged (o : Merge) : St → St
  | .locals xs es => .locals xs (mergedEs o es)
  | .localFn x ps d b => .localFn x ps d (o.joinAll (mergedBl o b))
  | .assign ts es => .assign (mergedTs o ts) (mergedEs o es)
  | .eval e => .eval (e.merged o)
  | .ret es => .ret (mergedEs o es)
  | .brk => .brk
  | .doB b => .doB (o.joinAll (mergedBl o b))
  | .whileS e b => .whileS (e.merged o) (o.joinAll (mergedBl o b))
  | .repeatS b e => .repeatS (o.joinAll (mergedBl o b)) (e.merged o)
  | .forNum x es b => .forNum x (mergedEs o es) (o.joinAll (mergedBl o b))
  | .forIn xs es b => .forIn xs (mergedEs o es) (o.joinAll (mergedBl o b))
  | .ifS e t f => .ifS (e.merged o) (o.joinAll (mergedBl o t)) (f.merged o)
/-- The statements of a block, before they are merged with each other. -/
def mergedBl (o : Merge) : List St → List St
  | [] => []
  | s :: b => s.merged o :: mergedBl o b
def El.merged (o : Merge) : El → El
  | .none => .none
  | .else_ b => .else_ (o.joinAll (mergedBl o b))
  | .elseif e t f => .elseif (e.merged o) (o.joinAll (mergedBl o t)) (f.merged o)
def Tg.merged (o : Merge) : Tg → Tg
  | .loc x => .loc x
  | .put k es => .put k (mergedEs o es)
def mergedTs (o : Merge) : List Tg → List Tg
  | [] => []
  | t :: ts => t.merged o :: mergedTs o ts
end

/-- pico_minify.py:353-501 `minify_code`, as far as it merges local declarations. -/
def mergeProgram (o : Merge) (b : List St) : List St := o.joinAll (mergedBl o b)

end Verif.Core
