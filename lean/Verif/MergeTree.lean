import Verif.Spec.LuaElab
import Verif.MergeProg
/-
Model of the merging of consecutive local declarations on syntax trees: `minify_code` calls `minify_merge_assignments` for every `local` statement,
after its children, with the statement before it (pico_minify.py:440-462, 253-342).

Whether two declarations are merged is decided as in `MergeProg`, by looking at the variables (what name resolution makes of the names): the
declarations are numbered as in `LuaScope`, before anything is merged.
-/
namespace Verif.Elab.Mt
open Syntax LuaScope
open Core (Merge)

def lenEs : Exs → Nat
  | .nil => 0
  | .cons _ es => lenEs es + 1

def appEs : Exs → Exs → Exs
  | .nil, fs => fs
  | .cons e es, fs => .cons e (appEs es fs)

/-- A statement, how many `;` are before it, and what it stands for: the nodes, and the variables they refer to. -/
structure Item where
  semis : Nat
  st : St
  core : Core.St

/-- The statements of a block, and how many `;` are at its end. -/
abbrev Items := List Item × Nat

def Items.semi : Items → Items
  | ([], k) => ([], k + 1)
  | (i :: is, k) => ({ i with semis := i.semis + 1 } :: is, k)

def semisThen (b : Block) : Nat → Block
  | 0 => b
  | k + 1 => .semi (semisThen b k)

def blockOf (k : Nat) : List Item → Block
  | [] => semisThen .nil k
  | i :: is => semisThen (.cons i.st (blockOf k is)) i.semis

/-- pico_minify.py:337-341: the targets of the second go before those of the first that have no source.  (A `;` between them has been erased when they
are looked at, pico_minify.py:475-479, if tokens are minified at all.) -/
def two (o : Merge) : Item → Item → Option Item
  | ⟨k, .local_ xs es, c⟩, ⟨_, .local_ ys fs, d⟩ =>
    (o.two c d).map fun q => ⟨k, .local_ (xs.take (lenEs es) ++ ys ++ xs.drop (lenEs es)) (appEs es fs), q⟩
  | _, _ => none

/-- pico_minify.py:455-462, over the statements of a block: each is merged into the one before if possible. -/
def join (o : Merge) (p : Item) : List Item → List Item
  | [] => [p]
  | s :: b => match two o p s with
    | some q => join o q b
    | none => p :: join o s b

def joinAll (o : Merge) : List Item → List Item
  | [] => []
  | s :: b => join o s b

/-- A block, merged. -/
def block (o : Merge) (is : Items) : Block := blockOf is.2 (joinAll o is.1)

variable (S : Sem) (o : Merge)

mutual
/-- pico_minify.py:440-462: the traversal, children first. -/
def mE (env : Env) (n : Nat) : Ex → Ex
  | .var x => .var x
  | .num s => .num s
  | .str s => .str s
  | .cst s => .cst s
  | .vararg => .vararg
  | .func ps b => .func ps (block o (mB (bind env n (named ps)) (n + (named ps).length) b))
  | .group e => .group (mE env n e)
  | .un u e => .un u (mE env n e)
  | .bin u l r => .bin u (mE env n l) (mE env (n + nE l) r)
  | .member b x => .member (mE env n b) x
  | .index b k => .index (mE env n b) (mE env (n + nE b) k)
  | .call b sh as => .call (mE env n b) sh (mEs env (n + nE b) as)
  | .method b x sh as => .method (mE env n b) x sh (mEs env (n + nE b) as)
  | .table its => .table (mIts env n its)
def mEs (env : Env) (n : Nat) : Exs → Exs
  | .nil => .nil
  | .cons e es => .cons (mE env n e) (mEs env (n + nE e) es)
def mIts (env : Env) (n : Nat) : Its → Its
  | .nil => .nil
  | .pos e its => .pos (mE env n e) (mIts env (n + nE e) its)
  | .named x e its => .named x (mE env n e) (mIts env (n + nE e) its)
  | .keyed k e its => .keyed (mE env n k) (mE env (n + nE k) e) (mIts env (n + nE k + nE e) its)
def mS (env : Env) (n : Nat) : St → St
  | .do_ b => .do_ (block o (mB env n b))
  | .if_ i => .if_ (mI env n i)
  | .while_ c b => .while_ (mE env n c) (block o (mB env (n + nE c) b))
  | .whileShort c b d => .whileShort (mE env n c) (block o (mB env (n + nE c) b)) d
  | .repeat_ b c => .repeat_ (block o (mB env n b)) (mE (atEnd env n b) (n + nB b) c)
  | .fornum x a b c d => .fornum x (mE env (n + 1) a) (mE env (n + 1 + nE a) b) (mEs env (n + 1 + nE a + nE b) c)
      (block o (mB (bind env n [x]) (n + 1 + nE a + nE b + nEs c) d))
  | .forin xs es d => .forin xs (mEs env (n + xs.length) es) (block o (mB (bind env n xs) (n + xs.length + nEs es) d))
  | .break_ => .break_
  | .return_ es => .return_ (mEs env n es)
  | .local_ xs es => .local_ xs (mEs env (n + xs.length) es)
  | .localfn x ps b => .localfn x ps (block o (mB (bind (bind env n [x]) (n + 1) (named ps)) (n + 1 + (named ps).length) b))
  | .goto_ x => .goto_ x
  | .label x => .label x
  | .func f ps b => .func f ps (block o (mB (bind env n (methodParams f ps)) (n + (methodParams f ps).length) b))
  | .assign ts es => .assign (mEs env n ts) (mEs env (n + nEs ts) es)
  | .opassign u t e => .opassign u (mE env n t) (mE env (n + nE t) e)
  | .call e => .call (mE env n e)
  | .print es => .print (mEs env n es)
def mI (env : Env) (n : Nat) : If → If
  | .long c b t => .long (mE env n c) (block o (mB env (n + nE c) b)) (mT env (n + nE c + nB b) t)
  | .short c b d => .short (mE env n c) (block o (mB env (n + nE c) b)) d
  | .shortElse c b e d => .shortElse (mE env n c) (block o (mB env (n + nE c) b)) (block o (mB env (n + nE c + nB b) e)) d
def mT (env : Env) (n : Nat) : Tail → Tail
  | .end_ => .end_
  | .else_ b => .else_ (block o (mB env n b))
  | .elseif_ i => .elseif_ (mI env n i)
/-- The statements of a block, before they are merged with each other. -/
def mB (env : Env) (n : Nat) : Block → Items
  | .nil => ([], 0)
  | .semi b => (mB env n b).semi
  | .cons s b => (⟨0, mS env n s, (eS S env n s).merged o⟩ :: (mB (after env n s) (n + nS s) b).1, (mB (after env n s) (n + nS s) b).2)
end

/-- pico_minify.py:353-501 `minify_code`, as far as it merges local declarations. -/
def mergeTree (lb : List Nm) (b : Block) : Block := block o (mB S o (LuaScope.bind [(nm "_ENV", 0)] 1 lb) (lb.length + 1) b)

mutual
/-- The names of the declarations in an expression, in the order they are numbered. -/
def dE : Ex → List Nm
  | .var _ | .num _ | .str _ | .cst _ | .vararg => []
  | .func ps b => named ps ++ dB b
  | .group e => dE e
  | .un _ e => dE e
  | .bin _ l r => dE l ++ dE r
  | .member b _ => dE b
  | .index b k => dE b ++ dE k
  | .call b _ as => dE b ++ dEs as
  | .method b _ _ as => dE b ++ dEs as
  | .table its => dIts its
def dEs : Exs → List Nm
  | .nil => []
  | .cons e es => dE e ++ dEs es
def dIts : Its → List Nm
  | .nil => []
  | .pos e its => dE e ++ dIts its
  | .named _ e its => dE e ++ dIts its
  | .keyed k e its => dE k ++ (dE e ++ dIts its)
def dS : St → List Nm
  | .do_ b => dB b
  | .if_ i => dI i
  | .while_ c b => dE c ++ dB b
  | .whileShort c b _ => dE c ++ dB b
  | .repeat_ b c => dB b ++ dE c
  | .fornum x a b c d => x :: (dE a ++ (dE b ++ (dEs c ++ dB d)))
  | .forin xs es d => xs ++ (dEs es ++ dB d)
  | .break_ => []
  | .return_ es => dEs es
  | .local_ xs es => xs.map (·.1) ++ dEs es
  | .localfn x ps b => x :: (named ps ++ dB b)
  | .goto_ _ => []
  | .label _ => []
  | .func f ps b => methodParams f ps ++ dB b
  | .assign ts es => dEs ts ++ dEs es
  | .opassign _ t e => dE t ++ dE e
  | .call e => dE e
  | .print es => dEs es
def dI : If → List Nm
  | .long c b t => dE c ++ (dB b ++ dT t)
  | .short c b _ => dE c ++ dB b
  | .shortElse c b d _ => dE c ++ (dB b ++ dB d)
def dT : Tail → List Nm
  | .end_ => []
  | .else_ b => dB b
  | .elseif_ i => dI i
def dB : Block → List Nm
  | .nil => []
  | .semi b => dB b
  | .cons s b => dS s ++ dB b
end

/-- The merging of a program's declarations: names are compared as they are (pico_minify.py:300-305), `hint` tells which declarations bear a no-merge
hint (pico_minify.py:262-264). -/
def mergeOf (lb : List Nm) (b : Block) (hint : List Nat → Bool) : Merge :=
  ⟨fun i => (dB b).idxOf ((dB b).getD (i - (lb.length + 1)) []), hint⟩

end Verif.Elab.Mt
