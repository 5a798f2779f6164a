import Verif.MergeAsg
/-!
Evaluation of assignments, independent of the minifier: a store of variables, a world (tables and
everything else), and an arbitrary interpretation of the operations.  A multiple assignment first
evaluates the table and key expressions of its targets, then all its sources, and then assigns.
-/
namespace Verif.MergeAsg

/-- The state of a program: its variables, and everything else. -/
structure St (V W : Type) where
  vars : Nat → V
  w : W

/-- The state with one variable changed. -/
def St.set {V W : Type} (s : St V W) (x : Nat) (v : V) : St V W :=
  { s with vars := fun y => if y = x then v else s.vars y }

/-- An interpretation of the operations; any of them may read and change the state (metamethods,
called functions). -/
structure Interp (V W : Type) where
  nil : V
  const : Nat → V
  varargs : List V
  truthy : V → Bool
  not : V → V
  un : Nat → V → St V W → V × St V W
  bin : Nat → V → V → St V W → V × St V W
  member : V → Nat → St V W → V × St V W
  index : V → V → St V W → V × St V W
  call : V → List V → St V W → List V × St V W
  bcall : Nat → List V → St V W → List V × St V W
  table : List V → St V W → V × St V W
  func : Nat → St V W → V × St V W
  putMember : V → Nat → V → St V W → St V W
  putIndex : V → V → V → St V W → St V W

section
variable {V W : Type}

/-- One value as a list of values. -/
def one (p : V × St V W) : List V × St V W := ([p.1], p.2)

/-- The first of the values. -/
def first (I : Interp V W) (p : List V × St V W) : V × St V W := (p.1.headD I.nil, p.2)

mutual
/-- The values of an expression and the state after its evaluation. -/
def ev (I : Interp V W) : E → St V W → List V × St V W
  | .const k, s => ([I.const k], s)
  | .varargs, s => (I.varargs, s)
  | .group e, s => one (first I (ev I e s))
  | .var x, s => ([s.vars x], s)
  | .notE e, s => let p := first I (ev I e s); ([I.not p.1], p.2)
  | .logic a l r, s =>
    let p := first I (ev I l s)
    if I.truthy p.1 = a then one (first I (ev I r p.2)) else one p
  | .un o e, s => let p := first I (ev I e s); one (I.un o p.1 p.2)
  | .bin o l r, s =>
    let p := first I (ev I l s)
    let q := first I (ev I r p.2)
    one (I.bin o p.1 q.1 q.2)
  | .member e n, s => let p := first I (ev I e s); one (I.member p.1 n p.2)
  | .index e k, s =>
    let p := first I (ev I e s)
    let q := first I (ev I k p.2)
    one (I.index p.1 q.1 q.2)
  | .call f args, s =>
    let p := first I (ev I f s)
    let q := evs I args p.2
    I.call p.1 q.1 q.2
  | .bcall f args, s => let q := evs I args s; I.bcall f q.1 q.2
  | .table items, s => let q := evs I items s; one (I.table q.1 q.2)
  | .func id _ _, s => one (I.func id s)
/-- The values of an expression list: the last expression contributes all its values. -/
def evs (I : Interp V W) : Es → St V W → List V × St V W
  | .nil, s => ([], s)
  | .cons e .nil, s => ev I e s
  | .cons e es, s =>
    let p := first I (ev I e s)
    let q := evs I es p.2
    (p.1 :: q.1, q.2)
end

/-- The values of the sources of an assignment, before they are adjusted to its targets. -/
def evSources (I : Interp V W) : List E → St V W → List V × St V W
  | [], s => ([], s)
  | [e], s => ev I e s
  | e :: es, s =>
    let p := first I (ev I e s)
    let q := evSources I es p.2
    (p.1 :: q.1, q.2)

/-- Exactly `n` values: surplus values are dropped, missing ones are nil. -/
def adjust (I : Interp V W) (n : Nat) (vs : List V) : List V :=
  vs.take n ++ List.replicate (n - vs.length) I.nil

/-- A place that can be assigned to. -/
inductive Loc (V : Type) where
  | var (x : Nat) | member (o : V) (n : Nat) | index (o k : V)

/-- Evaluating a target to a place. -/
def evTarget (I : Interp V W) : Target → St V W → Loc V × St V W
  | .var x, s => (.var x, s)
  | .member e n, s => let p := first I (ev I e s); (.member p.1 n, p.2)
  | .index e k, s =>
    let p := first I (ev I e s)
    let q := first I (ev I k p.2)
    (.index p.1 q.1, q.2)

def evTargets (I : Interp V W) : List Target → St V W → List (Loc V) × St V W
  | [], s => ([], s)
  | t :: ts, s =>
    let p := evTarget I t s
    let q := evTargets I ts p.2
    (p.1 :: q.1, q.2)

/-- Assigning to a place. -/
def put (I : Interp V W) (l : Loc V) (v : V) (s : St V W) : St V W :=
  match l with
  | .var x => s.set x v
  | .member o n => I.putMember o n v s
  | .index o k => I.putIndex o k v s

/-- Assigning the values to the places, the last one first. -/
def putAll (I : Interp V W) : List (Loc V) → List V → St V W → St V W
  | l :: ls, v :: vs, s => put I l v (putAll I ls vs s)
  | _, _, s => s

/-- Executing an assignment or local declaration. -/
def exec (I : Interp V W) (st : Stmt) (s : St V W) : St V W :=
  let t := evTargets I st.targets s
  let q := evSources I st.sources t.2
  putAll I t.1 (adjust I st.targets.length q.1) q.2

/-- An operation neither reads nor changes the variable. -/
def Blind {A : Type} (f : St V W → A × St V W) (x : Nat) : Prop :=
  ∀ s v, f (s.set x v) = ((f s).1, (f s).2.set x v)

/-- Variables that the statement declares or assigns and that no other code can reach: locals that
are not captured by a function, or that are only being declared. -/
def unreachable (info : Nat → VarInfo) (isLocal : Bool) (x : Nat) : Bool :=
  !(info x).global && (isLocal || !(info x).captured)

/-- What the operations may do.  Code that an operation runs cannot reach an unreachable variable;
making a table or function runs no code; and, unless only safe reordering is wanted, operators,
indexing and builtins without callbacks do not use the variables of the program (the documented
assumption on metamethods). -/
structure Laws (I : Interp V W) (info : Nat → VarInfo) (callbacks : Nat → Bool)
    (isLocal safe : Bool) : Prop where
  table : ∀ vs x, Blind (I.table vs) x
  func : ∀ id x, Blind (I.func id) x
  un : ∀ o v x, (unreachable info isLocal x = true ∨ safe = false) → Blind (I.un o v) x
  bin : ∀ o v w x, (unreachable info isLocal x = true ∨ safe = false) → Blind (I.bin o v w) x
  member : ∀ v n x, (unreachable info isLocal x = true ∨ safe = false) → Blind (I.member v n) x
  index : ∀ v w x, (unreachable info isLocal x = true ∨ safe = false) → Blind (I.index v w) x
  bcall : ∀ f vs x, (unreachable info isLocal x = true ∨ (safe = false ∧ callbacks f = false)) →
    Blind (I.bcall f vs) x
  call : ∀ v vs x, unreachable info isLocal x = true → Blind (I.call v vs) x

end

/-- The variable that a name means after some locals were declared: the last one so named. -/
def lookup (info : Nat → VarInfo) (declared : List Nat) (name : Nat) : Option Nat :=
  declared.reverse.find? fun x => (info x).name == name

end Verif.MergeAsg
