import Verif.ConstFoldOps
import Verif.Spec.Runtime
/-
A definitional interpreter for Lua programs with functions: what a program does, written independently of the shrinker.

Local variables are identified by their declaration (a number per declaration, what name resolution makes of names, see C62).  Every
time a declaration is executed it creates a new instance of its variable.  A function value is a closure: the parameters and body of
the function and the instances of the variables visible where it was created.  What does not concern local variables and control flow
is left to a `World`: operators on arbitrary values, tables, globals, builtin functions.  A world may call back into the program any
number of times (metamethods, `foreach`, `pcall`), seeing the error if there is one, but has no access to local variables.

Not covered: `goto`, coroutines, the debug library.  An attributed target like `a.b += 1` is a `put` whose world function reads first.
-/
namespace Verif.Core
open Spec

mutual
inductive Ex where
  | const (v : LV)
  /-- a local variable -/
  | var (x : Nat)
  | dots
  | group (e : Ex)
  | un (op : UnOp) (e : Ex)
  | bin (op : BinOp) (l r : Ex)
  /-- a call of one of the foldable builtin functions through its global name -/
  | builtin (f : Builtin) (args : List Ex)
  | call (f : Ex) (args : List Ex)
  /-- `e.name` and `e[k]` -/
  | index (e k : Ex)
  /-- anything else (globals, table constructors, method calls); `multi` tells whether all results count -/
  | op (k : Nat) (multi : Bool) (args : List Ex)
  | func (ps : List Nat) (dots : Bool) (body : List St)
inductive St where
  | locals (xs : List Nat) (es : List Ex)
  | localFn (x : Nat) (ps : List Nat) (dots : Bool) (body : List St)
  | assign (ts : List Tg) (es : List Ex)
  | eval (e : Ex)
  | ret (es : List Ex)
  | brk
  | doB (b : List St)
  | whileS (c : Ex) (b : List St)
  | repeatS (b : List St) (c : Ex)
  | forNum (x : Nat) (es : List Ex) (b : List St)
  | forIn (xs : List Nat) (es : List Ex) (b : List St)
  | ifS (c : Ex) (t : List St) (e : El)
inductive El where
  | none
  | else_ (b : List St)
  | elseif (c : Ex) (t : List St) (e : El)
inductive Tg where
  | loc (x : Nat)
  /-- a global or an element of a table -/
  | put (k : Nat) (args : List Ex)
end

/-- Values: those constants can denote, things of the world, and functions of the program. -/
inductive V where
  | base (x : Val)
  | obj (n : Nat)
  | clo (n : Nat)
deriving DecidableEq

def V.nil : V := .base .nil

def V.truthy : V → Bool
  | .base x => x.truthy
  | _ => true

/-- What the world does: fail, return, or call a value and go on with the outcome (`none` if the call failed). -/
inductive Act (H : Type) where
  | fail (h : H)
  | ret (vs : List V) (h : H)
  | call (f : V) (args : List V) (h : H) (k : Option (List V) → H → Act H)

structure World (H : Type) where
  un : UnOp → V → H → Act H
  bin : BinOp → V → V → H → Act H
  builtin : Builtin → List V → H → Act H
  index : V → V → H → Act H
  op : Nat → List V → H → Act H
  put : Nat → List V → V → H → Act H
  /-- calling something that is not a function of the program -/
  call : V → List V → H → Act H
  /-- the `i`-th value of the variable of a numeric loop, if there is one; `none` if the loop is in error -/
  range : List V → Nat → Option (Option V)

/-- On the values constants denote, the world computes what the runtime computes. -/
structure World.Ok {H : Type} (w : World H) (lang : Lang) (arith : Bool) : Prop where
  un : ∀ op x r h, rtUn lang op x = some r → w.un op (.base x) h = .ret [.base r] h
  bin : ∀ op x y r h, rtBin arith op x y = some r → w.bin op (.base x) (.base y) h = .ret [.base r] h
  builtin : ∀ f xs r h, rtCall arith f xs = some r → w.builtin f (xs.map .base) h = .ret [.base r] h

/-- Which instance of each variable is meant. -/
abbrev Env := Nat → Option Nat

structure Clo where
  ps : List Nat
  dots : Bool
  body : List St
  env : Env

/-- The values of all instances of each variable, the functions created so far, and the rest of the world. -/
structure State (H : Type) where
  cells : Nat → List V
  clos : List Clo
  heap : H

/-- Out of steps, error, or a result. -/
inductive R (H α : Type) where
  | out (s : State H)
  | err (s : State H)
  | ok (a : α) (s : State H)

variable {H : Type}

def R.bind {α β : Type} : R H α → (α → State H → R H β) → R H β
  | .out s, _ => .out s
  | .err s, _ => .err s
  | .ok a s, f => f a s

/-- How control leaves a statement. -/
inductive Ctl where
  | next
  | brk
  | ret (vs : List V)
deriving DecidableEq

/-- Calling a value. -/
abbrev Apply (H : Type) := V → List V → State H → R H (List V)

/-- Let the world act. -/
def perform (ap : Apply H) : Act H → State H → R H (List V)
  | .fail h, s => .err { s with heap := h }
  | .ret vs h, s => .ok vs { s with heap := h }
  | .call f args h k, s => match ap f args { s with heap := h } with
    | .out t => .out t
    | .err t => perform ap (k none t.heap) t
    | .ok vs t => perform ap (k (some vs) t.heap) t

def first (vs : List V) : V := vs.headD .nil

/-- What running code needs: the world, the language, how long loops may run, and how to call. -/
structure Cx (H : Type) where
  w : World H
  lang : Lang
  steps : Nat
  ap : Apply H

/-- The value of a constant. -/
def lit (lang : Lang) (v : LV) : V := .base ((LV.repr lang v).getD .nil)

def upd {α : Type} (f : Nat → α) (x : Nat) (a : α) : Nat → α := fun y => if y = x then a else f y

/-- The value of an instance. -/
def read (ρ : Env) (x : Nat) (s : State H) : Option V := (ρ x).bind fun n => (s.cells x)[n]?

mutual
/-- All values of an expression. -/
def vals (c : Cx H) (ρ : Env) (va : List V) : Ex → State H → R H (List V)
  | .const v, s => .ok [lit c.lang v] s
  | .var x, s => match read ρ x s with
    | some v => .ok [v] s
    | none => .err s
  | .dots, s => .ok va s
  | .group e, s => (vals c ρ va e s).bind fun vs s => .ok [first vs] s
  | .un op e, s => (vals c ρ va e s).bind fun vs s => (perform c.ap (c.w.un op (first vs) s.heap) s).bind fun rs s => .ok [first rs] s
  | .bin op l r, s => (vals c ρ va l s).bind fun vs s =>
    if (op = .and ∧ (first vs).truthy = false) ∨ (op = .or ∧ (first vs).truthy = true) then .ok [first vs] s
    else (vals c ρ va r s).bind fun us s =>
      if op = .and ∨ op = .or then .ok [first us] s
      else (perform c.ap (c.w.bin op (first vs) (first us) s.heap) s).bind fun rs s => .ok [first rs] s
  | .builtin f es, s => (args c ρ va es s).bind fun vs s => perform c.ap (c.w.builtin f vs s.heap) s
  | .call f es, s => (vals c ρ va f s).bind fun fs s => (args c ρ va es s).bind fun vs s => c.ap (first fs) vs s
  | .index e k, s => (vals c ρ va e s).bind fun vs s => (vals c ρ va k s).bind fun us s =>
    (perform c.ap (c.w.index (first vs) (first us) s.heap) s).bind fun rs s => .ok [first rs] s
  | .op k m es, s => (args c ρ va es s).bind fun vs s => (perform c.ap (c.w.op k vs s.heap) s).bind fun rs s =>
    .ok (if m then rs else [first rs]) s
  | .func ps d b, s => .ok [.clo s.clos.length] { s with clos := s.clos ++ [⟨ps, d, b, ρ⟩] }
/-- The values of a list of expressions: one of each, all of the last. -/
def args (c : Cx H) (ρ : Env) (va : List V) : List Ex → State H → R H (List V)
  | [], s => .ok [] s
  | [e], s => vals c ρ va e s
  | e :: e' :: es, s => (vals c ρ va e s).bind fun vs s => (args c ρ va (e' :: es) s).bind fun us s => .ok (first vs :: us) s
end

/-- Create an instance of each variable, with these values (`nil` where there are too few). -/
def alloc : List Nat → List V → Env → State H → Env × State H
  | [], _, ρ, s => (ρ, s)
  | x :: xs, vs, ρ, s => alloc xs vs.tail (upd ρ x (some (s.cells x).length)) { s with cells := upd s.cells x (s.cells x ++ [first vs]) }

/-- Where an assignment goes. -/
inductive Place where
  | loc (x : Nat)
  | put (k : Nat) (vs : List V)

def places (c : Cx H) (ρ : Env) (va : List V) : List Tg → State H → R H (List Place)
  | [], s => .ok [] s
  | .loc x :: ts, s => (places c ρ va ts s).bind fun ps s => .ok (.loc x :: ps) s
  | .put k es :: ts, s => (args c ρ va es s).bind fun vs s => (places c ρ va ts s).bind fun ps s => .ok (.put k vs :: ps) s

def store (c : Cx H) (ρ : Env) : List Place → List V → State H → R H Unit
  | [], _, s => .ok () s
  | .loc x :: ps, vs, s => match ρ x with
    | some n => store c ρ ps vs.tail { s with cells := upd s.cells x ((s.cells x).set n (first vs)) }
    | none => .err s
  | .put k us :: ps, vs, s => (perform c.ap (c.w.put k us (first vs) s.heap) s).bind fun _ s => store c ρ ps vs.tail s

/-- Repeat a step until it says how the loop ends. -/
def loop {α : Type} (step : α → State H → R H (α ⊕ Ctl)) : Nat → α → State H → R H Ctl
  | 0, _, s => .out s
  | n + 1, a, s => (step a s).bind fun r s => match r with
    | .inl a => loop step n a s
    | .inr k => .ok k s

/-- After the body of a loop: go on with `a`, or stop. -/
def afterBody {α : Type} (a : α) : Ctl → α ⊕ Ctl
  | .next => .inl a
  | .brk => .inr .next
  | .ret vs => .inr (.ret vs)

mutual
/-- Run a statement: the variables visible afterwards and how control leaves. -/
def exec (c : Cx H) (va : List V) : St → Env → State H → R H (Env × Ctl)
  | .locals xs es, ρ, s => (args c ρ va es s).bind fun vs s => .ok ((alloc xs vs ρ s).1, .next) (alloc xs vs ρ s).2
  | .localFn x ps d b, ρ, s =>
    let p := alloc [x] [.clo s.clos.length] ρ s
    .ok (p.1, .next) { p.2 with clos := s.clos ++ [⟨ps, d, b, p.1⟩] }
  | .assign ts es, ρ, s => (places c ρ va ts s).bind fun ps s => (args c ρ va es s).bind fun vs s =>
    (store c ρ ps vs s).bind fun _ s => .ok (ρ, .next) s
  | .eval e, ρ, s => (vals c ρ va e s).bind fun _ s => .ok (ρ, .next) s
  | .ret es, ρ, s => (args c ρ va es s).bind fun vs s => .ok (ρ, .ret vs) s
  | .brk, ρ, s => .ok (ρ, .brk) s
  | .doB b, ρ, s => (run c va b ρ s).bind fun p s => .ok (ρ, p.2) s
  | .whileS e b, ρ, s => (loop (fun (_ : Unit) s => (vals c ρ va e s).bind fun vs s =>
      if (first vs).truthy then (run c va b ρ s).bind fun p s => .ok (afterBody () p.2) s else .ok (.inr .next) s) c.steps () s).bind
      fun k s => .ok (ρ, k) s
  | .repeatS b e, ρ, s => (loop (fun (_ : Unit) s => (run c va b ρ s).bind fun p s => match p.2 with
      | .next => (vals c p.1 va e s).bind fun vs s => .ok (if (first vs).truthy then .inr .next else .inl ()) s
      | .brk => .ok (.inr .next) s
      | .ret vs => .ok (.inr (.ret vs)) s) c.steps () s).bind fun k s => .ok (ρ, k) s
  | .forNum x es b, ρ, s => (args c ρ va es s).bind fun vs s => (loop (fun i s => match c.w.range vs i with
      | none => .err s
      | some none => .ok (.inr .next) s
      | some (some v) => (run c va b (alloc [x] [v] ρ s).1 (alloc [x] [v] ρ s).2).bind fun p s => .ok (afterBody (i + 1) p.2) s)
      c.steps 0 s).bind fun k s => .ok (ρ, k) s
  | .forIn xs es b, ρ, s => (args c ρ va es s).bind fun vs s => (loop (fun ctl s =>
      (c.ap (first vs) [first vs.tail, ctl] s).bind fun us s =>
        if first us = .nil then .ok (.inr .next) s
        else (run c va b (alloc xs us ρ s).1 (alloc xs us ρ s).2).bind fun p s => .ok (afterBody (first us) p.2) s)
      c.steps (first vs.tail.tail) s).bind fun k s => .ok (ρ, k) s
  | .ifS e t f, ρ, s => (vals c ρ va e s).bind fun vs s =>
    if (first vs).truthy then (run c va t ρ s).bind fun p s => .ok (ρ, p.2) s else (otherwise c va f ρ s).bind fun k s => .ok (ρ, k) s
def run (c : Cx H) (va : List V) : List St → Env → State H → R H (Env × Ctl)
  | [], ρ, s => .ok (ρ, .next) s
  | st :: b, ρ, s => (exec c va st ρ s).bind fun p s => match p.2 with
    | .next => run c va b p.1 s
    | k => .ok (p.1, k) s
def otherwise (c : Cx H) (va : List V) : El → Env → State H → R H Ctl
  | .none, _, s => .ok .next s
  | .else_ b, ρ, s => (run c va b ρ s).bind fun p s => .ok p.2 s
  | .elseif e t f, ρ, s => (vals c ρ va e s).bind fun vs s =>
    if (first vs).truthy then (run c va t ρ s).bind fun p s => .ok p.2 s else otherwise c va f ρ s
end

/-- What a finished function returns. -/
def Ctl.results : Ctl → List V
  | .ret vs => vs
  | _ => []

/-- The variables a statement makes visible to those after it. -/
def St.decls : St → List Nat
  | .locals xs _ => xs
  | .localFn x _ _ _ => [x]
  | _ => []

/-- The variables visible at the end of a block. -/
def scope (D : List Nat) : List St → List Nat
  | [] => D
  | s :: b => scope (s.decls ++ D) b

/-- Call a value, allowing `n` nested calls and `n` rounds of each loop. -/
def apply (w : World H) (lang : Lang) : Nat → Apply H
  | 0, _, _, s => .out s
  | n + 1, .clo i, vs, s => match s.clos[i]? with
    | none => .err s
    | some f =>
      let p := alloc f.ps vs f.env s
      (run ⟨w, lang, n, apply w lang n⟩ (if f.dots then vs.drop f.ps.length else []) f.body p.1 p.2).bind fun q s => .ok q.2.results s
  | n + 1, f, vs, s => perform (apply w lang n) (w.call f vs s.heap) s

/-- Run a whole program with the given arguments, then let the world go on (calling `_update` and `_draw`, say). -/
def play (w : World H) (lang : Lang) (n : Nat) (va : List V) (drive : List V → H → Act H) (b : List St) (h : H) : R H (List V) :=
  (run ⟨w, lang, n, apply w lang n⟩ va b (fun _ => none) ⟨fun _ => [], [], h⟩).bind fun p s =>
    perform (apply w lang n) (drive p.2.results s.heap) s

/-- What can be seen of an outcome: out of steps, failed or returned values, and the state of the world. -/
inductive Seen (H : Type) where
  | out (h : H)
  | err (h : H)
  | ok (vs : List V) (h : H)

def R.seen : R H (List V) → Seen H
  | .out s => .out s.heap
  | .err s => .err s.heap
  | .ok vs s => .ok vs s.heap

end Verif.Core
