import Verif.Spec.Runtime
/-
A small Lua: expressions with any number of values, statements with block scope.  Written without reference to the folding code; it is
the meaning against which tree rewrites are judged.

Everything that is not fixed by the language (calls, tables, loops, operators on other kinds of values) is a parameter of the world `W`:
it may read and change the state and fail (`none`).  So a theorem about all worlds holds whatever the called functions do.
-/
namespace Verif.Spec

/-! ### Syntax -/

mutual
/-- Expressions.  `call` is anything that may yield several values (calls, method calls, `...`), `other` any further expression with one
value (indexing, table constructors, functions, `^`). -/
inductive Ex where
  | const (v : LV)
  | var (x : Nat)
  | group (e : Ex)
  | un (op : UnOp) (e : Ex)
  | bin (op : BinOp) (l r : Ex)
  | builtin (f : Builtin) (args : Exs)
  | call (k : Nat) (args : Exs)
  | other (k : Nat) (args : Exs)
inductive Exs where
  | nil
  | cons (e : Ex) (es : Exs)
end

mutual
/-- Statements.  `other` is an assignment or call statement, `loop` any loop, whose body is run in a way fixed by the world. -/
inductive St where
  | locals (xs : List Nat) (es : Exs)
  | other (k : Nat) (es : Exs)
  | ret (es : Exs)
  | brk
  | label (l : Nat)
  | doB (b : Bl)
  | loop (k : Nat) (es : Exs) (b : Bl)
  | ifS (c : Ex) (t : Bl) (e : El)
inductive Bl where
  | nil
  | cons (s : St) (b : Bl)
inductive El where
  | none
  | else_ (b : Bl)
  | elseif (c : Ex) (t : Bl) (e : El)
end

def Bl.append : Bl → Bl → Bl
  | .nil, c => c
  | .cons s b, c => .cons s (b.append c)

/-! ### Meaning -/

/-- How a block ends. -/
inductive Ctl (V : Type) where
  | normal
  | ret (vs : List V)
  | brk

/-- What the language leaves open.  `Env` says which local variable a name means (`none`: the global). -/
structure W (V S : Type) where
  /-- constants -/
  inj : Val → V
  truthy : V → Bool
  /-- variables -/
  read : (Nat → Option Nat) → Nat → S → V
  alloc : List V → S → List Nat × S
  /-- operators, possibly with metamethods -/
  un : UnOp → V → S → Option (V × S)
  bin : BinOp → V → V → S → Option (V × S)
  builtin : Builtin → List V → S → Option (List V × S)
  /-- everything else may look at all visible variables -/
  call : Nat → (Nat → Option Nat) → List V → S → Option (List V × S)
  other : Nat → (Nat → Option Nat) → List V → S → Option (V × S)
  stmt : Nat → (Nat → Option Nat) → List V → S → Option S
  loop : Nat → (Nat → Option Nat) → List V → (S → Option (Ctl V × S)) → S → Option (Ctl V × S)

/-- The world agrees with the runtime where that is specified. -/
structure W.Ok {V S : Type} (w : W V S) (lang : Lang) (arith : Bool) : Prop where
  truthy : ∀ x, w.truthy (w.inj x) = x.truthy
  un : ∀ op x r s, rtUn lang op x = some r → w.un op (w.inj x) s = some (w.inj r, s)
  bin : ∀ op x y r s, rtBin arith op x y = some r → w.bin op (w.inj x) (w.inj y) s = some (w.inj r, s)
  builtin : ∀ f xs r s, rtCall arith f xs = some r → w.builtin f (xs.map w.inj) s = some ([w.inj r], s)

variable {V S : Type}

/-- The first of several values, or `nil`. -/
def W.first (w : W V S) : List V → V
  | [] => w.inj .nil
  | v :: _ => v

/-- Names visible after declaring `xs` at the given locations (missing locations leave a name as it was). -/
def bindNames (ρ : Nat → Option Nat) : List Nat → List Nat → (Nat → Option Nat)
  | x :: xs, l :: ls => bindNames (fun y => if y = x then some l else ρ y) xs ls
  | _, _ => ρ

/-- Exactly `n` values. -/
def W.adjust (w : W V S) : Nat → List V → List V
  | 0, _ => []
  | n + 1, [] => w.inj .nil :: w.adjust n []
  | n + 1, v :: vs => v :: w.adjust n vs

mutual
/-- All values of an expression, in order of evaluation.  `lit` gives the constants their values. -/
def W.vals (w : W V S) (lit : LV → Option V) (ρ : Nat → Option Nat) : Ex → S → Option (List V × S)
  | .const v, s => (lit v).map fun x => ([x], s)
  | .var x, s => some ([w.read ρ x s], s)
  | .group e, s => (w.vals lit ρ e s).map fun p => ([w.first p.1], p.2)
  | .un op e, s =>
    (w.vals lit ρ e s).bind fun p => (w.un op (w.first p.1) p.2).map fun q => ([q.1], q.2)
  | .bin op l r, s =>
    (w.vals lit ρ l s).bind fun p =>
      if (op = .and ∧ w.truthy (w.first p.1) = false) ∨ (op = .or ∧ w.truthy (w.first p.1) = true) then
        some ([w.first p.1], p.2)
      else
        (w.vals lit ρ r p.2).bind fun q =>
          if op = .and ∨ op = .or then some ([w.first q.1], q.2)
          else (w.bin op (w.first p.1) (w.first q.1) q.2).map fun t => ([t.1], t.2)
  | .builtin f args, s => (w.args lit ρ args s).bind fun p => w.builtin f p.1 p.2
  | .call k args, s => (w.args lit ρ args s).bind fun p => w.call k ρ p.1 p.2
  | .other k args, s => (w.args lit ρ args s).bind fun p => (w.other k ρ p.1 p.2).map fun q => ([q.1], q.2)
/-- A list of expressions: one value each, all values of the last. -/
def W.args (w : W V S) (lit : LV → Option V) (ρ : Nat → Option Nat) : Exs → S → Option (List V × S)
  | .nil, s => some ([], s)
  | .cons e .nil, s => w.vals lit ρ e s
  | .cons e (.cons e' es), s =>
    (w.vals lit ρ e s).bind fun p => (w.args lit ρ (.cons e' es) p.2).map fun q => (w.first p.1 :: q.1, q.2)
end

mutual
/-- One statement: the names visible after it, how it ended, the state. -/
def W.exec (w : W V S) (lit : LV → Option V) (ρ : Nat → Option Nat) : St → S → Option ((Nat → Option Nat) × Ctl V × S)
  | .locals xs es, s =>
    (w.args lit ρ es s).map fun p =>
      (bindNames ρ xs (w.alloc (w.adjust xs.length p.1) p.2).1, .normal, (w.alloc (w.adjust xs.length p.1) p.2).2)
  | .other k es, s => (w.args lit ρ es s).bind fun p => (w.stmt k ρ p.1 p.2).map fun t => (ρ, .normal, t)
  | .ret es, s => (w.args lit ρ es s).map fun p => (ρ, .ret p.1, p.2)
  | .brk, s => some (ρ, .brk, s)
  | .label _, s => some (ρ, .normal, s)
  | .doB b, s => (w.run lit ρ b s).map fun p => (ρ, p.1, p.2)
  | .loop k es b, s =>
    (w.args lit ρ es s).bind fun p => (w.loop k ρ p.1 (fun t => w.run lit ρ b t) p.2).map fun q => (ρ, q.1, q.2)
  | .ifS c t e, s =>
    (w.vals lit ρ c s).bind fun p =>
      ((if w.truthy (w.first p.1) then w.run lit ρ t p.2 else w.runElse lit ρ e p.2).map fun q => (ρ, q.1, q.2))
/-- A block: what it declares is forgotten at its end. -/
def W.run (w : W V S) (lit : LV → Option V) (ρ : Nat → Option Nat) : Bl → S → Option (Ctl V × S)
  | .nil, s => some (.normal, s)
  | .cons st b, s =>
    (w.exec lit ρ st s).bind fun p => match p.2.1 with
      | .normal => w.run lit p.1 b p.2.2
      | c => some (c, p.2.2)
def W.runElse (w : W V S) (lit : LV → Option V) (ρ : Nat → Option Nat) : El → S → Option (Ctl V × S)
  | .none, s => some (.normal, s)
  | .else_ b, s => w.run lit ρ b s
  | .elseif c t e, s =>
    (w.vals lit ρ c s).bind fun p => if w.truthy (w.first p.1) then w.run lit ρ t p.2 else w.runElse lit ρ e p.2
end

mutual
/-- Lua's grammar wants `return` last in its block, in all blocks. -/
def St.RetLast : St → Prop
  | .doB b => b.RetLast
  | .loop _ _ b => b.RetLast
  | .ifS _ t e => t.RetLast ∧ e.RetLast
  | _ => True
def Bl.RetLast : Bl → Prop
  | .nil => True
  | .cons s b => s.RetLast ∧ b.RetLast ∧ ((∃ es, s = .ret es) → b = .nil)
def El.RetLast : El → Prop
  | .none => True
  | .else_ b => b.RetLast
  | .elseif _ t e => t.RetLast ∧ e.RetLast
end

/-- Labels declared directly in a block. -/
def Bl.labels : Bl → List Nat
  | .nil => []
  | .cons (.label l) b => l :: b.labels
  | .cons _ b => b.labels

mutual
/-- No block declares a label twice. -/
def St.LabelsOk : St → Prop
  | .doB b => b.labels.Nodup ∧ b.LabelsOk
  | .loop _ _ b => b.labels.Nodup ∧ b.LabelsOk
  | .ifS _ t e => t.labels.Nodup ∧ t.LabelsOk ∧ e.LabelsOk
  | _ => True
/-- (The block's own labels are looked at where it is used.) -/
def Bl.LabelsOk : Bl → Prop
  | .nil => True
  | .cons s b => s.LabelsOk ∧ b.LabelsOk
def El.LabelsOk : El → Prop
  | .none => True
  | .else_ b => b.labels.Nodup ∧ b.LabelsOk
  | .elseif _ t e => t.labels.Nodup ∧ t.LabelsOk ∧ e.LabelsOk
end

end Verif.Spec
