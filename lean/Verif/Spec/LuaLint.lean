import Verif.Spec.LuaUses
/-
What the linter should warn about (README.md, "Linting"), in terms of how the names of a program are used.
-/
namespace Verif.LuaLint
open Syntax LuaScope LuaUses

/-- The warnings about locals and globals. -/
inductive Warning
  /-- "Local 'x' has the same name as a global" -/
  | dupGlobal
  /-- "... as a built-in global used elsewhere in the cart" -/
  | dupBuiltin
  /-- "... as a local declared at the top level" -/
  | dupTop
  /-- "... as a local declared in a parent function" -/
  | dupFunc
  /-- "... as a local declared in a parent scope" -/
  | dupScope
  /-- "... as a local declared in the same scope" -/
  | dupSame
  /-- "Local 'x' is only ever assigned to, never used" -/
  | localAssigned
  /-- "Local 'x' isn't used" -/
  | localUnused
  /-- "Built-in global 'x' assigned outside _init - did you mean to use 'local'?" -/
  | builtinAssigned
  /-- "... 'local function'?" -/
  | builtinFunc
  /-- "Identifier 'x' not found - did you mean to use 'local' to define it?" -/
  | notFoundAssigned
  /-- "... 'local function' to define it?" -/
  | notFoundFunc
  /-- "Identifier 'x' not found" -/
  | notFound
  /-- "Global 'x' is only ever assigned to, never used" -/
  | globalAssigned
  /-- "Global 'x' isn't used" -/
  | globalUnused
  deriving DecidableEq, Repr

/-- The options of the linter: which warnings are wanted, and the names given in options and `--$lint:` comments; and the names of the
built-in globals. -/
structure Opts where
  undefined : Bool
  unused : Bool
  unusedGlobal : Bool
  duplicate : Bool
  duplicateGlobal : Bool
  globals : List Nm
  used : List Nm
  builtins : List Nm

section
variable (o : Opts) (lb : List Nm) (as : List At)

/-- A name that is used, and is a global of the program rather than of a local table `_ENV`; or a built-in local, which counts as global. -/
def Global (a : At) : Prop :=
  a.how ∈ [How.read, .assigned, .changed, .func] ∧
    match look a.env a.name with
    | none => ∃ n, look a.env (nm "_ENV") = some n ∧ n ≤ lb.length
    | some n => 1 ≤ n ∧ n ≤ lb.length

/-- Globals are defined by the user, or by assignments and function statements outside of functions and in `_init`. -/
def Defined (x : Nm) : Prop :=
  x ∈ o.globals ∨ ∃ a ∈ as, Global lb a ∧ a.name = x ∧ (a.how = .assigned ∨ a.how = .func) ∧ a.place ≠ .inside

def GlobalRead (x : Nm) : Prop := x ∈ o.used ∨ ∃ a ∈ as, Global lb a ∧ a.name = x ∧ a.how = .read
def GlobalWritten (x : Nm) : Prop := ∃ a ∈ as, Global lb a ∧ a.name = x ∧ a.how ∈ [How.assigned, .changed, .func]
def LocalRead (n : Nat) : Prop := ∃ a ∈ as, a.how = .read ∧ look a.env a.name = some n
def LocalWritten (n : Nat) : Prop := ∃ a ∈ as, a.how ∈ [How.assigned, .changed, .func] ∧ look a.env a.name = some n

/-- `a` declares a local while the declaration `d` of the same name is visible. -/
def Hides (a d : At) : Prop := ∃ m l, look a.env a.name = some m ∧ lb.length < m ∧ d ∈ as ∧ d.how = .declared m l

/-- `a` declares a local while no declaration of the same name is visible, except for built-in locals. -/
def HidesNone (a : At) : Prop := ∀ m, look a.env a.name = some m → m ≤ lb.length

/-- The warnings about an occurrence of a name. -/
def Warns (a : At) : Warning → Prop
  | .dupGlobal => o.duplicate = true ∧ o.duplicateGlobal = true ∧ (∃ n l, a.how = .declared n l) ∧ a.name ∉ [nm "_", nm "_ENV"] ∧
      HidesNone lb a ∧ Defined o lb as a.name
  | .dupBuiltin => o.duplicate = true ∧ o.duplicateGlobal = true ∧ (∃ n l, a.how = .declared n l) ∧ a.name ∉ [nm "_", nm "_ENV"] ∧
      HidesNone lb a ∧ ¬ Defined o lb as a.name ∧ (GlobalRead o lb as a.name ∨ GlobalWritten lb as a.name)
  | .dupTop => o.duplicate = true ∧ (∃ n l, a.how = .declared n l) ∧ a.name ∉ [nm "_", nm "_ENV"] ∧
      ∃ d, Hides lb as a d ∧ d.fn < a.fn ∧ d.fn = 1
  | .dupFunc => o.duplicate = true ∧ (∃ n l, a.how = .declared n l) ∧ a.name ∉ [nm "_", nm "_ENV"] ∧
      ∃ d, Hides lb as a d ∧ d.fn < a.fn ∧ d.fn ≠ 1
  | .dupScope => o.duplicate = true ∧ (∃ n l, a.how = .declared n l) ∧ a.name ∉ [nm "_", nm "_ENV"] ∧
      ∃ d, Hides lb as a d ∧ ¬ d.fn < a.fn ∧ d.depth < a.depth
  | .dupSame => o.duplicate = true ∧ (∃ n l, a.how = .declared n l) ∧ a.name ∉ [nm "_", nm "_ENV"] ∧
      ∃ d, Hides lb as a d ∧ ¬ d.fn < a.fn ∧ ¬ d.depth < a.depth
  | .localAssigned => o.unused = true ∧ (∃ n l, a.how = .declared n l ∧ ¬ LocalRead as n ∧ LocalWritten as n) ∧ a.name.head? ≠ some 95
  | .localUnused => o.unused = true ∧ (∃ n, a.how = .declared n true ∧ ¬ LocalRead as n ∧ ¬ LocalWritten as n) ∧ a.name.head? ≠ some 95
  | .builtinAssigned => o.undefined = true ∧ Global lb a ∧ ¬ Defined o lb as a.name ∧ a.name ∈ o.builtins ∧ a.how = .assigned
  | .builtinFunc => o.undefined = true ∧ Global lb a ∧ ¬ Defined o lb as a.name ∧ a.name ∈ o.builtins ∧ a.how = .func
  | .notFoundAssigned => o.undefined = true ∧ Global lb a ∧ ¬ Defined o lb as a.name ∧ a.name ∉ o.builtins ∧ a.how = .assigned
  | .notFoundFunc => o.undefined = true ∧ Global lb a ∧ ¬ Defined o lb as a.name ∧ a.name ∉ o.builtins ∧ a.how = .func
  | .notFound => o.undefined = true ∧ Global lb a ∧ ¬ Defined o lb as a.name ∧ a.name ∉ o.builtins ∧ (a.how = .read ∨ a.how = .changed)
  | .globalAssigned => o.unused = true ∧ o.unusedGlobal = true ∧ Global lb a ∧ ¬ GlobalRead o lb as a.name ∧ GlobalWritten lb as a.name ∧
      a.name.head? ≠ some 95
  | .globalUnused => False

end

end Verif.LuaLint
