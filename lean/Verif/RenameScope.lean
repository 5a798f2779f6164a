import Verif.Rename
/-
Model of the scopes (pico_parse.py 50-133) and of the collection of uses (pico_rename.py 178-312, 459-476).
-/
namespace Verif

/-- `Scope.chain` (pico_parse.py 68-72): the scope and those around it.  Scopes are numbered as they are created, so a parent has a
smaller number. -/
def scopeChain (parent : Nat → Option Nat) (s : Nat) : List Nat :=
  s :: (match parent s with
    | some p => if p < s then scopeChain parent p else []
    | none => [])
termination_by s

/-- The part of the chain up to a given scope (the `break` in 300-305). -/
def upTo (t : Nat) : List Nat → List Nat
  | [] => []
  | s :: ss => if s = t then [s] else s :: upTo t ss

/-- A `var` node (pico_parse.py 373-453): where it is and which variable it is.  `asMember` says that a global is to be treated as a member
because of a `member-keys` hint on its `_ENV` (204-210, 222-227). -/
structure Use where
  scope : Nat
  var : RVar
  asMember : Bool

/-- A parsed program as far as renaming is concerned.  `parent` is for `Scope`s, `labParent` for `LabelScope`s within one function
(`LabelScope.chain`, pico_parse.py 115-119).  `fixed` gives the final name of variables that are preserved (their own name) or carry a
rename hint, `decls` and `labels` are the variables in `Scope.items` and `LabelScope.labels`.  Simplified: sublanguages are left out. -/
structure Program where
  pico8 : Bool
  parent : Nat → Option Nat
  labParent : Nat → Option Nat
  decls : List RVar
  labels : List RVar
  uses : List Use
  fixed : RVar → Option (List Nat)

/-- The variable a node counts as (`effective_kind`, 194-252). -/
def Use.eff (u : Use) : RVar := if u.asMember then memVar u.var.name else u.var

/-- `node.name` after `compute_effective_kind` (194-197: a hinted name is entered at once). -/
def Program.useName (P : Program) (u : Use) : List Nat := (P.fixed u.eff).getD u.eff.name

/-- The `used_…` sets filled in `collect_idents_pre` (287-305). -/
def Program.used (P : Program) : Used where
  locals := fun sc => (P.uses.filter fun u => u.var.kind = .loc && (upTo u.var.scope (scopeChain P.parent u.scope)).contains sc).map (·.var)
  labels := fun sc => (P.uses.filter fun u => u.var.kind = .lab &&
    (if P.pico8 then upTo u.var.scope (scopeChain P.labParent u.scope) else scopeChain P.labParent u.scope).contains sc).map (·.var)
  globals := fun sc => (P.uses.filter fun u => u.var.kind = .glob && !(u.asMember && (P.fixed u.eff).isNone) &&
    (scopeChain P.parent u.scope).contains sc).map P.useName
  members := fun sc => (P.uses.filter fun u => u.var.kind = .glob && (u.asMember && (P.fixed u.eff).isNone) &&
    (scopeChain P.parent u.scope).contains sc).map P.useName

/-- The excluded names (183-187, 196-206, 219-246) on top of the built-in ones, and the settings. -/
def Program.cfg (P : Program) (focusChars : Bool) (builtins builtinMembers : List (List Nat)) (afterZero : List RVar) : RenameCfg where
  used := P.used
  pico8 := P.pico8
  focusChars := focusChars
  globalExcl := builtins ++ (P.uses.filter fun u => u.eff.kind = .glob && (P.fixed u.eff).isSome).map P.useName
  memberExcl := builtinMembers ++ (P.uses.filter fun u => u.eff.kind = .mem && (P.fixed u.eff).isSome).map P.useName
  localExcl := (P.uses.filter fun u => u.eff.kind = .loc && (P.fixed u.eff).isSome).map fun u => (P.useName u, u.var)
  labelExcl := (P.uses.filter fun u => u.eff.kind = .lab && (P.fixed u.eff).isSome).map fun u => (P.useName u, u.var)
  afterZero := afterZero

/-- The name written for a variable in the end (459-476). -/
def Program.newName (P : Program) (renames : List (RVar × List Nat)) (v : RVar) : Option (List Nat) :=
  match P.fixed v with
  | some n => some n
  | none => renames.lookup v

/-- `Scope.find` and `LabelScope.find` (pico_parse.py 61-66, 106-111) on a chain of scopes; `items` is a dictionary, so a later entry of
the same name replaces an earlier one. -/
def findVar (items : List (RVar × List Nat)) (name : List Nat) : List Nat → Option RVar
  | [] => none
  | s :: ss => match (items.filter fun d => d.1.scope = s && d.2 = name).getLast? with
    | some d => some d.1
    | none => findVar items name ss

end Verif
