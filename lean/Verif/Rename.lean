import Verif.Ident
/-
Model of the choice of new names (pico_rename.py 164-444) and of the scopes it works on (pico_parse.py 50-133).

A scope is a number; `parent` gives the enclosing scope.  A local or label is identified by `id`; globals and members by their name.
-/
namespace Verif

/-- `VarKind` (pico_parse.py 10-11). -/
inductive VK | loc | glob | mem | lab
  deriving DecidableEq, Repr

/-- `Local`, `Global`, `Member`, `Label` (pico_parse.py 13-48); `scope` only matters for locals and labels. -/
structure RVar where
  kind : VK
  name : List Nat
  id : Nat
  scope : Nat
  deriving DecidableEq, Repr

/-- `root.globals[name]`: one variable per name (pico_parse.py 315). -/
def globVar (name : List Nat) : RVar := ⟨.glob, name, 0, 0⟩

/-- `root.members[name]` (pico_parse.py 316). -/
def memVar (name : List Nat) : RVar := ⟨.mem, name, 0, 0⟩

/-- The sets kept by scopes (pico_parse.py 74-92, 115-133): `used_locals` of `Scope`, `used_locals` of `LabelScope`, `used_globals` and
`used_members`. -/
structure Used where
  locals : Nat → List RVar
  labels : Nat → List RVar
  globals : Nat → List (List Nat)
  members : Nat → List (List Nat)

/-- `used_locals` of the scope of a local or label. -/
def Used.of (u : Used) (v : RVar) : List RVar := if v.kind = .lab then u.labels v.scope else u.locals v.scope

/-- The case of a global or member `g` and a local or label `l` in `are_vars_compatible` (365-374). -/
def globCompat (u : Used) (g l : RVar) : Bool :=
  if l.kind = .lab then true
  else if g.kind = .glob ∧ (u.globals l.scope).contains g.name then false
  else if g.kind = .mem ∧ (u.members l.scope).contains g.name then false
  else true

def RVar.isGlobal (v : RVar) : Bool := v.kind = .glob || v.kind = .mem

/-- `are_vars_compatible` (358-380). -/
def compat (u : Used) (v1 v2 : RVar) : Bool :=
  if v1.isGlobal && v2.isGlobal then v1.kind != v2.kind
  else if v1.isGlobal then globCompat u v1 v2
  else if v2.isGlobal then globCompat u v2 v1
  else if v1.kind = v2.kind then !(u.of v2).contains v1 && !(u.of v1).contains v2
  else true

/-- `try_select_var` (389-402) without its effects. -/
def fits (u : Used) (avoids excluded : List RVar) (v : RVar) : Bool := !avoids.contains v && excluded.all (compat u v)

/-- `select_var` with `i=0` (404-409): the variable selected, if any, and the remaining ones. -/
def selectOne (u : Used) (avoids excluded : List RVar) : List RVar → List RVar × List RVar
  | [] => ([], [])
  | v :: vs => if fits u avoids excluded v then ([v], vs) else ((selectOne u avoids excluded vs).1, v :: (selectOne u avoids excluded vs).2)

/-- `select_vars` (411-414): goes on at the position of the last selection, with the selected variable excluded. -/
def selectAll (u : Used) (avoids : List RVar) : List RVar → List RVar → List RVar × List RVar
  | _, [] => ([], [])
  | excluded, v :: vs =>
    if fits u avoids excluded v then (v :: (selectAll u avoids (excluded ++ [v]) vs).1, (selectAll u avoids (excluded ++ [v]) vs).2)
    else ((selectAll u avoids excluded vs).1, v :: (selectAll u avoids excluded vs).2)

/-- What the main loop reads (178-192, 387): excluded names, variables after a `0`, language and focus. -/
structure RenameCfg where
  used : Used
  pico8 : Bool
  focusChars : Bool
  globalExcl : List (List Nat)
  memberExcl : List (List Nat)
  localExcl : List (List Nat × RVar)
  labelExcl : List (List Nat × RVar)
  afterZero : List RVar

/-- `remaining_locals` and so on (382-385), and the four dictionaries of renames (387) in one list. -/
structure RenameSt where
  locals : List RVar
  globals : List RVar
  members : List RVar
  labels : List RVar
  renames : List (RVar × List Nat)

def envName : List Nat := [95, 69, 78, 86]

/-- `excluded` at the start of a round (425-431). -/
def excludedFor (c : RenameCfg) (ident : List Nat) : List RVar :=
  (if c.globalExcl.contains ident then [globVar ident] else []) ++ (if c.memberExcl.contains ident then [memVar ident] else []) ++
    (c.localExcl.filter fun p => p.1 == ident).map (·.2)

/-- `avoid_locals` and so on (419-422): "bxBX". -/
def avoidFor (c : RenameCfg) (ident : List Nat) : List RVar :=
  if c.pico8 && (match ident with | ch :: _ => [98, 120, 66, 88].contains ch | [] => false) then c.afterZero else []

/-- The selection of locals, globals and members for one identifier (424-440): the selected ones and the remaining three lists. -/
def selectNames (c : RenameCfg) (ident : List Nat) (st : RenameSt) : List RVar × List RVar × List RVar × List RVar :=
  let excl := excludedFor c ident
  let avoid := avoidFor c ident
  if ident = envName then ([], st.locals, st.globals, st.members)
  else if c.focusChars then
    let g := selectOne c.used avoid excl st.globals
    let m := selectOne c.used avoid (excl ++ g.1) st.members
    let l := selectAll c.used avoid (excl ++ (g.1 ++ m.1)) st.locals
    (g.1 ++ m.1 ++ l.1, l.2, g.2, m.2)
  else
    let l := selectAll c.used avoid excl st.locals
    let g := selectOne c.used avoid (excl ++ l.1) st.globals
    let m := selectOne c.used avoid (excl ++ (l.1 ++ g.1)) st.members
    (l.1 ++ g.1 ++ m.1, l.2, g.2, m.2)

/-- The selection of labels for one identifier (442-444). -/
def selectLabels (c : RenameCfg) (ident : List Nat) (labels : List RVar) : List RVar × List RVar :=
  selectAll c.used [] ((c.labelExcl.filter fun p => p.1 == ident).map (·.2)) labels

/-- One round of the main loop (419-444). -/
def renameRound (c : RenameCfg) (ident : List Nat) (st : RenameSt) : RenameSt :=
  let n := selectNames c ident st
  let l := selectLabels c ident st.labels
  ⟨n.2.1, n.2.2.1, n.2.2.2, l.2, st.renames ++ (n.1 ++ l.1).map fun v => (v, ident)⟩

/-- The main loop (415-444) from the n-th identifier on; `none` if `fuel` rounds do not suffice. -/
def renameLoop (c : RenameCfg) (ids : Nat → Option (List Nat)) : Nat → Nat → RenameSt → Option (List (RVar × List Nat))
  | 0, _, _ => none
  | fuel + 1, n, st =>
    if st.locals.isEmpty && st.globals.isEmpty && st.members.isEmpty && st.labels.isEmpty then some st.renames
    else (ids n).bind fun ident => renameLoop c ids fuel (n + 1) (renameRound c ident st)

end Verif
