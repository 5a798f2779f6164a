import Verif.Spec.LuaSem
/-
Model of erasing constant targets from assignments (pico_constfold.py 498-530, 684-740).
-/
namespace Verif
open Spec

/-- The list of indices `visit_assign` collects (686, 715-716): the positions of the targets found constant. -/
def positions : List Bool → List Nat
  | [] => []
  | b :: bs => (if b then [0] else []) ++ (positions bs).map (· + 1)

/-- One round of the loop in `erase_assign_targets` (514-517). -/
def eraseStep {α β : Type} (p : List α × List β) (i : Nat) : List α × List β :=
  (p.1.eraseIdx i, if i < p.2.length then p.2.eraseIdx i else p.2)

/-- `erase_assign_targets` (498-528): the remaining targets and sources, or `none` when the statement disappears.  `nilEx` is the
constant `nil` put in when a plain assignment loses its last source (522-525). -/
def eraseAssign {α β : Type} (nilEx : β) (isLocal : Bool) (targets : List α) (sources : List β) (indices : List Nat) :
    Option (List α × List β) :=
  let indices := if targets.length < sources.length ∧ indices.length = targets.length then indices.dropLast else indices
  let p := indices.reverse.foldl eraseStep (targets, sources)
  if p.1.isEmpty && p.2.isEmpty then none
  else if p.2.isEmpty && !isLocal then some (p.1, [nilEx])
  else some p

/-- What `visit_assign` looks at in a target (690-697): variable or not, local or global, how often reassigned, and the `--[[const]]`
attribute (`some false` for an explicit refusal). -/
structure AssignTarget where
  isVar : Bool
  isLocal : Bool
  reassigned : Nat
  attr : Option Bool
  builtin : Bool

/-- `is_const and is_const_ctxt != False` (691-704). -/
def AssignTarget.canErase (t : AssignTarget) : Bool :=
  t.isVar && ((t.isLocal && t.reassigned == 0) || (t.attr == some true && !t.isLocal && t.reassigned ≤ 1 && !t.builtin)) &&
    t.attr != some false

/-- Whether a constant, if there is one, is wanted (714-717); `chars` says that the focus is on characters. -/
def markable (chars : Bool) (t : AssignTarget) : Option LV → Bool
  | none => false
  | some v => t.attr == some true || !((match v with | .str _ => true | _ => false) || chars)

/-- `is_vararg_expr(node.sources[-1])` (708); `...` is a call here. -/
def lastMulti (es : List Ex) : Bool := match es.getLast? with
  | some (.call _ _) => true
  | some (.builtin _ _) => true
  | _ => false

/-- The loop of `visit_assign` over the targets (688-717), given the constants of the folded sources.  Simplified: all sources are folded
with the same settings (inside `--[[const]]` the real code also folds strings it otherwise would not), and errors for constants that
cannot be determined are not modelled. -/
def marks (chars lastMulti : Bool) : List AssignTarget → List (Option LV) → List Bool
  | [], _ => []
  | t :: ts, k :: ks => (t.canErase && markable chars t k) :: marks chars lastMulti ts ks
  | t :: ts, [] => (t.canErase && !lastMulti && markable chars t (some .nil)) :: marks chars lastMulti ts []

end Verif
