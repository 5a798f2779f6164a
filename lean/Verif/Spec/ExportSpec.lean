/-
What editing a container of carts means, for C39 and C40: an ordered list of named carts, no two with the same name.
Independent of how the container stores them.
-/
namespace Verif.ExportSpec

abbrev Name := List Nat

/-- A requested change.  `rom` is the content of the cart given. -/
inductive Op where
  | insert (name : Name) (rom : List Nat) (target : Option Name)
  | replace (name : Option Name) (rom : List Nat)
  | delete (name : Option Name)
  | rename (name : Option Name) (target : Name)
deriving DecidableEq

/-- The carts in order. -/
abbrev Carts := List (Name × List Nat)

def Has (l : Carts) (name : Name) : Prop := ∃ rom, (name, rom) ∈ l

instance (l : Carts) (name : Name) : Decidable (Has l name) :=
  decidable_of_iff (l.any (fun c => c.1 == name) = true) (by
    simp only [List.any_eq_true, Has, beq_iff_eq]
    constructor
    · rintro ⟨x, hx, rfl⟩; exact ⟨x.2, hx⟩
    · rintro ⟨r, hr⟩; exact ⟨_, hr, rfl⟩)

/-- The cart that is meant: the named one, or the first one. -/
def chosen (l : Carts) (name : Option Name) : Option Name :=
  match name with
  | some n => some n
  | none => l.head?.map (·.1)

/-- The list after the change; `none` if the change is refused. -/
def apply (l : Carts) : Op → Option Carts
  | .insert name rom none => if Has l name then none else some (l ++ [(name, rom)])
  | .insert name rom (some t) =>
    if Has l name ∨ ¬ Has l t then none
    else some (l.takeWhile (fun c => c.1 != t) ++ (name, rom) :: l.dropWhile (fun c => c.1 != t))
  | .replace name rom =>
    (chosen l name).bind fun n => if Has l n then some (l.map fun c => if c.1 = n then (n, rom) else c) else none
  | .delete name =>
    (chosen l name).bind fun n => if Has l n then some (l.filter fun c => c.1 != n) else none
  | .rename name target =>
    (chosen l name).bind fun n =>
      if Has l n ∧ ¬ Has l target then some (l.map fun c => if c.1 = n then (target, c.2) else c) else none

/-- A history of changes, all of which are accepted. -/
def applyAll (l : Carts) : List Op → Option Carts
  | [] => some l
  | op :: ops => (apply l op).bind fun l' => applyAll l' ops

end Verif.ExportSpec
