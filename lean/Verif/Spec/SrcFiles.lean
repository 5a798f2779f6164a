/-! For C87: which files of a cart patterns select. -/
namespace Verif.SrcSpec

/-- A path is selected if a pattern fits it, and none of those that are marked with `!`. -/
def Selected (fits : List Nat → List Nat → Bool) (patterns : List (List Nat)) (path : List Nat) : Prop :=
  (∃ p ∈ patterns, p.head? ≠ some 33 ∧ fits p path = true) ∧ ∀ p, 33 :: p ∈ patterns → fits p path = false

/-- Code is in the selected files; without patterns, in those whose names end with `.lua`. -/
def Code (fits : List Nat → List Nat → Bool) (patterns : List (List Nat)) (path : List Nat) : Prop :=
  patterns = [] ∧ (∃ p, path = p ++ [46, 108, 117, 97]) ∨ patterns ≠ [] ∧ Selected fits patterns path

end Verif.SrcSpec
