import Verif.Spec.CartDir
/-
Specification for C78: what merging two carts should give.
-/
namespace Verif.CartDir

/-- `q` is a directory of something in `src` that is wanted. -/
def Above (wanted : Key → Bool) (src : Files) (q : Path) : Prop :=
  ∃ (d : Path) (b : Bool), d ≠ [] ∧ (∀ x ∈ q ++ d, Proper x) ∧ wanted (keyOf (q ++ d) b) = true ∧ (src.lookup (keyOf (q ++ d) b)).isSome

/-- What merging should give. -/
structure Merged (wanted : Key → Bool) (dest src out : Files) : Prop where
  /-- wanted files are taken from the source -/
  taken : ∀ k, wanted k = true → (src.lookup k).isSome → out.lookup k = src.lookup k
  /-- all others stay as they are -/
  kept : ∀ k, (wanted k = false ∨ src.lookup k = none) → (dest.lookup k).isSome → out.lookup k = dest.lookup k
  /-- missing directories are made -/
  made : ∀ q : Path, q ≠ [] → (wanted (keyOf q true) = false ∨ src.lookup (keyOf q true) = none) → dest.lookup (keyOf q true) = none → Above wanted src q →
    out.lookup (keyOf q true) = some .dir
  /-- and nothing else -/
  none : ∀ k, (wanted k = false ∨ src.lookup k = none) → dest.lookup k = none → (¬ ∃ q : Path, q ≠ [] ∧ k = keyOf q true ∧ Above wanted src q) →
    out.lookup k = none

/-- Nothing is a file in one cart and a directory in the other (or in both at once). -/
def NoClash (wanted : Key → Bool) (dest src : Files) : Prop := ∀ q : Path, q ≠ [] → (∀ x ∈ q, Proper x) →
  ¬ (((wanted (keyOf q false) = true ∧ (src.lookup (keyOf q false)).isSome) ∨ (dest.lookup (keyOf q false)).isSome) ∧
    ((wanted (keyOf q true) = true ∧ (src.lookup (keyOf q true)).isSome) ∨ (dest.lookup (keyOf q true)).isSome ∨ Above wanted src q))

end Verif.CartDir
