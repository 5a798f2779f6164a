import Verif.Spec.StoredPod
/-
Specification for C79: which metadata of a file is to be kept.
-/
namespace Verif.Stored
open Verif.PodText

variable {F : Type}

/-- Some entry is to be kept. -/
def AnyKept (keep : List Nat → Bool) (t : List (Key F × Val F)) : Prop := ∃ s v, (.str s, v) ∈ t ∧ keep s = true

/-- An entry is kept if its key matches, and the format and the type are kept along with others. -/
def Kept (keep : List Nat → Bool) (t : List (Key F × Val F)) (k : Key F) (v : Val F) : Prop :=
  (k, v) ∈ t ∧ ∃ s, k = .str s ∧ (keep s = true ∨ (AnyKept keep t ∧ (s = txt "pod_format" ∨ s = txt "pod_type")))

end Verif.Stored
