import Verif.CartMeta
import Verif.Spec.StoredPod
/-! What has to stay when a cart's pods are stored anew. -/
namespace Verif.RepackSpec
open Verif.Stored Verif.PodText

variable {F : Type} [DecidableEq F]

/-- The two files are the same to a program: both raw and with the same bytes, or both with the same metadata and the same pod. -/
def SameFile (fl : Floats F) (depth : Nat) (d d' : List Nat) : Prop :=
  PtFile.isRaw d' = PtFile.isRaw d ∧ (PtFile.isRaw d = true → d' = d) ∧
  (PtFile.isRaw d = false → PtFile.rawMeta d' = PtFile.rawMeta d ∧
    readPod fl depth (PtFile.rawPayload d') = readPod fl depth (PtFile.rawPayload d) ∧ (readPod fl depth (PtFile.rawPayload d)).isSome = true)

/-- The same for files and directories. -/
def SameEntry (fl : Floats F) (depth : Nat) : CartDir.Entry → CartDir.Entry → Prop
  | .dir, .dir => True
  | .file d, .file d' => SameFile fl depth d d'
  | _, _ => False

end Verif.RepackSpec
