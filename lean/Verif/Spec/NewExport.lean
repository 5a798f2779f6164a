import Verif.Spec.PodFormat
import Verif.Spec.Stego
/-! What a new export has to be, for C86: PICO-8's own resources, with a title and a picture. -/
namespace Verif.NewExportSpec
open Verif.PodFormat

/-- The first entry of that name. -/
def FirstNamed (l : List Shown) (name : Name) (c : Content) : Prop := ∃ a b, l = a ++ (some name, c) :: b ∧ ∀ x ∈ a, x.1 ≠ some name

/-- The pixels after a text has been written over them, with a byte for every character (255 for those that do not fit a byte) and a zero at its end. -/
def Titled (title old new : List Nat) : Prop :=
  title.length < old.length ∧ new.length = old.length ∧
  ∀ k, new[k]? = if k < title.length then (title[k]?).map fun c => if c < 256 then c else 255 else if k = title.length then some 0 else old[k]?

/-- The pixels of a label, four bytes each: blue, green, red, opaque. -/
def Painted (label px : List Nat) : Prop :=
  px.length = 4 * label.length ∧ ∀ k i, label[k]? = some i → ∃ r g b, StegoSpec.colours[i]? = some (r, g, b) ∧
    px[4 * k]? = some b ∧ px[4 * k + 1]? = some g ∧ px[4 * k + 2]? = some r ∧ px[4 * k + 3]? = some 255

/-- What has become of an entry of the pod of pictures: number 4 has the title, number 6 is the label if there is one; the others are as they were. -/
def NewPicture (title : List Nat) (label : Option (List Nat)) (i : Nat) (old new : Shown) : Prop :=
  new.1 = old.1 ∧
  (i = 4 → ∃ w h px px', old.2 = .bmp w h 8 px ∧ new.2 = .bmp w h 8 px' ∧ Titled title px px') ∧
  (∀ l, i = 6 → label = some l → ∃ px, new.2 = .bmp 128 128 32 px ∧ Painted l px) ∧
  (i ≠ 4 → (i ≠ 6 ∨ label = none) → new.2 = old.2)

end Verif.NewExportSpec
