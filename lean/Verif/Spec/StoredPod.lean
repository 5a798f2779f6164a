import Verif.Spec.PodText
import Verif.LuaStr
import Verif.Props.Pxu
/-! Which pods can be stored as bytes: stated for the values. -/
namespace Verif.Stored
open Verif.Pxu (UD)
open Verif.PodText

/-- Text that stands for some bytes, as strings in Picotron do. -/
def FromBytes (s : List Nat) : Prop := ∃ bs, (∀ b ∈ bs, b < 256) ∧ LuaStr.decode bs = s

/-- Userdata that can be stored: of a type that is never compressed, or written as something else (`hex:`), or with as many elements as the
width and the height say, in lower-case hexadecimal digits. -/
def Storable (runtime : Nat) (u : UD) : Prop :=
  txt "hex:" <+: u.data ∨ (¬ ∃ n, Pxu.Supported u.type runtime n) ∨
  ∃ n w h : Nat, Pxu.Supported u.type runtime n ∧ u.width = w ∧ u.height = h ∧ w < 2 ^ 32 ∧ h < 2 ^ 32 ∧
    u.data.length = 2 * n * (w * if h = 0 then 1 else h) ∧ ∀ c ∈ u.data, (48 ≤ c ∧ c ≤ 57) ∨ (97 ≤ c ∧ c ≤ 102)

/-- The text of floats is ASCII, without brackets. -/
def AsciiFloats {F : Type} (fl : Floats F) : Prop := ∀ f, ∀ c ∈ (fl.fmt f).2, (0 < c ∧ c < 128) ∧ c ≠ 93

variable {F : Type}

def KeyBytes : Key F → Prop
  | .str s => FromBytes s
  | _ => True

mutual
/-- All strings within a pod stand for bytes, and its userdata are as in `P`. -/
def ValBytes (P : UD → Prop) : Val F → Prop
  | .str s => FromBytes s
  | .ud u => FromBytes u.type ∧ FromBytes u.data ∧ P u
  | .table t => ItemsBytes P t
  | _ => True
def ItemsBytes (P : UD → Prop) : Items F → Prop
  | .nil => True
  | .cons k v r => KeyBytes k ∧ ValBytes P v ∧ ItemsBytes P r
end

/-- The entries of a table. -/
def entries : Items F → List (Key F × Val F)
  | .nil => []
  | .cons k v r => (k, v) :: entries r

end Verif.Stored
