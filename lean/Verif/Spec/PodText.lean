import Verif.PodText
/-! Which pods can be written as text: stated for the values, without looking at the text (but for floats, whose text is
left open). -/
namespace Verif.PodText
open Verif.Pxu (UD)

/-- The text of a number token: it starts with a digit (possibly after a point), and all of it belongs to the number. -/
def NumTok (s : List Nat) : Prop :=
  (∃ c t, s = c :: t ∧ (isDigit c = true ∨ c = 46 ∧ ∃ d u, t = d :: u ∧ isDigit d = true)) ∧
  numScan (s.head? == some 48 && headIn (s.drop 1).head? [120, 88]) 0 s = s.length

variable {F : Type} [DecidableEq F]

/-- A float whose text is a number, but not an integer, and is read back. -/
structure FloatOk (fl : Floats F) (f : F) : Prop where
  tok : NumTok (fl.fmt f).2
  notInt : parseLuaAbs ((fl.fmt f).2.map lowerChar) = .float
  back : ∃ g, fl.read (fl.fmt f).2 = some g ∧ (if (fl.fmt f).1 then fl.neg g else g) = f

/-- The integers whose decimal text is read back as such. -/
def IntOk (v : Int) : Prop := -10 ^ 18 < v ∧ v < 2 ^ 63

/-- Keys: `true` is not one, floats are not integers. -/
def Key.Ok (fl : Floats F) : Key F → Prop
  | .bool b => b = false
  | .int v => IntOk v
  | .float f => FloatOk fl f ∧ fl.toInt f = none
  | .str _ => True

def Items.keys : Items F → List (Key F)
  | .nil => []
  | .cons k _ r => k :: r.keys

def Val.isNil : Val F → Bool
  | .nil => true
  | _ => false

mutual
/-- A value that can be written: integers in range, and tables with different keys and without nil. -/
def Val.Ok (fl : Floats F) : Val F → Prop
  | .int v => IntOk v
  | .float f => FloatOk fl f
  | .ud u => IntOk u.width ∧ IntOk u.height
  | .table t => t.Ok fl
  | _ => True
def Items.Ok (fl : Floats F) : Items F → Prop
  | .nil => True
  | .cons k v r => k.Ok fl ∧ v.isNil = false ∧ v.Ok fl ∧ (∀ k' ∈ r.keys, k'.norm fl ≠ k.norm fl) ∧ r.Ok fl
end
end Verif.PodText
