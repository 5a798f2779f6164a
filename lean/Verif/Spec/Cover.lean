import Verif.Pxa
/-! Specification: what it means for a list of items to describe a text.  Independent of encoder and decoder. -/
namespace Verif

/-- Number of characters an item stands for. -/
def Item.length : Item → Nat
  | .str s => s.length
  | .mat _ c => c

/-- `it` correctly describes the text of `code` at position `i`: a string is literally there; a match of `count`
characters at distance `offset` repeats, character by character, what is `offset` positions earlier. -/
def ItemAt (code : List Nat) (i : Nat) : Item → Prop
  | .str s => i ≤ code.length ∧ s <+: code.drop i
  | .mat o c => 1 ≤ o ∧ o ≤ i ∧ i + c ≤ code.length ∧ ∀ k, k < c → code[i + k]? = code[i + k - o]?

/-- The items, laid end to end from position `i`, describe the rest of `code` exactly. -/
def Covers (code : List Nat) : Nat → List Item → Prop
  | i, [] => i = code.length
  | i, it :: its => ItemAt code i it ∧ Covers code (i + it.length) its

/-- Items with their positions, laid end to end, describe `code` from position `i` to position `j`. -/
def CoversPos (code : List Nat) : Nat → List (Nat × Item) → Nat → Prop
  | i, [], j => i = j
  | i, x :: xs, j => x.1 = i ∧ ItemAt code i x.2 ∧ CoversPos code (i + x.2.length) xs j

/-- The limits given to the match finder: an item is one text or a match whose offset and count obey the maxima, whose
source does not overlap it if `noRepeat`, and whose count reaches the minimum (always, unless `noRepeat` shortened it). -/
def ItemLimits (minC : Nat) (maxC maxO : Option Nat) (noRepeat : Bool) : Item → Prop
  | .str _ => True
  | .mat o c => 1 ≤ c ∧ (∀ m, maxO = some m → o ≤ m) ∧ (∀ m, maxC = some m → c ≤ m) ∧
      (noRepeat = true → c ≤ o) ∧ (noRepeat = false → (∀ m, maxC = some m → minC ≤ m) → minC ≤ c)

end Verif
