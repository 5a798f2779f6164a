import Verif.Spec.CodeFormat
/-!
The LZ4 block format, written down from its public description, independently of the functions that read and write it.
-/
namespace Verif.Lz4Format
open Verif.CodeFormat (Copied)

/-- `n` as a half byte and extension bytes: up to 14 in the half byte alone; from 15 on the half byte is 15 and bytes
follow that sum up to the rest, of which all but the last are 255. -/
inductive Length : Nat → Nat → List Nat → Prop
  | short {n : Nat} (h : n < 15) : Length n n []
  | long (k r : Nat) (h : r < 255) : Length (15 + (255 * k + r)) 15 (List.replicate k 255 ++ [r])

/-- A sequence: literals, then a copy. -/
structure Seq where
  lits : List Nat
  offset : Nat
  count : Nat

/-- The bytes of a sequence: the token (literal length in the high half, copy length less 4 in the low half), the
literal length's extension, the literals, the offset (little-endian, never 0) and the copy length's extension. -/
def SeqBytes (s : Seq) (bytes : List Nat) : Prop :=
  ∃ ln le cn ce, Length s.lits.length ln le ∧ 4 ≤ s.count ∧ Length (s.count - 4) cn ce ∧
    1 ≤ s.offset ∧ s.offset < 0x10000 ∧
    bytes = (16 * ln + cn) :: (le ++ s.lits ++ [s.offset % 256, s.offset / 256] ++ ce)

/-- The bytes of the last sequence, which has literals only (the low half of its token is 0). -/
def LastBytes (lits : List Nat) (bytes : List Nat) : Prop :=
  ∃ ln le, Length lits.length ln le ∧ bytes = (16 * ln) :: (le ++ lits)

/-- The bytes of a block. -/
inductive BlockBytes : List Seq → List Nat → List Nat → Prop
  | last {lits bytes : List Nat} (h : LastBytes lits bytes) : BlockBytes [] lits bytes
  | seq {s : Seq} {ss : List Seq} {lits b bs : List Nat} (h : SeqBytes s b) (hs : BlockBytes ss lits bs) :
      BlockBytes (s :: ss) lits (b ++ bs)

/-- The data that sequences and final literals mean, after the data `text`. -/
inductive Means : List Nat → List Seq → List Nat → List Nat → Prop
  | last {text lits : List Nat} : Means text [] lits (text ++ lits)
  | seq {text text' lits data : List Nat} {s : Seq} {ss : List Seq}
      (h : Copied (text ++ s.lits) s.offset s.count text') (hs : Means text' ss lits data) :
      Means text (s :: ss) lits data

/-- The end-of-block restrictions: the last 5 bytes are literals, and the last copy starts at least 12 bytes before the
end. -/
def EndRules (ss : List Seq) (lits : List Nat) : Prop :=
  ∀ s, ss.getLast? = some s → 5 ≤ lits.length ∧ 12 ≤ s.count + lits.length

/-- `bytes` is an LZ4 block of `data`. -/
def IsBlock (bytes data : List Nat) : Prop :=
  ∃ ss lits, BlockBytes ss lits bytes ∧ Means [] ss lits data ∧ EndRules ss lits

/-- What a lenient reader makes of bytes, after the data `text`: as above, except that the bytes may also end after a
copy (or be missing altogether), that the low half of the last token does not matter, and that an offset of 0 repeats the
first byte of the data. -/
inductive Loose : List Nat → List Nat → List Nat → Prop
  | done {text : List Nat} : Loose text [] text
  | last {text : List Nat} (lits : List Nat) (ln cn : Nat) (le : List Nat) (hl : Length lits.length ln le) (hc : cn < 16) :
      Loose text ((16 * ln + cn) :: (le ++ lits)) (text ++ lits)
  | seq {text text' bs data : List Nat} (lits : List Nat) (ln cn : Nat) (le ce : List Nat) (lo hi count : Nat)
      (hl : Length lits.length ln le) (hc : Length count cn ce)
      (h : if lo + 256 * hi = 0 then ∃ b, (text ++ lits).head? = some b ∧ text' = text ++ lits ++ List.replicate (4 + count) b
        else Copied (text ++ lits) (lo + 256 * hi) (4 + count) text')
      (hs : Loose text' bs data) :
      Loose text ((16 * ln + cn) :: (le ++ (lits ++ (lo :: hi :: (ce ++ bs))))) data

end Verif.Lz4Format
