/-!
The layouts of code in a PICO-8 cartridge, written down as relations between bytes and text,
independently of the functions that read and write them.
-/
namespace Verif.CodeFormat

/-- The bits of bytes, least significant bit of each byte first. -/
def bitsOf (bs : List Nat) : List Bool := bs.flatMap fun b => (List.range 8).map b.testBit

/-- The number that some bits mean, least significant bit first. -/
def val : List Bool → Nat
  | [] => 0
  | b :: bs => b.toNat + 2 * val bs

/-- `text'` is `text` with `count` characters copied from `offset` characters back; the copy may
overlap its own result. -/
def Copied (text : List Nat) (offset count : Nat) (text' : List Nat) : Prop :=
  1 ≤ offset ∧ offset ≤ text.length ∧ text <+: text' ∧ text'.length = text.length + count ∧
  ∀ k, text.length ≤ k → k < text'.length → text'[k]? = text'[k - offset]?

/-- One item of the current ("PXA") layout: what some bits make of the recently-used list and the
text so far. -/
inductive PxaItem : List Nat → List Nat → List Bool → List Nat → List Nat → Prop
  /-- A character by its place in the list: `1`, then `k` ones and a zero, then `4 + k` bits.  The
  character moves to the front. -/
  | char {mtf text : List Nat} (k : Nat) (f : List Bool) (c : Nat) (hf : f.length = 4 + k)
      (hc : mtf[val f + 16 * (2 ^ k - 1)]? = some c) :
      PxaItem mtf text (true :: (List.replicate k true ++ false :: f))
        (c :: mtf.eraseIdx (val f + 16 * (2 ^ k - 1))) (text ++ [c])
  /-- A copy: `0`, then `11`, `10` or `0` for an offset of 5, 10 or 15 bits, the offset less one,
  and the count less three in groups of three bits of which all but the last are `111`. -/
  | copy {mtf text : List Nat} (sel f : List Bool) (n : Nat) (g : List Bool) (text' : List Nat)
      (hs : (sel, f.length) ∈ [([true, true], 5), ([true, false], 10), ([false], 15)])
      (hf : val f = 0 → f.length = 5) (hg : g.length = 3) (hg7 : val g < 7)
      (ht : Copied text (val f + 1) (3 + (7 * n + val g)) text') :
      PxaItem mtf text (false :: (sel ++ (f ++ (List.replicate (3 * n) true ++ g)))) mtf text'
  /-- A block of plain characters: a 10-bit zero offset, the characters, and a zero byte. -/
  | block {mtf text : List Nat} (s : List Nat) (hs : ∀ c ∈ s, c ≠ 0 ∧ c < 256) :
      PxaItem mtf text (false :: true :: false :: (List.replicate 10 false ++ bitsOf (s ++ [0])))
        mtf (text ++ s)

/-- Items until the text has `n` characters. -/
inductive PxaStream (n : Nat) : List Nat → List Nat → List Bool → List Nat → Prop
  | done {mtf text : List Nat} (h : text.length = n) : PxaStream n mtf text [] text
  | item {mtf text bits mtf' text' bits' code : List _} (h : text.length < n)
      (hi : PxaItem mtf text bits mtf' text') (hs : PxaStream n mtf' text' bits' code) :
      PxaStream n mtf text (bits ++ bits') code

/-- The current layout: `\0pxa`, the length of the text and of everything (big-endian), and the
items, filled up to whole bytes. -/
def IsPxa (bytes code : List Nat) : Prop :=
  ∃ body bits pad, bytes = [0x00, 0x70, 0x78, 0x61, code.length / 256, code.length % 256,
      bytes.length / 256, bytes.length % 256] ++ body ∧
    code.length < 0x10000 ∧ bytes.length < 0x10000 ∧
    bitsOf body = bits ++ pad ∧ pad.length < 8 ∧
    PxaStream code.length (List.range 256) [] bits code

/-- The characters with one-byte codes in the legacy layout. -/
def legacyChar (k : Nat) : Option Nat :=
  if k = 0 then none
  else if k = 1 then some 10 -- newline
  else if k = 2 then some 32 -- space
  else if k ≤ 12 then some (k - 3 + 48) -- digits
  else if k ≤ 38 then some (k - 13 + 97) -- letters
  else -- ! # % ( ) { } [ ] < > + = / * : ; . , ~ _
    [33, 35, 37, 40, 41, 123, 125, 91, 93, 60, 62, 43, 61, 47, 42, 58, 59, 46, 44, 126, 95][k - 39]?

/-- One item of the legacy layout. -/
inductive OldItem : List Nat → List Nat → List Nat → Prop
  | short {text : List Nat} (k c : Nat) (h : legacyChar k = some c) : OldItem text [k] (text ++ [c])
  | long {text : List Nat} (c : Nat) (h : c ≠ 0) : OldItem text [0, c] (text ++ [c])
  /-- A copy: offset in units of 16 plus 60; count less two in the high half, rest of the offset in
  the low half.  A copy never overlaps its own result. -/
  | copy {text : List Nat} (hi count lo : Nat) (text' : List Nat) (hlo : lo < 16)
      (hc : count + 2 ≤ 16 * hi + lo) (ht : Copied text (16 * hi + lo) (count + 2) text') :
      OldItem text [60 + hi, 16 * count + lo] text'

inductive OldStream : List Nat → List Nat → List Nat → Prop
  | done {text : List Nat} : OldStream text [] text
  | item {text b text' bs code : List Nat} (hi : OldItem text b text') (hs : OldStream text' bs code) :
      OldStream text (b ++ bs) code

/-- The legacy layout: `:c:\0`, the length of the text, two zero bytes, and the items (which end
where two zero bytes follow). -/
def IsOld (bytes code : List Nat) : Prop :=
  ∃ body, bytes = [0x3a, 0x63, 0x3a, 0x00, code.length / 256, code.length % 256, 0, 0] ++ body ∧
    code.length < 0x10000 ∧ OldStream [] body code

end Verif.CodeFormat
