import Verif.Bits
/-
Model of the current ("PXA") code compression of pico_compress.py.

P8SCII characters are `Nat`s (below 256).  Debug/size handlers are not modelled (they only observe).
-/
namespace Verif

/-- What `get_lz77` yields (pico_compress.py 172-174, 187-189, 330, 402-409): a string (one character: a literal,
otherwise a literal block) or an `Lz77Entry(offset, count)`. -/
inductive Item where
  | str (s : List Nat)
  | mat (offset count : Nat)
deriving Repr, DecidableEq

/-- pico_compress.py 38-39. -/
def newHeader : List Nat := [0x00, 0x70, 0x78, 0x61]
def oldHeader : List Nat := [0x3a, 0x63, 0x3a, 0x00]

/-- pico_compress.py 58 / 429: `[chr(i) for i in range(0x100)]`. -/
def initMtf : List Nat := List.range 256

/-- The loop of `update_mtf` (pico_compress.py 42-43): for ii = idx .. 1: `mtf[ii] = mtf[ii-1]`.
(`getD` never falls back to the default for `idx < len(mtf)`, the only case in which it is called.) -/
def updateMtfLoop : Nat → List Nat → List Nat
  | 0, mtf => mtf
  | ii + 1, mtf => updateMtfLoop ii (mtf.set (ii + 1) (mtf.getD ii 0))

/-- `update_mtf` (pico_compress.py 41-44). -/
def updateMtf (mtf : List Nat) (idx ch : Nat) : List Nat :=
  (updateMtfLoop idx mtf).set 0 ch

/-- utils.py 2572-2574 `make_mask`. -/
def makeMask (pos size : Nat) : Nat := ((1 <<< size) - 1) <<< pos

/-- utils.py 2606-2610 `round_up` (b > 0 asserted; only used with b = 5). -/
def roundUp (a b : Nat) : Nat := if a % b ≠ 0 then a + (b - a % b) else a

/-- utils.py 2550-2553 `count_significant_bits` (`int.bit_length`). -/
def bitLength (a : Nat) : Nat := if a = 0 then 0 else Nat.log2 a + 1

/-- pico_compress.py 511: `offset_bits`. -/
def offsetBits (offsetVal : Nat) : Nat := max (roundUp (bitLength offsetVal) 5) 5

/-- The count loop of `write_match` (pico_compress.py 518-521). -/
def writeCount (w : BitWriter) (countVal : Nat) : BitWriter :=
  if countVal ≥ 7 then writeCount (w.writeBits 3 7) (countVal - 7)
  else w.writeBits 3 countVal
termination_by countVal

/-- `write_match` (pico_compress.py 506-521); `none` when `assert offset_bits in (5, 10, 15)` fails or the
offset/count is below its minimum (negative values in Python: `bits` would then be called with a negative
value, which corrupts or raises – treated as failure). -/
def writeMatch (w : BitWriter) (offset count : Nat) : Option BitWriter :=
  if offset < 1 ∨ count < 3 then none else
  let offsetVal := offset - 1
  let countVal := count - 3
  let ob := offsetBits offsetVal
  if ob = 5 ∨ ob = 10 ∨ ob = 15 then
    let w := w.writeBit false
    let w := w.writeBit (decide (ob < 15))
    let w := if ob < 15 then w.writeBit (decide (ob < 10)) else w
    let w := w.writeBits ob offsetVal
    some (writeCount w countVal)
  else none

/-- The prefix loop of `write_literal` (pico_compress.py 527-535). -/
def writeIdx (w : BitWriter) (iVal iBits : Nat) : BitWriter :=
  if iVal ≥ 1 <<< iBits then writeIdx (w.writeBit true) (iVal - 1 <<< iBits) (iBits + 1)
  else (w.writeBit false).writeBits iBits iVal
termination_by iVal
decreasing_by
  rw [Nat.shiftLeft_eq] at *
  have := Nat.two_pow_pos iBits
  omega

/-- `write_literal` (pico_compress.py 523-537); `none` is the `ValueError` of `mtf.index`. -/
def writeLiteral (w : BitWriter) (mtf : List Nat) (ch : Nat) : Option (BitWriter × List Nat) :=
  match mtf.idxOf? ch with
  | none => none
  | some chI => some (writeIdx (w.writeBit true) chI 4, updateMtf mtf chI ch)

/-- The character loop of `write_litblock` (pico_compress.py 543-544). -/
def writeChars (w : BitWriter) : List Nat → BitWriter
  | [] => w
  | c :: cs => writeChars (w.writeBits 8 c) cs

/-- `write_litblock` (pico_compress.py 539-545). -/
def writeLitblock (w : BitWriter) (s : List Nat) : BitWriter :=
  let w := ((w.writeBit false).writeBit true).writeBit false
  let w := w.writeBits 10 0
  (writeChars w s).writeBits 8 0

/-- One iteration of the item loop (pico_compress.py 556-562). -/
def writeItem (w : BitWriter) (mtf : List Nat) : Item → Option (BitWriter × List Nat)
  | .mat o c => (writeMatch w o c).map (·, mtf)
  | .str [c] => writeLiteral w mtf c
  | .str s => some (writeLitblock w s, mtf)

/-- The item loop (pico_compress.py 556-562). -/
def writeItems (w : BitWriter) (mtf : List Nat) : List Item → Option BitWriter
  | [] => some w
  | it :: its =>
    match writeItem w mtf it with
    | none => none
    | some (w, mtf) => writeItems w mtf its

/-- Big-endian `u16` (utils.py `BinaryWriter.u16` with `big_end=True`, as used by pico_cart.py 129). -/
def be16 (n : Nat) : List Nat := [n / 256 % 256, n % 256]

/-- The PXA branch of `compress_code` (pico_compress.py 418-423, 425-429, 556-566, 606-616) given the items:
header, code length, size, bit stream.  With `failOnError` the two size checks (610-612) apply. -/
def compressNew (codeLen : Nat) (items : List Item) (failOnError : Bool) : Option (List Nat) :=
  match writeItems BitWriter.init initMtf items with
  | none => none
  | some w =>
    let body := w.flush
    let size := 8 + body.length
    if failOnError && (decide (codeLen ≥ 0x10000) || decide (size > 0x3d00)) then none
    else some (newHeader ++ be16 (codeLen % 0x10000) ++ be16 (size % 0x10000) ++ body)

/-! ### Reader -/

/-- pico_compress.py 65-67: `extra = 0; while br.bit(): extra += 1`. -/
def readExtra (r : BitReader) (extra : Nat) : Option (Nat × BitReader) :=
  match h : r.readBit with
  | none => none
  | some (true, r') => readExtra r' (extra + 1)
  | some (false, r') => some (extra, r')
termination_by r.avail
decreasing_by have := BitReader.readBit_avail h; omega

/-- pico_compress.py 81-86: literal block characters up to the NUL. -/
def readBlock (r : BitReader) (code : List Nat) : Option (List Nat × BitReader) :=
  match h : r.readBits 8 with
  | none => none
  | some (ch, r') => if ch ≠ 0 then readBlock r' (code ++ [ch]) else some (code, r')
termination_by r.avail
decreasing_by have := BitReader.readBits_avail h; omega

/-- pico_compress.py 90-95: the count loop. -/
def readCount (r : BitReader) (count : Nat) : Option (Nat × BitReader) :=
  match h : r.readBits 3 with
  | none => none
  | some (part, r') => if part ≠ 7 then some (count + part, r') else readCount r' (count + part)
termination_by r.avail
decreasing_by have := BitReader.readBits_avail h; omega

/-- `for _ in range(count): code.append(code[-offset])` (pico_compress.py 98-99, 131-132);
`none` is the `IndexError` when `offset > len(code)`.  (`code[-0]` is `code[0]`, offset 0 does not occur in the PXA
branch; in the old branch it is excluded by `assert count <= offset`.) -/
def copyLoop (code : List Nat) (offset : Nat) : Nat → Option (List Nat)
  | 0 => some code
  | n + 1 =>
    if offset ≤ code.length then
      match code[code.length - offset]? with
      | none => none
      | some c => copyLoop (code ++ [c]) offset n
    else none

/-- pico_compress.py 75: `offlen = (5 if br.bit() else 10) if br.bit() else 15`. -/
def readOfflen (r : BitReader) : Option (Nat × BitReader) :=
  match r.readBit with
  | none => none
  | some (false, r) => some (15, r)
  | some (true, r) =>
    match r.readBit with
    | none => none
    | some (b, r) => some (if b then 5 else 10, r)

/-- One iteration of the decoder loop (pico_compress.py 64-99). -/
def readItem (r : BitReader) (mtf code : List Nat) : Option (BitReader × List Nat × List Nat) :=
  match r.readBit with
  | none => none
  | some (true, r) =>
    match readExtra r 0 with
    | none => none
    | some (extra, r) =>
      match r.readBits (4 + extra) with
      | none => none
      | some (v, r) =>
        let idx := v + makeMask 4 extra
        match mtf[idx]? with
        | none => none
        | some ch => some (r, updateMtf mtf idx ch, code ++ [ch])
  | some (false, r) =>
    match readOfflen r with
    | none => none
    | some (offlen, r) =>
      match r.readBits offlen with
      | none => none
      | some (v, r) =>
        let offset := v + 1
        if offset = 1 ∧ offlen ≠ 5 then
          if offlen = 10 then
            match readBlock r code with
            | none => none
            | some (code, r) => some (r, mtf, code)
          else none
        else
          match readCount r 3 with
          | none => none
          | some (count, r) =>
            match copyLoop code offset count with
            | none => none
            | some code => some (r, mtf, code)

theorem readExtra_avail (r : BitReader) (e : Nat) {x : Nat} {r' : BitReader} :
    readExtra r e = some (x, r') → r'.avail < r.avail := by
  fun_induction readExtra r e with
  | case1 => simp
  | case2 r e r1 h ih =>
    intro h2; have := ih h2; have := BitReader.readBit_avail h; omega
  | case3 r e r1 h => intro h2; simp at h2; have := BitReader.readBit_avail h; rw [← h2.2]; omega

theorem readBlock_avail (r : BitReader) (c : List Nat) {x : List Nat} {r' : BitReader} :
    readBlock r c = some (x, r') → r'.avail < r.avail := by
  fun_induction readBlock r c with
  | case1 => simp
  | case2 r c ch r1 h hc ih =>
    intro h2; have := ih h2; have := BitReader.readBits_avail h; omega
  | case3 r c ch r1 h hc => intro h2; simp at h2; have := BitReader.readBits_avail h; rw [← h2.2]; omega

theorem readCount_avail (r : BitReader) (c : Nat) {x : Nat} {r' : BitReader} :
    readCount r c = some (x, r') → r'.avail < r.avail := by
  fun_induction readCount r c with
  | case1 => simp
  | case2 r c p r1 h hc => intro h2; simp at h2; have := BitReader.readBits_avail h; rw [← h2.2]; omega
  | case3 r c p r1 h hc ih =>
    intro h2; have := ih h2; have := BitReader.readBits_avail h; omega

theorem readItem_avail {r : BitReader} {mtf code : List Nat} {r' : BitReader} {m' c' : List Nat}
    (h : readItem r mtf code = some (r', m', c')) : r'.avail < r.avail := by
  unfold readItem at h
  split at h
  · simp at h
  · rename_i r1 h1
    have a1 := BitReader.readBit_avail h1
    split at h
    · simp at h
    · rename_i extra r2 h2
      have a2 := readExtra_avail _ _ h2
      split at h
      · simp at h
      · rename_i v r3 h3
        have a3 := BitReader.readBits_avail h3
        simp only at h
        split at h
        · simp at h
        · simp at h; rw [← h.1]; omega
  · rename_i r1 h1
    have a1 := BitReader.readBit_avail h1
    split at h
    · simp at h
    · rename_i offlen r2 h2
      have a2 : r2.avail < r1.avail := by
        unfold readOfflen at h2
        split at h2
        · simp at h2
        · rename_i r3 h3; simp at h2; have := BitReader.readBit_avail h3; rw [← h2.2]; omega
        · rename_i r3 h3
          have := BitReader.readBit_avail h3
          split at h2
          · simp at h2
          · rename_i r4 h4; simp at h2; have := BitReader.readBit_avail h4; rw [← h2.2]; omega
      split at h
      · simp at h
      · rename_i v r3 h3
        have a3 := BitReader.readBits_avail h3
        simp only at h
        split at h
        · split at h
          · split at h
            · simp at h
            · rename_i c4 r4 h4
              have a4 := readBlock_avail _ _ h4
              simp at h; rw [← h.1]; omega
          · simp at h
        · split at h
          · simp at h
          · rename_i c4 r4 h4
            have a4 := readCount_avail _ _ h4
            split at h
            · simp at h
            · simp at h; rw [← h.1]; omega

/-- The decoder loop `while len(code) < unc_size` (pico_compress.py 63-99). -/
def readItems (r : BitReader) (mtf code : List Nat) (uncSize : Nat) : Option (List Nat × BitReader) :=
  if code.length < uncSize then
    match h : readItem r mtf code with
    | none => none
    | some (r', mtf', code') => readItems r' mtf' code' uncSize
  else some (code, r)
termination_by r.avail
decreasing_by exact readItem_avail h

/-- Big-endian u16 read of the first two bytes; `none` at end of file. -/
def readBe16 : List Nat → Option (Nat × List Nat)
  | a :: b :: rest => some (a * 256 + b, rest)
  | _ => none

/-- The PXA branch of `uncompress_code` after the header (pico_compress.py 50-103).  `src` starts after the 4
header bytes; returns the code and the unread bytes.  The two asserts (102-103) are checks. -/
def uncompressNew (src : List Nat) : Option (List Nat × List Nat) :=
  match readBe16 src with
  | none => none
  | some (uncSize, src1) =>
    match readBe16 src1 with
    | none => none
    | some (comSize, src2) =>
      match readItems (BitReader.init src2) initMtf [] uncSize with
      | none => none
      | some (code, r) =>
        if 4 + (src.length - r.src.length) = comSize ∧ code.length = uncSize then some (code, r.src) else none

end Verif
