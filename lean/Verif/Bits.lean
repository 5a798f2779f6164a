/-
Model of the little-endian bit streams of utils.py (BinaryBitWriter / BinaryBitReader, big_end = False).

Bytes are `Nat`s (below 256), the underlying file is the list of bytes already written
(writer) or still to be read (reader).
-/
namespace Verif

/-- `BinaryBitWriter` (utils.py 1283-1350, `big_end = False`): the bytes already sent to the file, and the
pending bits `_bits` / `_nbits`. -/
structure BitWriter where
  out : List Nat
  bits : Nat
  nbits : Nat
deriving Repr, DecidableEq

/-- utils.py 1286-1290 `__init__`. -/
def BitWriter.init : BitWriter := ⟨[], 0, 0⟩

/-- utils.py 1299-1302 `_remove_bits_le` inside the `while m._nbits >= 8` loop of `_bits_le` (1308-1309). -/
def BitWriter.drain (w : BitWriter) : BitWriter :=
  if w.nbits ≥ 8 then
    BitWriter.drain ⟨w.out ++ [w.bits &&& 0xff], w.bits >>> 8, w.nbits - 8⟩
  else w
termination_by w.nbits
decreasing_by omega

/-- utils.py 1304-1309 `_bits_le` (reached from `bits`, 1325-1329). -/
def BitWriter.writeBits (w : BitWriter) (n v : Nat) : BitWriter :=
  BitWriter.drain ⟨w.out, w.bits ||| (v <<< w.nbits), w.nbits + n⟩

/-- utils.py 1331-1332 `bit`; a Python bool counts as 0/1. -/
def BitWriter.writeBit (w : BitWriter) (b : Bool) : BitWriter := w.writeBits 1 b.toNat

/-- utils.py 1338-1341 `_flush_le`; returns the bytes of the file afterwards. -/
def BitWriter.flush (w : BitWriter) : List Nat :=
  if w.nbits ≠ 0 then w.out ++ [w.bits &&& 0xff] else w.out

/-- `BinaryBitReader` (utils.py 1075-1163, `big_end = False`): unread bytes of the file and buffered bits. -/
structure BitReader where
  src : List Nat
  bits : Nat
  nbits : Nat
deriving Repr, DecidableEq

/-- utils.py 1078-1082 `__init__`. -/
def BitReader.init (src : List Nat) : BitReader := ⟨src, 0, 0⟩

/-- Number of bits that can still be read (used as termination measure). -/
def BitReader.avail (r : BitReader) : Nat := r.nbits + 8 * r.src.length

/-- utils.py 1092-1098 `_add_bits_le(strict=True)` inside the `while m._nbits < n` loop of `_bits_le`
(1100-1102).  `none` is the "end of file" `struct.error`. -/
def BitReader.fill (r : BitReader) (n : Nat) : Option BitReader :=
  if r.nbits < n then
    match r.src with
    | [] => none
    | b :: rest => BitReader.fill ⟨rest, r.bits ||| (b <<< r.nbits), r.nbits + 8⟩ n
  else some r
termination_by n - r.nbits
decreasing_by omega

/-- utils.py 1100-1108 `_bits_le(n, advance=True)`, the `bits` method (1127-1128). -/
def BitReader.readBits (r : BitReader) (n : Nat) : Option (Nat × BitReader) :=
  match r.fill n with
  | none => none
  | some r => some (r.bits &&& ((1 <<< n) - 1), ⟨r.src, r.bits >>> n, r.nbits - n⟩)

/-- utils.py 1130-1131 `bit`. -/
def BitReader.readBit (r : BitReader) : Option (Bool × BitReader) :=
  match r.readBits 1 with
  | none => none
  | some (v, r) => some (v != 0, r)

theorem BitReader.fill_avail (r : BitReader) (n : Nat) {r' : BitReader} :
    r.fill n = some r' → r'.avail = r.avail ∧ n ≤ r'.nbits := by
  fun_induction BitReader.fill r n with
  | case1 => simp
  | case2 r h b rest hs ih =>
    intro h2
    have := ih h2
    simp [BitReader.avail, hs] at this ⊢
    omega
  | case3 r h => intro h2; simp at h2; subst h2; simp; omega

theorem BitReader.readBits_avail {r : BitReader} {n : Nat} {v : Nat} {r' : BitReader}
    (h : r.readBits n = some (v, r')) : r'.avail + n = r.avail := by
  unfold BitReader.readBits at h
  split at h
  · simp at h
  · rename_i r1 hf
    have := r.fill_avail n hf
    simp at h
    rw [← h.2]
    simp [BitReader.avail] at this ⊢
    omega

theorem BitReader.readBit_avail {r : BitReader} {v : Bool} {r' : BitReader}
    (h : r.readBit = some (v, r')) : r'.avail + 1 = r.avail := by
  unfold BitReader.readBit at h
  split at h
  · simp at h
  · rename_i v1 r1 hr
    simp at h
    rw [← h.2]
    exact BitReader.readBits_avail hr

end Verif
