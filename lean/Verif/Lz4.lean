import Verif.Lz77
/-
Model of the LZ4 reader and writer (pico_export.py 447-570), which PICO-8 pods and Picotron cartridges and files use.
Bytes are numbers; `none` is an exception.  The `debug` hooks are not modelled.
-/
namespace Verif.Lz4

/-- `read_u8_sum` (pico_export.py 448-454): `none` is the error of reading past the end. -/
def readSum : List Nat → Option (Nat × List Nat)
  | [] => none
  | v :: r =>
    if v ≠ 0xff then some (v, r)
    else
      match readSum r with
      | none => none
      | some (s, r) => some (0xff + s, r)

/-- A length with its extension: `if n == full: n += read_u8_sum(r)` (pico_export.py 462-464 and 472-474). -/
def readLen (full n : Nat) (r : List Nat) : Option (Nat × List Nat) :=
  if n = full then
    match readSum r with
    | none => none
    | some (s, r) => some (n + s, r)
  else some (n, r)

/-- `uncdata[-offset]` (pico_export.py 477): `uncdata[-0]` is the first byte; `none` is the `IndexError`. -/
def backByte (text : List Nat) (offset : Nat) : Option Nat :=
  if offset = 0 then text[0]? else if offset ≤ text.length then text[text.length - offset]? else none

/-- `for i in range(count): uncdata.append(uncdata[-offset])` (pico_export.py 476-477). -/
def copyBack (text : List Nat) (offset : Nat) : Nat → Option (List Nat)
  | 0 => some text
  | n + 1 =>
    match backByte text offset with
    | none => none
    | some b => copyBack (text ++ [b]) offset n

/-- The `count` part of an iteration (pico_export.py 470-478), given what follows the literals; the little-endian `u16`
fails if less than two bytes remain. -/
def readMatch (header : Nat) (text : List Nat) : List Nat → Option (List Nat × List Nat)
  | lo :: hi :: r =>
    match readLen 0x13 (4 + (header &&& 0xf)) r with
    | none => none
    | some (count, r) =>
      match copyBack text (lo + 256 * hi) count with
      | none => none
      | some text => some (text, r)
  | _ => none

/-- The loop of `lz4_uncompress` (pico_export.py 460-478).  Every iteration consumes at least the header, so the number
of bytes bounds the number of iterations. -/
def readLoop : Nat → List Nat → List Nat → Option (List Nat)
  | _, [], text => some text
  | 0, _ :: _, _ => none
  | fuel + 1, header :: r, text =>
    match readLen 0xf (header >>> 4) r with
    | none => none
    | some (size, r) =>
      if r.length < size then none
      else
        let text := text ++ r.take size
        if (r.drop size).isEmpty then some text
        else
          match readMatch header text (r.drop size) with
          | none => none
          | some (text, r) => readLoop fuel r text

/-- `lz4_uncompress` (pico_export.py 447-481). -/
def uncompress (data : List Nat) : Option (List Nat) := readLoop data.length data []

/-- `write_u8_sum` (pico_export.py 490-496). -/
def writeSum (v : Nat) : List Nat :=
  let byte := min v 0xff
  if h : byte ≠ 0xff then [byte] else byte :: writeSum (v - byte)
termination_by v
decreasing_by simp only [byte] at *; omega

/-- `write_block` (pico_export.py 498-519); `none` is the error of packing an offset that does not fit 16 bits. -/
def writeBlock (lits : List Nat) (item : Option (Nat × Nat)) : Option (List Nat) :=
  let size := lits.length
  let count := match item with | some (_, c) => c - 4 | none => 0
  let head := (min count 0xf ||| (min size 0xf <<< 4)) :: ((if size ≥ 0xf then writeSum (size - 0xf) else []) ++ lits)
  match item with
  | none => some head
  | some (offset, _) =>
    if offset < 0x10000 then
      some (head ++ ([offset % 256, offset / 256] ++ if count ≥ 0xf then writeSum (count - 0xf) else []))
    else none

/-- The state of the writer: the pending `literals` and the bytes written (pico_export.py 484-487). -/
structure WState where
  lits : List Nat
  out : List Nat

/-- `write_block(item)`, which also clears the literals (pico_export.py 498-519). -/
def emit (s : WState) (item : Option (Nat × Nat)) (lits : List Nat) : Option WState :=
  match writeBlock s.lits item with
  | none => none
  | some b => some ⟨lits, s.out ++ b⟩

/-- One round of the loop over the items (pico_export.py 555-569).  `i < len - 12` and `i + count <= len - 5` are written
without subtraction, as Python's integers may be negative.  `none` is the assertion or an error of `write_block`. -/
def writeItem (data : List Nat) (s : WState) (x : Nat × Item) : Option WState :=
  match x.2 with
  | .mat offset count =>
    if x.1 + 12 < data.length then
      if x.1 + count + 5 ≤ data.length then emit s (some (offset, count)) []
      else if data.length - 5 - x.1 ≥ 4 then
        emit s (some (offset, data.length - 5 - x.1))
          (slice data (data.length - 5) (x.1 + count - (data.length - 5)))
      else none
    else some { s with lits := s.lits ++ slice data x.1 count }
  | .str l => some { s with lits := s.lits ++ l }

/-- The loop over the items. -/
def writeItems (data : List Nat) : WState → List (Nat × Item) → Option WState
  | s, [] => some s
  | s, x :: xs =>
    match writeItem data s x with
    | none => none
    | some s => writeItems data s xs

/-- `len(literals)` when the generator is at work: the consumer has handled the items yielded so far (pico_export.py
522). -/
def pending (data : List Nat) (out : List (Nat × Item)) : Nat :=
  match writeItems data ⟨[], []⟩ out with
  | some s => s.lits.length
  | none => 0

/-- `measure` (pico_export.py 521-535). -/
def measure (data : List Nat) (out : List (Nat × Item)) (ctxt : Option Nat) : Item → Int × Option Nat
  | .mat _ count => (3 + (((count : Int) - 4 + 0xf0) / 0xff), some 0)
  | .str _ =>
    let n := (match ctxt with | some n => n | none => pending data out) + 1
    (if (n + 0xf0) % 0xff = 0 then 2 else 1, some n)

/-- `get_cheaper_c` (pico_export.py 537-538) with `round_down` (utils.py 2601-2604); only called with `c ≥ 4`; a negative
result is 0 here, which is below the least count all the same. -/
def cheaperC (c : Nat) : Nat := (c - 4 + 0xf0) / 0xff * 0xff + 4 - (1 + 0xf0)

/-- `min_cost` (pico_export.py 540-543). -/
def minCost (dist : Nat) : Int := max (((dist : Int) - 4 + 0xf0) / 0xff - 1) 0

/-- The calls of `get_lz77` (pico_export.py 549-553). -/
def params (fast : Bool) (data : List Nat) : LzParams Nat :=
  { minC := 4, maxC := none, maxO := some 0xffff,
    measure := if fast then none else some (measure data),
    minCost := if fast then none else some minCost,
    cheaperC := if fast then none else some cheaperC,
    maxOSteps := [], fastC := none, noRepeat := false }

/-- `lz4_compress` (pico_export.py 483-573). -/
def compress (fast : Bool) (data : List Nat) : Option (List Nat) :=
  match getLz77 (params fast data) data [] with
  | none => none
  | some items =>
    match writeItems data ⟨[], []⟩ items with
    | none => none
    | some s =>
      match emit s none [] with
      | none => none
      | some s => some s.out

end Verif.Lz4
