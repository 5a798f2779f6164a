import Verif.Text
import Verif.Charset
import Verif.Pxa
/-!
Model of `--trace-compression` and `--trace-input-compression` for PICO-8: `CompressionTracer` (pico_compress.py 621-668) as it is called when code is
compressed in the current format (pico_compress.py 428, 556-565).
-/
namespace Verif.Trace

/-- `CompressionTracer.escape` (pico_compress.py 640-643) for a string of PICO-8. -/
def escape (s : List Nat) : List Nat := [34] ++ ((fromP8str false s).flatMap fun c => if c = 34 then [34, 34] else [c]) ++ [34]

/-- `str` of an integer. -/
def intText (v : Int) : List Nat := if v < 0 then 45 :: natDigits v.natAbs else natDigits v.natAbs

/-- The fields `code`, `old_pos` and what was written to `file` (pico_compress.py 623-631). -/
structure Tracer where
  code : List Nat
  oldPos : Int
  file : List Nat

/-- `m.code[-count:]`, which is all of it for 0. -/
def lastOf (code : List Nat) (count : Nat) : List Nat := if count = 0 then code else code.drop (code.length - count)

/-- `CompressionTracer.update` (pico_compress.py 645-665) at the position `pos`; `none` is the `IndexError` of an offset that goes before the start. -/
def update (t : Tracer) (pos : Int) : Item → Option Tracer
  | .mat o c => (copyLoop t.code o c).map fun code =>
      ⟨code, pos, t.file ++ (intText (pos - t.oldPos) ++ [44] ++ escape (lastOf code c) ++ [44] ++ natDigits o ++ [58] ++ natDigits c ++ [10])⟩
  | .str s => some ⟨t.code ++ s, pos, t.file ++ (intText (pos - t.oldPos) ++ [44] ++ escape s ++ [10])⟩

/-- The calls of `update`, each with the item and the position after it. -/
def traceAll (t : Tracer) : List (Item × Int) → Option Tracer
  | [] => some t
  | (it, pos) :: rest => (update t pos it).bind fun t => traceAll t rest

/-- `BinaryBitWriter.bit_position` (utils.py 1292-1294), where the file had `start` bytes before.  (It takes off the bits that are not written to the file
yet, as for a reader, instead of adding them.) -/
def bitPosition (start : Nat) (w : BitWriter) : Int := ((start + w.out.length) * 8 : Nat) - (w.nbits : Int)

/-- `BinaryBitReader.bit_position` (utils.py 1084-1086) for a file of `total` bytes. -/
def readPosition (total : Nat) (r : BitReader) : Int := ((total : Int) - r.src.length) * 8 - r.nbits

/-- The items with the positions when `update` is called (pico_compress.py 556-563). -/
def positions (start : Nat) (w : BitWriter) (mtf : List Nat) : List Item → Option (List (Item × Int))
  | [] => some []
  | it :: its => (writeItem w mtf it).bind fun x => (positions start x.1 x.2 its).map fun r => (it, bitPosition start x.1) :: r

/-- The trace of compressing the items: the text of the file. -/
def trace (start : Nat) (items : List Item) : Option (List Nat) :=
  (positions start BitWriter.init initMtf items).bind fun ps => (traceAll ⟨[], bitPosition start BitWriter.init, []⟩ ps).map (·.file)

end Verif.Trace
