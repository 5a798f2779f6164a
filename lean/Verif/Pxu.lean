import Verif.Binary
import Verif.Num
import Verif.Pxa
/-
Model of the compressed userdata of Picotron (`pxu`, picotron_fs.py 174-265 and 304-381).  Text is a list of character
codes, `none` is an exception.
-/
namespace Verif.Pxu

/-- `UserData` (picotron_fs.py 20-22); the type is its name. -/
structure UD where
  type : List Nat
  width : Int
  height : Int
  data : List Nat
deriving DecidableEq, Repr

/-- `k_pxu_prefix` (picotron_fs.py 175). -/
def sig : List Nat := [0x70, 0x78, 0x75, 0]

/-- The names of the members of `PxuType` (picotron_fs.py 178-181). -/
def nameU8 : List Nat := "u8".toList.map Char.toNat
def nameI16 : List Nat := "i16".toList.map Char.toNat

/-- The number of bytes of an element; `get_pxu_type_info` (picotron_fs.py 183-189) reads and writes them as unsigned
numbers, and gives twice as many nybbles. -/
def typeBytes (type : Nat) : Option Nat := if type = 3 then some 1 else if type = 12 then some 2 else none

/-- `str(type)`. -/
def typeName (type : Nat) : List Nat := if type = 3 then nameU8 else nameI16

/-- `value = read_type()` for an element of `n` bytes. -/
def readElem (n : Nat) (r : List Nat) : Option (Nat × List Nat) := (unpackU false n r).map fun p => (p.1.toNat, p.2)

/-- `[read_type() for _ in range(size)]` (picotron_fs.py 221). -/
def readElems (n : Nat) : Nat → List Nat → Option (List Nat × List Nat)
  | 0, r => some ([], r)
  | k + 1, r => do
    let (v, r) ← readElem n r
    let (vs, r) ← readElems n k r
    return (v :: vs, r)

/-- The loop over the count's extension bytes (picotron_fs.py 250-254). -/
def readExt : List Nat → Option (Nat × List Nat)
  | [] => none
  | c :: r => if c = 0xff then (readExt r).map fun p => (c + p.1, p.2) else some (c, r)

/-- The value of a run, given the index in its first byte (picotron_fs.py 238-246), with the new `mapping` and `mtf`. -/
def readValue (n bits index : Nat) (mapping mtf r : List Nat) : Option (Nat × List Nat × List Nat × List Nat) :=
  let mask := 2 ^ bits - 1
  if index = mask then do
    let (value, r) ← readElem n r
    return (value, if bits ≠ 0 then mapping.set (mtf.getLast?.getD 0) value else mapping, mtf, r)
  else (mapping[index]?).map fun value => (value, mapping, updateMtf mtf (mtf.idxOf index) index, r)

/-- The loop `while len(data) < size` (picotron_fs.py 234-258).  Every round adds at least one element, so that `size`
rounds suffice. -/
def readRuns (n bits size : Nat) : Nat → List Nat → List Nat → List Nat → List Nat → Option (List Nat × List Nat)
  | 0, data, _, _, r => if data.length < size then none else some (data, r)
  | fuel + 1, data, mapping, mtf, r =>
    if data.length < size then
      match r with
      | [] => none
      | b :: r => do
        let (value, mapping, mtf, r) ← readValue n bits (b &&& (2 ^ bits - 1)) mapping mtf r
        let count := 1 + (b >>> bits)
        let (count, r) ← if count = 2 ^ (8 - bits) then (readExt r).map fun p => (count + p.1, p.2) else some (count, r)
        readRuns n bits size fuel (data ++ List.replicate count value) mapping mtf r
    else some (data, r)

/-- `"".join(f"{b:x}".zfill(type_nybbles) for b in data)` (picotron_fs.py 264): elements below `256 ^ n` have at most
`2 * n` digits. -/
def hexText (n : Nat) (data : List Nat) : List Nat := data.flatMap (padDigits 16 (2 * n))

/-- `width` or `height` (picotron_fs.py 213-214). -/
def readSize (long : Bool) (r : List Nat) : Option (Nat × List Nat) := readElem (if long then 4 else 1) r

/-- `read_pxu` (picotron_fs.py 202-265) from the position `idx` on: the userdata and the bytes after it.  A `bits` field
above 8 is an error (`1 << (8 - bits)`), other unusual ones only give warnings. -/
def readPxu (r : List Nat) : Option (UD × List Nat) := do
  let (s, r) ← readBytes 4 false r
  if s ≠ sig then none
  else
    let (flags, r) ← readElem 2 r
    -- `PxuFlags` (196-200) has no other bits
    if flags &&& 0xf84f ≠ flags then none
    else
      let type := flags &&& 0xf
      let compression := flags >>> 12
      let n ← typeBytes type
      let long := flags &&& 0x800 != 0
      let hasHeight := flags &&& 0x40 != 0
      let (width, r) ← readSize long r
      let (height, r) ← if hasHeight then readSize long r else some (1, r)
      let size := width * height
      let (data, r) ←
        if compression = 1 then readElems n size r
        else if compression = 2 ∨ compression = 8 then do
          let (bits, r) ← readElem 1 r
          if 8 < bits then none
          else readRuns n bits size size [] (List.range (2 ^ bits - 1)) (List.range (2 ^ bits - 1)) r
        else none
      return (⟨typeName type, width, if hasHeight then height else 0, hexText n data⟩, r)

/-- The run of elements equal to `value` (picotron_fs.py 355-357): how many, and the rest. -/
def takeRun (value : Nat) : List Nat → Nat × List Nat
  | [] => (0, [])
  | x :: xs => if x = value then ((takeRun value xs).1 + 1, (takeRun value xs).2) else (0, x :: xs)

/-- The count's extension bytes (picotron_fs.py 374-378). -/
def extBytes (count : Nat) : List Nat := if 0xff ≤ count then 0xff :: extBytes (count - 0xff) else [count]
termination_by count
decreasing_by omega

/-- The index of a value, with the new `mapping` and `mtf` (picotron_fs.py 359-367). -/
def findValue (bits value : Nat) (mapping mtf : List Nat) : Nat × List Nat × List Nat :=
  match mapping.idxOf? value with
  | none => (2 ^ bits - 1, if bits ≠ 0 then mapping.set (mtf.getLast?.getD 0) value else mapping, mtf)
  | some index => (index, mapping, updateMtf mtf (mtf.idxOf index) index)

/-- The bytes of one run (picotron_fs.py 369-378); `n` is the number of bytes of an element. -/
def runBytes (n bits index value count : Nat) : Option (List Nat) := do
  let ext := 2 ^ (8 - bits)
  let head ← packU false 1 ((index ||| ((min count ext - 1) <<< bits) : Nat) : Int)
  let elem ← if index = 2 ^ bits - 1 then packU false n value else some []
  return head ++ elem ++ (if ext ≤ count then extBytes (count - ext) else [])

/-- The loop of `write_pxu` (picotron_fs.py 350-378); every round takes at least one element, so that as many rounds as
there are elements suffice. -/
def writeRuns (n bits : Nat) : Nat → List Nat → List Nat → List Nat → Option (List Nat)
  | _, _, _, [] => some []
  | 0, _, _, _ :: _ => none
  | fuel + 1, mapping, mtf, value :: data =>
    let run := takeRun value data
    let found := findValue bits value mapping mtf
    match runBytes n bits found.1 value (run.1 + 1) with
    | none => none
    | some b => (writeRuns n bits fuel found.2.1 found.2.2 run.2).map (b ++ ·)

/-- `int(s, 16)` of hexadecimal digits.  (Python also accepts signs, underscores, spaces and `0x`; those are errors
here.) -/
def parseHex (s : List Nat) : Option Nat := if s = [] then none else (s.mapM hexVal).map (·.foldl (fun a d => a * 16 + d) 0)

/-- The elements of the text (picotron_fs.py 334-339). -/
def parseElems (nybbles : Nat) (s : List Nat) : Option (List Nat) :=
  if h : s = [] ∨ nybbles = 0 then some []
  else do
    let v ← parseHex (s.take nybbles)
    let vs ← parseElems nybbles (s.drop nybbles)
    return v :: vs
termination_by s.length
decreasing_by
  have : s.length ≠ 0 := by simp; exact fun e => h (.inl e)
  simp; omega

/-- The type (picotron_fs.py 309-325): its number, bytes per element, compression and bits; `none` if the userdata is not
compressed. -/
def writeType (type : List Nat) (runtime : Nat) : Option (Nat × Nat × Nat × Nat) :=
  if type = nameU8 then some (3, 1, 2, 4)
  else if type = nameI16 ∧ 21 ≤ runtime then some (12, 2, 8, 0)
  else none

/-- `write_pxu` (picotron_fs.py 304-381); the inner `none` is the result `None`. -/
def writePxu (ud : UD) (runtime : Nat) : Option (Option (List Nat)) :=
  if "hex:".toList.map Char.toNat <+: ud.data then some none
  else
    match writeType ud.type runtime with
    | none => some none
    | some (type, n, compression, bits) => do
      let long := decide (0x100 ≤ ud.width ∨ 0x100 ≤ ud.height)
      let flags := type ||| (compression <<< 12) ||| (if ud.height ≠ 0 then 0x40 else 0) ||| (if long then 0x800 else 0)
      let f ← packU false 2 (flags : Nat)
      let w ← packU false (if long then 4 else 1) ud.width
      let h ← if ud.height ≠ 0 then packU false (if long then 4 else 1) ud.height else some []
      let data ← parseElems (2 * n) ud.data
      let runs ← writeRuns n bits data.length (List.range (2 ^ bits - 1)) (List.range (2 ^ bits - 1)) data
      return some (sig ++ f ++ w ++ h ++ [bits] ++ runs)

end Verif.Pxu
