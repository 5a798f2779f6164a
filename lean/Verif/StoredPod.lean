import Verif.PodText
import Verif.PtFile
import Verif.LuaStr
import Verif.Lz4
import Verif.Url
import Verif.P64
/-
Model of Picotron's pods as they are stored: `write_pod` and `read_pod` (picotron_fs.py 267-302, 383-421), which put the readable form
(`Verif.PodText`), the compressed userdata (`Verif.Pxu`), LZ4 (`Verif.Lz4`) and base64 (`Verif.Url`) together, and the pods of metadata:
`format_meta_pod`, `parse_meta_pod` (picotron_fs.py 105-111, 160-172).

Bytes and text are lists of numbers; `none` is any exception.
-/
namespace Verif.Stored
open Verif.Pxu (UD writePxu readPxu sig)
open Verif.PodText
open Verif.LuaStr (encode decode)

variable {F : Type} [DecidableEq F]

/-- The options of `write_pod` (picotron_fs.py 383). -/
structure Opts where
  compress : Bool := true
  usePxu : Bool := true
  useBase64 : Bool := false
  runtime : Nat

/-- `k_lz4_prefix` and `k_b64_prefix` (picotron_fs.py 174-176). -/
def lz4Prefix : List Nat := [0x6c, 0x7a, 0x34, 0]
def b64Prefix : List Nat := [0x62, 0x36, 0x34, 0x3a]

mutual
/-- The userdata of a pod, in the order in which `format_pod` gets to them. -/
def udsVal : Val F → List UD
  | .ud u => [u]
  | .table items => udsItems items
  | _ => []
def udsItems : Items F → List UD
  | .nil => []
  | .cons _ v r => udsVal v ++ udsItems r
end

/-- `handle_userdata` (picotron_fs.py 387-394): the bytes that the userdata is replaced with, if it is. -/
def handle (o : Opts) (isDig : Nat → Bool) (u : UD) : Option (Option (List Nat)) :=
  if o.usePxu then (writePxu u o.runtime).map fun d => d.filter fun d => decide (d.length < (fmtUd (fmtStr isDig) u).length)
  else some none

/-- The placeholder (picotron_fs.py 133-134). -/
def placeholder (o : Opts) (isDig : Nat → Bool) (u : UD) : Option (List Nat) :=
  match handle o isDig u with
  | some (some _) => some [0]
  | _ => none

/-- The loop that puts the bytes in place of the placeholders (picotron_fs.py 398-405).  `str_replace_at`: utils.py 1486-1488. -/
def splice : List (List Nat) → Nat → List Nat → Option (List Nat)
  | [], _, value => some value
  | d :: ds, i, value => (findFrom [0] value i).bind fun j => splice ds (j + d.length) (value.take j ++ d ++ value.drop (j + 1))

/-- picotron_fs.py 407-416. -/
def packLz4 (value : List Nat) : Option (List Nat) := do
  let c ← Lz4.compress false value
  let n ← packU false 4 (c.length : Int)
  let m ← packU false 4 (value.length : Int)
  let packed := lz4Prefix ++ n ++ m ++ c
  return if packed.length < value.length then packed else value

/-- `write_pod` (picotron_fs.py 383-421). -/
def writePod (fl : Floats F) (isDig : Nat → Bool) (o : Opts) (pod : Val F) : Option (List Nat) := do
  let ds ← (udsVal pod).mapM (handle o isDig)
  let value ← encode (fmtVal fl (fmtStr isDig) (placeholder o isDig) pod)
  let value ← splice (ds.filterMap id) 0 value
  let value ← if o.compress then packLz4 value else some value
  return if o.useBase64 then b64Prefix ++ b64Encode value else value

/-- picotron_fs.py 273-284.  A wrong uncompressed size only gives a warning. -/
def unpackLz4 (value : List Nat) : Option (List Nat) := do
  let (size, r) ← unpackU false 4 (value.drop 4)
  let (_, r) ← unpackU false 4 r
  let size := size.toNat
  if r.length < size then Lz4.uncompress (r ++ List.replicate (size - r.length) 125)
  else Lz4.uncompress (r.take size)

/-- The loop that takes the compressed userdata out (picotron_fs.py 286-296): the userdata in order, and the text that remains.  Every round
takes at least the four bytes of the signature from the bytes behind the position, so that as many rounds as there are bytes suffice. -/
def unsplice : Nat → Nat → List Nat → Option (List UD × List Nat)
  | 0, _, value => some ([], value)
  | fuel + 1, i, value =>
    match findFrom sig value i with
    | none => some ([], value)
    | some j => (readPxu (value.drop j)).bind fun (u, rest) =>
        (unsplice fuel j (value.take j ++ txt "userdata()" ++ rest)).map fun (us, value) => (u :: us, value)

/-- `read_pod` (picotron_fs.py 267-302).  `depth` bounds the calls within calls that `unpod` makes (Python's limit on recursion).
Simplified: as in `P64.b64DecodeLenient`, more characters after the padding of base64 are an error here. -/
def readPod (fl : Floats F) : Nat → List Nat → Option (Val F)
  | 0, _ => none
  | depth + 1, value => do
    let value ← if b64Prefix.isPrefixOf value then P64.b64DecodeLenient (value.drop 4) else some value
    let value ← if lz4Prefix.isPrefixOf value then unpackLz4 value else some value
    let (uds, value) ← unsplice value.length 0 value
    parsePod fl (fun s => (encode s).bind (readPod fl depth)) uds (decode value)

/-! ### Metadata -/

/-- `value[key]` for a text, `none` if it is not there. -/
def lookupItem (key : List Nat) : Items F → Option (Val F)
  | .nil => none
  | .cons k v r => if k = .str key then some v else lookupItem key r

/-- `del value[key]`. -/
def eraseItem (key : List Nat) : Items F → Items F
  | .nil => .nil
  | .cons k v r => if k = .str key then r else .cons k v (eraseItem key r)

/-- The prefix and the remaining entries (picotron_fs.py 162-170). -/
def metaSplit (fl : Floats F) (isDig : Nat → Bool) (t : Items F) : List Nat × Items F :=
  match lookupItem (txt "pod_format") t with
  | some v => (txt "pod_format" ++ [61] ++ formatPod fl isDig v, eraseItem (txt "pod_format") t)
  | none =>
    match lookupItem (txt "pod_type") t with
    | some v => (txt "pod_type" ++ [61] ++ formatPod fl isDig v, eraseItem (txt "pod_type") t)
    | none => (txt "pod", t)

/-- `format_meta_pod` (picotron_fs.py 160-172). -/
def formatMeta (fl : Floats F) (isDig : Nat → Bool) (t : Items F) : Option (List Nat) :=
  let (pre, t) := metaSplit fl isDig t
  -- format_pod(value)[1:-1]
  let rest := ((formatPod fl isDig (.table t)).drop 1).dropLast
  PtFile.escapeMeta (if rest = [] then pre else pre ++ [44] ++ rest)

/-- `parse_meta_pod` (picotron_fs.py 105-111); `str_remove_prefix`: utils.py 1517-1521. -/
def parseMeta (fl : Floats F) (up : Unpod F) (s : List Nat) : Option (Val F) :=
  if s = txt "pod" then some (.table .nil)
  else
    let s := if (txt "pod,").isPrefixOf s then s.drop 4 else s
    parsePod fl up [] ([123] ++ s ++ [125])

/-- The setter of `metadata` (picotron_fs.py 478-485) writes these bytes, and the getter (468-476) reads them. -/
def writeMeta (fl : Floats F) (isDig : Nat → Bool) (t : Items F) : Option (List Nat) := (formatMeta fl isDig t).bind encode
def readMeta (fl : Floats F) (depth : Nat) (b : List Nat) : Option (Val F) :=
  parseMeta fl (fun s => (encode s).bind (readPod fl depth)) (decode b)

end Verif.Stored
