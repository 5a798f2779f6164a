import Verif.Find
/-
Model of the files of a Picotron cart (`PicotronFile`, picotron_fs.py 423-536): data with optional metadata in front, and
the caches of the parsed forms.

The formats of metadata and of pods (format_meta_pod, parse_meta_pod, write_pod, read_pod) are parameters (`Codec`); `none`
is an exception.  Bytes are a list of numbers.
-/
namespace Verif.PtFile

/-- `bytes(s)` of an ASCII text. -/
abbrev asc (s : String) : List Nat := s.toList.map Char.toNat

/-- `k_meta_prefix`, `k_meta_pod_prefix`, `k_meta_pod_raw_prefix` and `k_meta_suffix` (picotron_fs.py 9-18). -/
def metaPrefix : List Nat := asc "--[["
def podPrefix : List Nat := asc "--[[pod"
def rawPrefix : List Nat := asc "--[[pod_format=\"raw\""
def metaSuffix : List Nat := asc "]]"

/-- `data.startswith(p)`. -/
def starts (p s : List Nat) : Bool := p.isPrefixOf s

/-- The formats of metadata (values of type `M`) and of pods (values of type `P`). -/
structure Codec (M P : Type) where
  fmtMeta : M → List Nat
  parseMeta : List Nat → Option M
  writePod : P → List Nat
  readPod : List Nat → Option P

/-- `PicotronFile` (picotron_fs.py 426-431) for files; directories have no data and their setters fail. -/
structure File (M P : Type) where
  data : List Nat
  metaCache : Option M := none
  payCache : Option P := none

variable {M P : Type}

/-- `is_raw` (picotron_fs.py 444-447). -/
def isRaw (data : List Nat) : Bool := !starts podPrefix data || starts rawPrefix data

/-- `raw_metadata` (picotron_fs.py 449-457). -/
def rawMeta (data : List Nat) : Option (List Nat) :=
  if !starts podPrefix data then none
  else some (match findSub metaSuffix data with
    | some i => (data.take i).drop 4
    | none => data.drop 4)

/-- `raw_payload` (picotron_fs.py 485-495). -/
def rawPayload (data : List Nat) : List Nat :=
  if !starts podPrefix data then data
  else match findSub metaSuffix data with
    | some i => data.drop (i + 2)
    | none => []

/-- The setter of `raw_metadata` (picotron_fs.py 459-466). -/
def setRawMeta (f : File M P) (value : Option (List Nat)) : File M P :=
  { f with
    metaCache := none
    data := match value with
      | none => rawPayload f.data
      | some v => metaPrefix ++ v ++ metaSuffix ++ rawPayload f.data }

/-- `metadata` (picotron_fs.py 468-476): `some none` is the result `None`. -/
def getMeta (c : Codec M P) (f : File M P) : Option (Option M) :=
  match f.metaCache with
  | some v => some (some v)
  | none =>
    match rawMeta f.data with
    | none => some none
    | some b => (c.parseMeta b).map some

/-- The setter of `metadata` (picotron_fs.py 478-485). -/
def setMeta (c : Codec M P) (f : File M P) (value : Option M) : File M P :=
  match value with
  | none => setRawMeta f none
  | some v => { setRawMeta f (some (c.fmtMeta v)) with metaCache := some v }

/-- The setter of `raw_payload` (picotron_fs.py 497-505). -/
def setRawPayload (f : File M P) (value : List Nat) : File M P :=
  { f with
    payCache := none
    data := match rawMeta f.data with
      | some b => metaPrefix ++ b ++ metaSuffix ++ value
      | none => value }

/-- The value of a payload: bytes if raw, else a pod. -/
inductive Value (P : Type) where
  | bytes (b : List Nat)
  | pod (p : P)
deriving DecidableEq

/-- `payload` (picotron_fs.py 507-515). -/
def getPayload (c : Codec M P) (f : File M P) : Option (Value P) :=
  match f.payCache with
  | some v => some (.pod v)
  | none => if isRaw f.data then some (.bytes (rawPayload f.data)) else (c.readPod (rawPayload f.data)).map .pod

/-- `set_payload` (picotron_fs.py 521-526).  A pod cannot be stored in a raw file (bytes and pod cannot be joined; without
metadata the source would store the object itself), and bytes are not a pod (`format_pod` throws). -/
def setPayload (c : Codec M P) (f : File M P) (value : Value P) : Option (File M P) :=
  if isRaw f.data then
    match value with
    | .bytes b => some (setRawPayload f b)
    | .pod _ => none
  else
    match value with
    | .bytes _ => none
    | .pod p => some { setRawPayload f (c.writePod p) with payCache := some p }

/-- `PicotronFile.create` (picotron_fs.py 433-442). -/
def create (c : Codec M P) (payload : Value P) (metadata : Option M) : Option (File M P) :=
  let file : File M P := ⟨[], none, none⟩
  let file := match metadata, payload with
    | some m, _ => setMeta c file (some m)
    | none, .pod _ => setRawMeta file (some (asc "pod"))
    | none, .bytes _ => file
  setPayload c file payload

/-- `pod.rfind("]]")`. -/
def rfind2 : List Nat → Option Nat
  | [] => none
  | c :: s =>
    match rfind2 s with
    | some i => some (i + 1)
    | none => if starts metaSuffix (c :: s) then some 0 else none

/-- The loop of `escape_meta` (picotron_fs.py 152-158); every round removes a bracket, so that as many rounds as there are
brackets suffice. -/
def escapeLoop : Nat → List Nat → Option (List Nat)
  | 0, s => if (rfind2 s).isSome then none else some s
  | fuel + 1, s =>
    match rfind2 s with
    | none => some s
    -- str_replace_at (utils.py 1486-1488)
    | some i => escapeLoop fuel (s.take i ++ asc "\\93]" ++ s.drop (i + 2))

/-- `escape_meta` (picotron_fs.py 152-158). -/
def escapeMeta (s : List Nat) : Option (List Nat) := escapeLoop (s.count 93) s

end Verif.PtFile
