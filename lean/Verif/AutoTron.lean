import Verif.AutoDetect
import Verif.P64
import Verif.PtFile
/-
Model of how a Picotron file is recognised (`read_cart64_autodetect`, picotron_cart.py 604-623) and of files that are a single pod
(picotron_cart.py 530-545).  Directories are left to C77.
-/
namespace Verif.AutoTron

/-- The readers: of `.p64` text (with and without `raw=True`), of images and of ROMs. -/
inductive Reader
  | source | raw | image | rom
deriving DecidableEq

/-- `read_cart64_autodetect` (picotron_cart.py 604-623), for files. -/
def auto (data : List Nat) : Reader :=
  if P64.p64Prefix.isPrefixOf data then .source
  else if Auto.pngHeader.isPrefixOf data then .image
  else if Ptron.romSig.isPrefixOf data && (data.take 8).contains 0 then .rom
  else .raw

/-- What the readers give that are not about images; `defVersion` is the version of a new `Cart64`. -/
def run (defVersion : Nat) (data : List Nat) : Option Ptron.Cart :=
  match auto data with
  | .source => P64.read defVersion data false
  | .raw => P64.read defVersion data true
  | .rom => Ptron.readRom defVersion false data
  | .image => none

/-- `k_pod` (picotron_fs.py 9). -/
def kPod : List Nat := [112, 111, 100]

/-- `read_cart64_from_single_pod` (picotron_cart.py 532-538): the data of the only file. -/
def readPod (data : List Nat) : List Nat :=
  if PtFile.rawMeta data = none then (PtFile.setRawMeta (M := Unit) (P := Unit) { data := data } (some kPod)).data else data

/-- `write_cart64_to_single_pod` (picotron_cart.py 540-545), from the data of the only file. -/
def writePod (data : List Nat) : List Nat :=
  if PtFile.rawMeta data = some kPod then (PtFile.setRawMeta (M := Unit) (P := Unit) { data := data } none).data else data

end Verif.AutoTron
