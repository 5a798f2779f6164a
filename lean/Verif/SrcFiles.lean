import Verif.PtFile
import Verif.LuaStr
import Verif.Topo
/-!
Model of which files of a Picotron cart are worked on: `Cart64Source` (picotron_defs.py 175-222; the order of the files is in `Topo`), `filter_cart64`
(picotron_cart.py 671-675) and the loop of `process_code` over the files (pico_process.py 326-390).  `none` is an exception.

A cart's files are a list of paths and their data (a dictionary: no path occurs twice), without data for a directory.  (The caches of parsed metadata and pods
that `PtFile` has play no part here.)
-/
namespace Verif.SrcFiles
open Verif.PtFile

abbrev Path := List Nat
abbrev Files := List (Path × Option (List Nat))

/-- `filter_cart64` (picotron_cart.py 671-675); patterns as in `Topo`. -/
def filterCart (fits : List Nat → Path → Bool) (sections : List (List Nat)) (files : Files) : Files :=
  ((files.map (·.1)).filter fun p => !globMatches fits sections p).foldl (fun fs p => fs.filter fun x => x.1 != p) files

/-- `path.endswith(".lua")`. -/
def isLua (path : Path) : Bool := (asc ".lua").isSuffixOf path

/-- Whether a file is a source (picotron_defs.py 206-210); an empty list of patterns is as good as `None`. -/
def isSource (fits : List Nat → Path → Bool) (patterns : List (List Nat)) (path : Path) : Option (List Nat) → Bool
  | none => false
  | some data => isRaw data && (if patterns.isEmpty then isLua path else globMatches fits patterns path)

/-- The sub-sources of a cart and their texts (picotron_defs.py 183-210). -/
def codes (fits : List Nat → Path → Bool) (patterns : List (List Nat)) (files : Files) : List (Path × List Nat) :=
  (files.filter fun x => isSource fits patterns x.1 x.2).map fun x => (x.1, LuaStr.decode (rawPayload (x.2.getD [])))

/-- The setter of `raw_payload` (picotron_fs.py 497-505), on the data. -/
def putPayload (data value : List Nat) : List Nat := (setRawPayload (⟨data, none, none⟩ : File Unit Unit) value).data

/-- The setter of `text` (picotron_defs.py 198-200) for a file that is a source; other files are left alone. -/
def setText (fits : List Nat → Path → Bool) (patterns : List (List Nat)) (out : Path → List Nat) (x : Path × Option (List Nat)) : Option (Path × Option (List Nat)) :=
  if isSource fits patterns x.1 x.2 then (LuaStr.encode (out x.1)).map fun b => (x.1, some (putPayload (x.2.getD []) b)) else some x

/-- `process_code` for a whole cart (pico_process.py 326-390): `run` is what is made of the codes of all the files together (`none`: errors), for each of their
paths (`get_sub_root`, pico_parse.py 1058-1062). -/
def processCart (fits : List Nat → Path → Bool) (patterns : List (List Nat)) (run : List (Path × List Nat) → Option (Path → List Nat)) (files : Files) :
    Option Files :=
  (run (codes fits patterns files)).bind fun out => files.mapM (setText fits patterns out)

end Verif.SrcFiles
