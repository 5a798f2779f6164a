import Verif.StoredPod
import Verif.CartMerge
/-
Model of the removal of metadata from a Picotron cart (`preproc_meta`, picotron_cart.py 677-706) and of what a cart shows of its metadata
(`title`, `icon`, `export_home`, `get_runtime_version`, picotron_cart.py 55-145; `preproc_cart64` 708-715).

The caches of files (C49) are left out; `none` is an exception.
-/
namespace Verif.Stored
open Verif.PodText
open Verif.Pxu (UD)

variable {F : Type} [DecidableEq F]

/-- The entries whose keys match (688-690).  Keys other than text cannot be matched (`regex.match` throws). -/
def keepItems (keep : List Nat → Bool) : Items F → Option (Items F)
  | .nil => some .nil
  | .cons (.str k) v r => (keepItems keep r).map fun r => if keep k then .cons (.str k) v r else r
  | .cons _ _ _ => none

/-- `new_meta[key] = value`. -/
def putItem (key : List Nat) (value : Val F) : Items F → Items F
  | .nil => .cons (.str key) value .nil
  | .cons k v r => if k = .str key then .cons k value r else .cons k v (putItem key value r)

/-- `new_meta[req_key] = meta[req_key]` if it is there (693-695). -/
def addItem (t : Items F) (n : Items F) (key : List Nat) : Items F :=
  match lookupItem key t with
  | some v => putItem key v n
  | none => n

/-- Whether there are entries (`if new_meta`). -/
def Items.empty : Items F → Bool
  | .nil => true
  | .cons _ _ _ => false

/-- The new metadata (685-698). -/
def keepMeta (keep : List Nat → Bool) (raw : Bool) (t : Items F) : Option (Option (Items F)) :=
  (keepItems keep t).map fun n =>
    if Items.empty n then (if raw then none else some n)
    -- k_pod_prefix_strs (picotron_fs.py 14)
    else some ([txt "pod_format", txt "pod_type"].foldl (addItem t) n)

/-- `file.metadata` (picotron_fs.py 468-476): `some none` is the result `None`. -/
def fileMeta (fl : Floats F) (depth : Nat) (data : List Nat) : Option (Option (Items F)) :=
  match PtFile.rawMeta data with
  | none => some none
  | some b =>
    match readMeta fl depth b with
    | some (.table t) => some (some t)
    | _ => none

/-- The new metadata of a file, if any (684-698). -/
def newMeta (keep : List Nat → Bool) (raw : Bool) : Option (Items F) → Option (Option (Items F))
  | none => some none
  | some t => keepMeta keep raw t

/-- `file.metadata = new_meta` (picotron_fs.py 478-485, 459-466). -/
def putMeta (fl : Floats F) (isDig : Nat → Bool) (data : List Nat) : Option (Items F) → Option (List Nat)
  | none => some (PtFile.rawPayload data)
  | some n => (writeMeta fl isDig n).map fun b => PtFile.metaPrefix ++ b ++ PtFile.metaSuffix ++ PtFile.rawPayload data

/-- One file (682-702); `some none` if it is to be deleted. -/
def stripFile (fl : Floats F) (isDig : Nat → Bool) (depth : Nat) (keep : List Nat → Bool) (path data : List Nat) : Option (Option (List Nat)) :=
  (fileMeta fl depth data).bind fun md =>
    (newMeta keep (PtFile.isRaw data) md).bind fun n =>
      -- `not new_meta and str_after_last(path, "/") == ".info.pod"`
      if (n.elim true Items.empty) && decide (CartDir.basename path = txt ".info.pod") then some none
      else (putMeta fl isDig data n).map some

/-- The same for files and directories (683). -/
def stripEntry (fl : Floats F) (isDig : Nat → Bool) (depth : Nat) (wanted keep : List Nat → Bool) (path : List Nat) : CartDir.Entry → Option (Option CartDir.Entry)
  | .file d => if wanted path then (stripFile fl isDig depth keep path d).map fun r => r.map CartDir.Entry.file else some (some (.file d))
  | .dir => some (some .dir)

/-- `preproc_meta` (677-706); `wanted` stands for the patterns of files, `keep` for those of keys (C47). -/
def stripMeta (fl : Floats F) (isDig : Nat → Bool) (depth : Nat) (wanted keep : List Nat → Bool) : CartDir.Files → Option CartDir.Files
  | [] => some []
  | (path, e) :: files =>
    (stripEntry fl isDig depth wanted keep path e).bind fun r =>
      (stripMeta fl isDig depth wanted keep files).map fun files => (r.map fun e => (path, e)).toList ++ files

/-! ### What is shown -/

/-- A cart with what is kept apart from its files (picotron_cart.py 48-53). -/
structure Cart (F : Type) where
  files : CartDir.Files
  rawTitle : Option (List (List Nat)) := none
  rawIcon : Option UD := none
  rawHome : Option (List Nat) := none
  rawRuntime : Option (Val F) := none

/-- `metadata` (55-58); a directory of that name has none. -/
def Cart.metadata (fl : Floats F) (depth : Nat) (c : Cart F) : Option (Option (Items F)) :=
  match c.files.lookup (txt ".info.pod") with
  | some (.file d) => fileMeta fl depth d
  | _ => some none

/-- `meta.get(key)` if there is metadata. -/
def metaGet (key : String) (md : Option (Items F)) : Option (Val F) := md.bind (lookupItem (txt key))

/-- `title` (67-78); `str` is Python's text of a value. -/
def Cart.title (fl : Floats F) (depth : Nat) (str : Val F → List Nat) (c : Cart F) : Option (List (List Nat)) :=
  match c.rawTitle with
  | some t => some t
  | none => (c.metadata fl depth).map fun md =>
    if md.elim true Items.empty then []
    else
      let get := fun key => (metaGet key md).elim [] str
      [get "title", get "version" ++ [32] ++ (if get "author" = [] then [] else txt "by " ++ get "author")]

/-- `icon` (107-114). -/
def Cart.icon (fl : Floats F) (depth : Nat) (c : Cart F) : Option (Option UD) :=
  match c.rawIcon with
  | some u => some (some u)
  | none => (c.metadata fl depth).map fun md => match metaGet "icon" md with
    | some (.ud u) => some u
    | _ => none

/-- `export_home` (129-135). -/
def Cart.home (fl : Floats F) (depth : Nat) (c : Cart F) : Option (List Nat) :=
  match c.rawHome with
  | some s => some s
  | none => (c.metadata fl depth).map fun md => match metaGet "export_home" md with
    | some (.str s) => s
    | _ => []

/-- `get_runtime_version` (140-145).  Python counts `True` and `False` as integers. -/
def Cart.runtime (fl : Floats F) (depth : Nat) (default : Val F) (c : Cart F) : Option (Val F) :=
  match c.rawRuntime with
  | some v => some v
  | none => (c.metadata fl depth).map fun md => match metaGet "runtime" md with
    | some (.int v) => .int v
    | some (.float f) => .float f
    | some (.bool b) => .bool b
    | _ => default

/-- `preproc_cart64` with `delete_meta` (710-715), without labels and pods; `sys.maxsize` is the default version. -/
def Cart.deleteMeta (fl : Floats F) (isDig : Nat → Bool) (depth : Nat) (str : Val F → List Nat) (wanted keep : List Nat → Bool) (c : Cart F) :
    Option (Cart F) := do
  let title ← c.title fl depth str
  let icon ← c.icon fl depth
  let home ← c.home fl depth
  let runtime ← c.runtime fl depth (.int (2 ^ 63 - 1))
  let files ← stripMeta fl isDig depth wanted keep c.files
  some { files, rawTitle := some title, rawIcon := icon, rawHome := some home, rawRuntime := some runtime }

end Verif.Stored
