import Verif.CartMeta
/-
Model of the rest of `preproc_cart64` (picotron_cart.py 717-732): the label is taken out of the files, and pods are stored anew.  (Metadata is removed before that, see
`CartMeta`.)

The caches of files (C49) are left out; `none` is an exception.  The version (`runtime_version`) is a number here, it may be a fraction in the source.
-/
namespace Verif.Stored
open Verif.PodText
open Verif.CartDir (Files Entry)

variable {F : Type} [DecidableEq F]

/-- The options that pods are written with (727-732). -/
def repackOpts (uncompress base64 need : Bool) (runtime : Nat) : Opts :=
  if uncompress then { compress := false, usePxu := false, useBase64 := base64, runtime }
  else if need then { compress := true, usePxu := true, useBase64 := base64, runtime }
  else { compress := false, usePxu := true, useBase64 := base64, runtime }

/-- `file.set_payload(file.payload, ...)` for a pod (726-732; picotron_fs.py 507-526, 497-505). -/
def repackFile (fl : Floats F) (isDig : Nat → Bool) (depth : Nat) (o : Opts) (data : List Nat) : Option (List Nat) :=
  if PtFile.isRaw data then some data
  else (readPod fl depth (PtFile.rawPayload data)).bind fun v => (writePod fl isDig o v).map fun b =>
    (PtFile.setRawPayload (⟨data, none, none⟩ : PtFile.File Unit Unit) b).data

/-- The same for directories (726). -/
def repackEntry (fl : Floats F) (isDig : Nat → Bool) (depth : Nat) (o : Opts) (x : List Nat × Entry) : Option (List Nat × Entry) :=
  match x.2 with
  | .dir => some x
  | .file d => (repackFile fl isDig depth o d).map fun d => (x.1, .file d)

/-- The loop over the files (724-732). -/
def repack (fl : Floats F) (isDig : Nat → Bool) (depth : Nat) (o : Opts) (files : Files) : Option Files := files.mapM (repackEntry fl isDig depth o)

/-- `k_label_files` (picotron_cart.py 42-44). -/
def labelFiles : List (List Nat) := [txt "label.qoi", txt "label.png"]

/-- `cart.label` (83-93): what was set (`raw_label`), else the first of the files that is there. -/
def labelOf (files : Files) : Option (Option (List Nat × Entry)) → Option (List Nat × Entry)
  | some l => l
  | none => labelFiles.findSome? fun p => (files.lookup p).map fun e => (p, e)

/-- `files.pop` for both names (719-720). -/
def popLabels (files : Files) : Files := labelFiles.foldl (fun files p => files.filter fun x => x.1 != p) files

/-- With `delete_label` (717-721): the files, and what is set as the label. -/
def deleteLabel (files : Files) (rawLabel : Option (Option (List Nat × Entry))) : Files × Option (Option (List Nat × Entry)) :=
  (popLabels files, some (labelOf files rawLabel))

/-- The end of `preproc_cart64` (717-732). -/
def preprocRest (fl : Floats F) (isDig : Nat → Bool) (depth : Nat) (dropLabel keep uncompress base64 need : Bool) (runtime : Nat) (files : Files)
    (rawLabel : Option (Option (List Nat × Entry))) : Option (Files × Option (Option (List Nat × Entry))) :=
  let r := if dropLabel then deleteLabel files rawLabel else (files, rawLabel)
  if keep then some r else (repack fl isDig depth (repackOpts uncompress base64 need runtime) r.1).map fun files => (files, r.2)

end Verif.Stored
