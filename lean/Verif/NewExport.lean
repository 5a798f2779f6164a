import Verif.PodFile
import Verif.AutoDetect
import Verif.Stego
/-!
Model of `PodExport.create` (pico_export.py 624-662): a new export is made from PICO-8's own data file (`pico8.dat`).  `none` is an exception.

As in `PodFile`, a `Surface` is its size, bits per pixel and raw pixels.  Of the image library it is assumed that `pixels[x, y] = v` on an 8-bit image stores
the value (the largest one, 255, for larger values), and fails outside of the image.  Of the cart given there is the version and the label.
-/
namespace Verif.NewExport
open Verif.PodFormat (Content Name lit)
open Verif.PodFile
open Verif.Stego (createScreenshot)

/-- `find_named` (pico_export.py 284-289); `none` is the error that there is no such entry. -/
def findNamed (m : State) (name : Name) : Option Content := (m.entries.find? fun e => e.name == some name).map (·.content)

/-- The bytes of a file; of other contents they cannot be taken (`.decode()` and `PodFile(...)` fail). -/
def fileBytes : Content → Option (List Nat)
  | .file data => some data
  | _ => none

/-- `bytes.decode()`: `none` is the `UnicodeDecodeError` (see `Auto.readText`). -/
def decodeStrict (bs : List Nat) : Option (List Nat) :=
  if (LuaStr.decode bs).any fun c => 0xdc80 ≤ c && c ≤ 0xdcff then none else some (LuaStr.decode bs)

/-- The boot cart (pico_export.py 628-631); `version` is that of the cart, if there is one.  `str.encode` fails as `Auto.writeText` does.
Simplified: includes in the boot cart's code (`preprocess_code`) are not expanded. -/
def bootFile (defVersion : Nat) (version : Option Nat) (bytes : List Nat) : Option (List Nat) :=
  (decodeStrict bytes).bind fun text => (readSource defVersion false text).bind fun c =>
    (writeSource false (fun _ => true) { c with versionId := version.getD c.versionId }).bind Auto.writeText

/-- The loop over the characters of the title (pico_export.py 648-653). -/
def putTitle (w h : Nat) : Nat → Nat → List Nat → List Nat → Option (List Nat)
  | _, _, [], px => some px
  | x, y, c :: cs, px =>
    if x < w ∧ y < h then
      if x + 1 = w then putTitle w h 0 (y + 1) cs (px.set (x + y * w) (min c 255))
      else putTitle w h (x + 1) y cs (px.set (x + y * w) (min c 255))
    else none

/-- The picture of the label (pico_export.py 657), `create_screenshot_surface` (see `createScreenshot`) with the bytes of a pixel in the order of `bgra8`. -/
def labelPicture (label : List Nat) : Option Content :=
  (createScreenshot false label).map fun px => .bmp 128 128 32 (px.flatMap fun p => [p.b, p.g, p.r, p.a])

/-- What entry number `i` of a pod becomes (pico_export.py 640-657); `gfx` is `pod_i == 1`. -/
def newContent (gfx : Bool) (title : List Nat) (label : Option (List Nat)) (i : Nat) (content : Content) : Option Content :=
  if gfx && i == 4 then
    match content with
    | .bmp w h bpp px => if bpp = 8 then (putTitle w h 0 0 (title ++ [0]) px).map (.bmp w h bpp) else none
    | _ => none
  else if gfx && i == 6 then
    match label with
    | some l => labelPicture l
    | none => some content
  else some content

/-- `isinstance(content, Surface)` (pico_export.py 659). -/
def isImage : Content → Bool
  | .bmp .. => true
  | _ => false

/-- The loop over the entries of a pod (pico_export.py 640-659), from number `i` on, appending to `m`. -/
def copyEntries (gfx : Bool) (title : List Nat) (label : Option (List Nat)) (m : State) : Nat → List Entry → Option State
  | _, [] => some m
  | i, e :: es =>
    (newContent gfx title label i e.content).bind fun c => (insertContent m m.entries.length e.name c (isImage c)).bind fun m =>
      copyEntries gfx title label m (i + 1) es

/-- A pod made again (pico_export.py 637-659). -/
def rebuilt (gfx : Bool) (title : List Nat) (label : Option (List Nat)) (bytes : List Nat) : Option (List Nat) :=
  (readAll bytes).bind fun pod => (create pod.name).bind fun new => (copyEntries gfx title label new 0 pod.entries).map (·.data)

/-- `m.append_content("", content)` (pico_export.py 631, 661). -/
def appendUnnamed (m : State) (data : List Nat) : Option State := insertContent m m.entries.length (some []) (.file data) false

/-- `PodExport.create` (pico_export.py 624-662); the names are `k_pod_names` (pico_export.py 575).  `version` and `label` are those of the cart, if there is
one. -/
def createExport (defVersion : Nat) (version : Option Nat) (label : Option (List Nat)) (title : List Nat) (dat : State) : Option State :=
  (create []).bind fun m => (readAll m.data).bind fun m =>
  ((findNamed dat (lit "pod/pico8_boot.p8")).bind fileBytes).bind fun boot => (bootFile defVersion version boot).bind fun boot' => (appendUnnamed m boot').bind fun m =>
  ((findNamed dat (lit "pod/gfx1.pod")).bind fileBytes).bind fun gfx => (rebuilt true title label gfx).bind fun gfx' => (appendUnnamed m gfx').bind fun m =>
  ((findNamed dat (lit "pod/f_pico8.pod")).bind fileBytes).bind fun rest => (rebuilt false title label rest).bind fun rest' => appendUnnamed m rest'

end Verif.NewExport
