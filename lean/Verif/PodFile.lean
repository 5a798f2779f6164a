import Verif.Binary
import Verif.Lz4
import Verif.CartExport
import Verif.Spec.PodFormat
/-
Model of `PodFile` and `PodExport` (pico_export.py 199-443, 572-631): PICO-8's own pod files.  `none` is an exception.

Texts are modelled by their UTF-8 bytes (a name that is not UTF-8 makes Python's reader fail; here it is accepted).  A
`Surface` is modelled by its size, bits per pixel and raw pixels (the image library is not part of the model: from raw bytes it
takes as many as the image needs, and gives them back).  The palette that the reader attaches to an 8-bit image is not
modelled, nor are `find_prefix` and the dumping of contents; `find_named` and `PodExport.create` are in `NewExport`.
-/
namespace Verif.PodFile

open Verif.PodFormat (Content Name lit imageSize)

/-- `PodFile.Entry` (pico_export.py 209-210). -/
structure Entry where
  header : List Nat
  pos : Nat
  endPos : Nat
  name : Option Name
  content : Content
deriving DecidableEq, Repr

/-- The fields of a `PodFile` (pico_export.py 212-214, 225, 229). -/
structure State where
  data : List Nat
  name : Name
  entries : List Entry
deriving DecidableEq, Repr

/-- `r.u32()` (utils.py 968-970). -/
def rU32 (r : List Nat) : Option (Nat × List Nat) := (unpackU false 4 r).map fun p => (p.1.toNat, p.2)

/-- `w.u32(v)` (utils.py 1186-1188). -/
def wU32 (v : Nat) : Option (List Nat) := packU false 4 v

/-- `r.bytes(size)`, or `lz4_uncompress(r.bytes(r.u32()))` (pico_export.py 240-243, 253-256). -/
def readPayload (compressed : Bool) (size : Nat) (r : List Nat) : Option (List Nat × List Nat) :=
  if compressed then
    (rU32 r).bind fun n => (readBytes n.1 false n.2).bind fun b => (Lz4.uncompress b.1).map fun d => (d, b.2)
  else readBytes size false r

/-- What was read of an entry: header, name, content; and what remains. -/
abbrev Read := (List Nat × Option Name × Content) × List Nat

/-- A file (pico_export.py 236-243). -/
def readFile (header : List Nat) (r : List Nat) : Option Read :=
  (rU32 r).bind fun zero => if zero.1 ≠ 0 then none else
  (rU32 zero.2).bind fun size =>
  (readZ (some 0x40) 1 false size.2).bind fun name =>
  (readPayload (header == lit "cFIL") size.1 name.2).map fun content => ((header, some name.1, .file content.1), content.2)

/-- An image (pico_export.py 245-261); a size below `0x14` makes `r.bytes` fail. -/
def readBmp (header : List Nat) (r : List Nat) : Option Read :=
  (rU32 r).bind fun size =>
  (rU32 size.2).bind fun w =>
  (rU32 w.2).bind fun h =>
  (rU32 h.2).bind fun bpp =>
  (rU32 bpp.2).bind fun zero => if zero.1 ≠ 0 then none else
  (rU32 zero.2).bind fun zero => if zero.1 ≠ 0 then none else
  if (header == lit "cBMP") = false ∧ size.1 < 0x14 then none else
  (readPayload (header == lit "cBMP") (size.1 - 0x14) zero.2).bind fun data =>
  if ¬ (bpp.1 = 8 ∨ bpp.1 = 32) then none else
  if data.1.length < imageSize w.1 h.1 bpp.1 then none
  else some ((header, none, .bmp w.1 h.1 bpp.1 (data.1.take (imageSize w.1 h.1 bpp.1))), data.2)

/-- A palette (pico_export.py 263-269). -/
def readPal (header : List Nat) (r : List Nat) : Option Read :=
  (rU32 r).bind fun size => if size.1 ≠ 3 * 0x100 then none else
  (readBytes (3 * 0x100) false size.2).map fun rgb => ((header, none, .pal rgb.1), rgb.2)

/-- One round of the loop over the entries (pico_export.py 231-275), without the positions. -/
def readEntry (r : List Nat) : Option Read :=
  (readBytes 4 false r).bind fun h =>
    if h.1 = lit "CFIL" ∨ h.1 = lit "cFIL" then readFile h.1 h.2
    else if h.1 = lit "CBMP" ∨ h.1 = lit "cBMP" then readBmp h.1 h.2
    else if h.1 = lit "CPAL" then readPal h.1 h.2
    else none

/-- The loop over the entries (pico_export.py 231-275); `total` is the length of the data, so that `r.pos()` is `total` less what
remains. -/
def readEntries (total : Nat) : Nat → List Nat → Option (List Entry × List Nat)
  | 0, r => some ([], r)
  | count + 1, r =>
    (readEntry r).bind fun x => (readEntries total count x.2).map fun es =>
      (⟨x.1.1, total - r.length, total - x.2.length, x.1.2.1, x.1.2.2⟩ :: es.1, es.2)

/-- `read_all` (pico_export.py 220-275).  The junk of the header is skipped by seeking, which does not notice the end of the file; then
there can be no entries. -/
def readAll (data : List Nat) : Option State :=
  (readBytes 4 false data).bind fun h => if h.1 ≠ lit "CPOD" then none else
  (rU32 h.2).bind fun a => if a.1 ≠ 0x44 then none else
  (rU32 a.2).bind fun b => if b.1 ≠ 1 then none else
  (readZ (some 0x20) 1 false b.2).bind fun name =>
  (rU32 name.2).bind fun count =>
  (readEntries data.length count.1 (count.2.drop 0x1c)).map fun es => ⟨data, name.1, es.1⟩

/-- `shift_entry_positions(i, delta)` (pico_export.py 304-307). -/
def shiftFrom (i : Nat) (delta : Int) (es : List Entry) : List Entry :=
  es.take i ++ (es.drop i).map fun e => { e with pos := ((e.pos : Int) + delta).toNat, endPos := ((e.endPos : Int) + delta).toNat }

/-- `m.data[pos:pos+len(val)] = val`. -/
def overwrite (data : List Nat) (pos : Nat) (val : List Nat) : List Nat := data.take pos ++ (val ++ data.drop (pos + val.length))

/-- `update_count` (pico_export.py 309-311). -/
def updateCount (m : State) : Option State :=
  (wU32 m.entries.length).bind fun b =>
    if m.data.length < 0x2c + 4 then none else some { m with data := overwrite m.data 0x2c b }

/-- `PodFile.create` (pico_export.py 313-323). -/
def create (name : Name) : Option State :=
  (wU32 0x44).bind fun a => (wU32 1).bind fun b => (writeZ name (some 0x20) 1).bind fun n => (wU32 0).bind fun c =>
    (writeZ [] (some 0x1c) 1).bind fun z => readAll (lit "CPOD" ++ (a ++ (b ++ (n ++ (c ++ z)))))

/-- `write_bytes` (pico_export.py 332-338). -/
def writePayload (compress : Bool) (data : List Nat) : Option (List Nat) :=
  if compress then (Lz4.compress true data).bind fun c => (wU32 c.length).map fun n => n ++ c
  else some data

/-- The bytes of a new entry, with its header (pico_export.py 340-382).  For an image of another format Python fails because the
format remains undefined; for a file without a name, because there is no text to encode. -/
def entryBytes (name : Option Name) (content : Content) (compress : Bool) : Option (List Nat × List Nat) :=
  match content with
  | .file data =>
    let header := lit (if compress then "cFIL" else "CFIL")
    (wU32 0).bind fun z => (wU32 data.length).bind fun n => name.bind fun name => (writeZ name (some 0x40) 1).bind fun f =>
      (writePayload compress data).map fun p => (header, header ++ (z ++ (n ++ (f ++ p))))
  | .bmp w h bpp data =>
    let header := lit (if compress then "cBMP" else "CBMP")
    if ¬ (bpp = 8 ∨ bpp = 32) then none else
    (wU32 (data.length + 0x14)).bind fun n => (wU32 w).bind fun w => (wU32 h).bind fun h => (wU32 bpp).bind fun bpp =>
      (wU32 0).bind fun z => (writePayload compress data).map fun p =>
        (header, header ++ (n ++ (w ++ (h ++ (bpp ++ (z ++ (z ++ p)))))))
  | .pal rgb =>
    if compress then none else
    (wU32 (3 * 0x100)).map fun n => (lit "CPAL", lit "CPAL" ++ (n ++ rgb))

/-- The index used after the bytes have been made: the loop over the colors of a palette (pico_export.py 372-374) has the same
variable. -/
def laterIndex (i : Nat) : Content → Nat
  | .pal _ => 255
  | _ => i

/-- `insert_content` (pico_export.py 325-387). -/
def insertContent (m : State) (i : Nat) (name : Option Name) (content : Content) (compress : Bool) : Option State :=
  let pos := (m.entries[i]?).elim m.data.length (·.pos)
  (entryBytes name content compress).bind fun x =>
    let size := x.2.length
    let data := m.data.take pos ++ (x.2 ++ m.data.drop pos)
    let i := laterIndex i content
    let entries := m.entries.take i ++ ⟨x.1, pos, pos + size, name, content⟩ :: m.entries.drop i
    updateCount { m with data := data, entries := shiftFrom (i + 1) size entries }

/-- `delete_content` (pico_export.py 392-401). -/
def deleteContent (m : State) (i : Nat) : Option State :=
  (m.entries[i]?).bind fun e =>
    updateCount { m with
      data := m.data.take e.pos ++ m.data.drop e.endPos
      entries := shiftFrom i (-((e.endPos : Int) - e.pos)) (m.entries.take i ++ m.entries.drop (i + 1)) }

/-- `len(content)` of a file. -/
def fileSize : Content → Option Nat
  | .file data => some data.length
  | _ => none

/-- `replace_content` (pico_export.py 403-414). -/
def replaceContent (m : State) (i : Nat) (content : Content) : Option State :=
  (m.entries[i]?).bind fun e =>
    match content with
    | .file new =>
      if e.header = lit "CFIL" ∧ fileSize e.content = some new.length then
        some { m with
          data := overwrite m.data (e.pos + 0x4c) new
          entries := m.entries.take i ++ { e with content := .file new } :: m.entries.drop (i + 1) }
      else (deleteContent m i).bind fun m => insertContent m i e.name content false
    | _ => (deleteContent m i).bind fun m => insertContent m i e.name content false

/-- `rename_content` (pico_export.py 416-422). -/
def renameContent (m : State) (i : Nat) (name : Name) : Option State :=
  (m.entries[i]?).bind fun e =>
    match fileSize e.content with
    | none => some m
    | some _ => (writeZ name (some 0x40) 1).map fun f =>
        { m with
          data := overwrite m.data (e.pos + 0xc) f
          entries := m.entries.take i ++ { e with name := some name } :: m.entries.drop (i + 1) }

/-- The four changes. -/
def edit (m : State) : PodFormat.Edit → Option State
  | .insert i name content compress => insertContent m i name content compress
  | .delete i => deleteContent m i
  | .replace i content => replaceContent m i content
  | .rename i name => renameContent m i name

/-- The named files with their indices, as the loop of `get_carts_impl` (pico_export.py 581-586) meets them. -/
def namedFiles : Nat → List Entry → List (Name × (Nat × List Nat))
  | _, [] => []
  | i, e :: es =>
    match e.name, e.content with
    | some name, .file data => if name = [] then namedFiles (i + 1) es else (name, (i, data)) :: namedFiles (i + 1) es
    | _, _ => namedFiles (i + 1) es

/-- `PodExport.insert_impl` (pico_export.py 592-600). -/
def insertImpl (m : State) (ref : Option (Nat × List Nat)) (name : Name) (rom : List Nat) : Option State :=
  match ref with
  | some (i, _) => insertContent m i (some name) (.file rom) false
  | none => insertContent m m.entries.length (some name) (.file rom) false

/-- `PodExport.replace_impl` (pico_export.py 602-608). -/
def replaceImpl (m : State) (ref : Nat × List Nat) (rom : List Nat) : Option State :=
  if rom.length ≠ ref.2.length then none else replaceContent m ref.1 (.file rom)

/-- `PodExport` (pico_export.py 572-616) as a container of carts.  Reading and writing of ROMs is left out: carts are given by their
ROM bytes. -/
def impl : Export.Impl State State (Nat × List Nat) where
  carts m := some (m, Export.dictOf (namedFiles 0 m.entries))
  read _ ref := some ref.2
  insert m ref name rom := insertImpl m ref name rom
  replace m ref rom := replaceImpl m ref rom
  delete m ref := deleteContent m ref.1
  rename m ref name := renameContent m ref.1 name

end Verif.PodFile
