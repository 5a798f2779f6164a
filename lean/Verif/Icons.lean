import Verif.Find
import Verif.Binary
/-
Model of how the icons of exported programs are made and found: `create_icns_data`, `find_icon_offset_in_exe` and `find_zstr`
(pico_export.py 676-784), and the replacing of the icon in `FullExport.save` (pico_export.py 874-880).
-/
namespace Verif.Icons

/-- `data[pos]` to `data[pos + n - 1]` as `BinaryReader` reads them after `setpos`; `none` is the error at the end of the file (utils.py 958-1012). -/
def bytesAt (n : Nat) (data : List Nat) (pos : Nat) : Option (List Nat) :=
  if pos + n ≤ data.length then some ((data.drop pos).take n) else none

/-- `u16` and `u32` at a position, little endian (utils.py 962-969). -/
def u16At (data : List Nat) (pos : Nat) : Option Nat := (bytesAt 2 data pos).map leValue
def u32At (data : List Nat) (pos : Nat) : Option Nat := (bytesAt 4 data pos).map leValue

/-- A section as kept by `find_icon_offset_in_exe`: `vaddr, vsize, offset`. -/
structure Section where
  vaddr : Nat
  vsize : Nat
  offset : Nat
deriving DecidableEq, Repr

/-- The loop over the sections (pico_export.py 694-699), `n` of them from `pos` on. -/
def readSections (data : List Nat) : Nat → Nat → Option (List Section)
  | 0, _ => some []
  | n + 1, pos =>
    match u32At data (pos + 8), u32At data (pos + 12), u32At data (pos + 16), u32At data (pos + 20), readSections data n (pos + 40) with
    | some vsize, some vaddr, some _, some offset, some rest => some (⟨vaddr, vsize, offset⟩ :: rest)
    | _, _, _, _, _ => none

/-- `rva_to_offset` (pico_export.py 701-704). -/
def rvaToOffset : List Section → Nat → Option Nat
  | [], _ => none
  | s :: ss, rva => if s.vaddr ≤ rva ∧ rva < s.vaddr + s.vsize then some (s.offset + (rva - s.vaddr)) else rvaToOffset ss rva

/-- The loop of `find_rsrc_entry` (pico_export.py 717-720), over `n` entries from `pos` on; `some none` is the end of the loop. -/
def findEntryLoop (data : List Nat) (target : Nat) : Nat → Nat → Option (Option Nat)
  | 0, _ => some none
  | n + 1, pos =>
    match u32At data pos, u32At data (pos + 4) with
    | some idx, some offset => if idx = target then some (some offset) else findEntryLoop data target n (pos + 8)
    | _, _ => none

/-- `find_rsrc_entry` (pico_export.py 711-720). -/
def findEntry (data : List Nat) (rsrc : Nat) (offset target : Nat) : Option (Option Nat) :=
  if 0x80000000 ≤ offset then
    let pos := rsrc + offset % 0x80000000 + 0xc
    match u16At data pos, u16At data (pos + 2) with
    | some named, some indexed => findEntryLoop data target indexed (pos + 4 + named * 8)
    | _, _ => none
  else some none

/-- `if e(icon_entry): icon_entry = find_rsrc_entry(icon_entry, …)` (pico_export.py 723-726). -/
def thenEntry (data : List Nat) (rsrc : Nat) (target : Nat) : Option (Option Nat) → Option (Option Nat)
  | some (some entry) => findEntry data rsrc entry target
  | r => r

/-- The icon in the resources (pico_export.py 722-738). -/
def findIconIn (data : List Nat) (sections : List Section) (rsrc : Nat) : Option (Option Nat) :=
  match thenEntry data rsrc 0x409 (thenEntry data rsrc 1 (findEntry data rsrc 0x80000000 3)) with
  | none => none
  | some none => some none
  | some (some entry) =>
    if 0x80000000 ≤ entry then some none
    else match u32At data (rsrc + entry), u32At data (rsrc + entry + 4) with
      | some rva, some size =>
        if size ≠ 0x10828 then some none
        else (rvaToOffset sections rva).map fun o => some (o + 0x28)
      | _, _ => none

/-- What follows the file headers (pico_export.py 686-738); `pe` is the position of the signature. -/
def findIconFrom (data : List Nat) (pe numSections optSize : Nat) : Option (Option Nat) :=
  match u16At data (pe + 24) with
  | none => none
  | some magic =>
    if magic = 0x10b ∨ magic = 0x20b then
      match u32At data (pe + 26 + if magic = 0x20b then 126 else 110), readSections data numSections (pe + 24 + optSize) with
      | some rsrcRva, some sections =>
        match rvaToOffset sections rsrcRva with
        | none => some none
        | some rsrc => findIconIn data sections rsrc
      | _, _ => none
    else none

/-- `find_icon_offset_in_exe` (pico_export.py 676-738): `none` is any exception (end of file, failed assertion), `some none` is `None`.  An entry of 32 bits
has its highest bit set if it is at least `0x80000000`. -/
def findIcon (data : List Nat) : Option (Option Nat) :=
  if bytesAt 2 data 0 = some [77, 90] then
    match u32At data 0x3c with
    | none => none
    | some pe =>
      if bytesAt 4 data pe = some [80, 69, 0, 0] then
        match u16At data (pe + 6), u16At data (pe + 20), u16At data (pe + 22) with
        | some numSections, some optSize, some _ => findIconFrom data pe numSections optSize
        | _, _, _ => none
      else none
  else none

/-- `str_replace_at` (utils.py 1486-1488). -/
def replaceAt (data : List Nat) (pos count : Nat) (what : List Nat) : List Nat := data.take pos ++ what ++ data.drop (pos + count)

/-- The program with the label as its icon (pico_export.py 874-880). -/
def setExeIcon (data bmp : List Nat) : Option (List Nat) :=
  match findIcon data with
  | none => none
  | some none => some data
  | some (some i) => some (replaceAt data i 0x10000 bmp)

/-- A row of one channel (pico_export.py 754-756). -/
def icnsRow (raw : List Nat) (n chan y : Nat) : Option (List Nat) := (List.range 0x80).mapM fun x => raw[(x + y * 0x80) * n + chan]?

/-- A channel (pico_export.py 752-756), each row after `mark`; there is none in the mask (pico_export.py 760-762). -/
def icnsChan (mark raw : List Nat) (n chan : Nat) : Option (List Nat) :=
  ((List.range 0x80).mapM fun y => (icnsRow raw n chan y).map (mark ++ ·)).map List.flatten

/-- `create_icns_data` (pico_export.py 740-765); `none` is the exception when there are too few bytes.  The size at the beginning is written at the end. -/
def createIcns (raw : List Nat) (alpha : Bool) : Option (List Nat) :=
  let n := if alpha then 4 else 3
  match icnsChan [0x7f] raw n 0, icnsChan [0x7f] raw n 1, icnsChan [0x7f] raw n 2,
      if alpha then icnsChan [] raw n 3 else some (List.replicate (0x80 * 0x80) 0xff) with
  | some r, some g, some b, some a =>
    let body := [105, 116, 51, 50] ++ (leBytes 4 (0xc + 0x80 * 0x81 * 3)).reverse ++ (leBytes 4 0).reverse ++ (r ++ g ++ b) ++
      ([116, 56, 109, 107] ++ (leBytes 4 (0x8 + 0x80 * 0x80)).reverse ++ a)
    some ([105, 99, 110, 115] ++ (leBytes 4 (8 + body.length)).reverse ++ body)
  | _, _, _, _ => none

/-- `find_zstr` (pico_export.py 767-784) on the rest of the data, before `decode`; every round makes the rest shorter. -/
def findZstrLoop (pre inf : List Nat) : Nat → List Nat → Option (List Nat)
  | 0, _ => none
  | fuel + 1, rest =>
    match findSub pre rest with
    | none => none
    | some i =>
      match findSub [0] (rest.drop i) with
      | none => none
      | some j =>
        if (findSub inf ((rest.drop i).take j)).isSome then some ((rest.drop i).take j)
        else findZstrLoop pre inf fuel (rest.drop (i + j + 1))

def findZstr (data pre inf : List Nat) : Option (List Nat) := findZstrLoop pre inf (data.length + 1) data

end Verif.Icons
