import Verif.Binary
import Verif.Text
import Verif.Ptron
/-
Model of the exports of Picotron carts: the system ROM container (`SysRom`, picotron_export.py 20-62, and
`SysRomExport64`, 80-110) and the page of `HtmlExport64` (112-131).  The files and icons around them are not modelled.
-/
namespace Verif.SysRom

/-- `SysRom.__init__` (picotron_export.py 23-30): sizes are big endian. -/
def parse (data : List Nat) : Option (List (List Nat)) :=
  if data = [] then some []
  else
    match h : unpackU true 4 data with
    | none => none
    | some (size, r) =>
      match h2 : readBytes size.toNat false r with
      | none => none
      | some (entry, r') => (parse r').map (entry :: ·)
termination_by data.length
decreasing_by
  unfold unpackU at h
  split at h
  · cases h
  · simp only [Option.some.injEq, Prod.mk.injEq] at h
    unfold readBytes at h2
    split at h2
    · cases h2
    · simp only [Option.some.injEq, Prod.mk.injEq] at h2
      rw [← h2.2, ← h.2]
      simp only [List.length_drop]
      omega

/-- `to_bytes` (picotron_export.py 55-62). -/
def toBytes : List (List Nat) → Option (List Nat)
  | [] => some []
  | entry :: entries => do
    let size ← packU true 4 (entry.length : Nat)
    let rest ← toBytes entries
    return size ++ entry ++ rest

/-- `list_set(entries, idx, value, b"")` (utils.py 1627-1632, picotron_export.py 52-53). -/
def set (entries : List (List Nat)) (idx : Nat) (value : List Nat) : List (List Nat) :=
  (entries ++ List.replicate (idx + 1 - entries.length) []).set idx value

/-- `get` without `dir` (picotron_export.py 46-50): `none` is the error of `strict`. -/
def get (entries : List (List Nat)) (idx : Nat) : Option (List Nat) := entries[idx]?

/-- `SysRomIndex.cart` (picotron_export.py 75). -/
def cartIdx : Nat := 2

/-- `SysRomExport64.get_cart` (picotron_export.py 82-86). -/
def getCart (defVersion : Nat) (tiny : Bool) (entries : List (List Nat)) : Option Ptron.Cart :=
  match get entries cartIdx with
  | none => none
  | some entry => if entry = [] then none else Ptron.readRom defVersion tiny entry

/-- `SysRomExport64.set_cart` (picotron_export.py 88-90). -/
def setCart (padding limit : Nat) (fast : Bool) (cart : Ptron.Cart) (entries : List (List Nat)) : Option (List (List Nat)) :=
  (Ptron.writeRom cart padding limit fast).map (set entries cartIdx)

/-! ### The page -/

/-- The fixed part of the pattern of `find_cart` (picotron_export.py 117). -/
def lit : List Nat := "p64cart_str=\"".toList.map Char.toNat

/-- `[0-9a-fA-F]`. -/
def isHex (c : Nat) : Bool := (hexVal c).isSome

/-- Whether `p64cart_str="([0-9a-fA-F]*)"` matches here, and the length of the group (the digits end at the first other
character, so that the greedy match is the only one). -/
def matchHere (s : List Nat) : Option Nat :=
  if lit.isPrefixOf s then
    let h := (s.drop lit.length).takeWhile isHex
    if ((s.drop lit.length).drop h.length).head? = some 34 then some h.length else none
  else none

/-- `find_cart` (picotron_export.py 116-120): start and length of the group of the first match. -/
def findCart : List Nat → Option (Nat × Nat)
  | [] => none
  | c :: s =>
    match matchHere (c :: s) with
    | some n => some (lit.length, n)
    | none => (findCart s).map fun p => (p.1 + 1, p.2)

/-- `bytes.hex()`. -/
def toHex : List Nat → List Nat
  | [] => []
  | b :: s => hexDigit (b / 16) :: hexDigit (b % 16) :: toHex s

/-- `bytes.fromhex` of digits. -/
def fromHex : List Nat → Option (List Nat)
  | [] => some []
  | [_] => none
  | a :: b :: s => do
    let x ← hexVal a
    let y ← hexVal b
    let r ← fromHex s
    return (16 * x + y) :: r

/-- `HtmlExport64.get_cart` (picotron_export.py 122-124). -/
def htmlGet (defVersion : Nat) (tiny : Bool) (text : List Nat) : Option Ptron.Cart := do
  let (i, n) ← findCart text
  let rom ← fromHex ((text.drop i).take n)
  Ptron.readRom defVersion tiny rom

/-- `str_replace_between(text, *span(1), rom.hex())` (utils.py 1490-1492, picotron_export.py 128). -/
def htmlPut (text rom : List Nat) : Option (List Nat) :=
  (findCart text).map fun (i, n) => text.take i ++ toHex rom ++ text.drop (i + n)

/-- `HtmlExport64.set_cart` (picotron_export.py 126-128). -/
def htmlSet (padding limit : Nat) (fast : Bool) (cart : Ptron.Cart) (text : List Nat) : Option (List Nat) := do
  let rom ← Ptron.writeRom cart padding limit fast
  htmlPut text rom

end Verif.SysRom
