import Verif.Mem
/-
Model of `merge_cart` (pico_cart.py 753-773).
-/
namespace Verif

/-- The parts of a cart that can be merged. -/
structure MCart where
  rom : List Nat
  code : List Nat
  codeMap : List Nat
  codeRom : Option (List Nat)
  label : Option (List Nat)
  metaData : List (List Nat × List Nat)

/-- The section names of `merge_cart`. -/
inductive Sect
  | lua | gfx | map | gff | music | sfx | label
  | metaKey (name : List Nat)
  | other
deriving DecidableEq

/-- One iteration of `merge_cart` (754-773).  For `meta:` the code indexes the name of the cart (a string) with a string, which is a
`TypeError`. -/
def mergeOne (dest src : MCart) : Sect → Option MCart
  | .lua => some { dest with code := src.code, codeMap := src.codeMap, codeRom := src.codeRom }
  | .gfx => some { dest with rom := copyfrom8 dest.rom 0 (0x2000 - 0) src.rom }
  | .map => some { dest with rom := copyfrom8 dest.rom 0x2000 (0x3000 - 0x2000) src.rom }
  | .gff => some { dest with rom := copyfrom8 dest.rom 0x3000 (0x3100 - 0x3000) src.rom }
  | .music => some { dest with rom := copyfrom8 dest.rom 0x3100 (0x3200 - 0x3100) src.rom }
  | .sfx => some { dest with rom := copyfrom8 dest.rom 0x3200 (0x4300 - 0x3200) src.rom }
  | .label => some { dest with label := src.label }
  | .metaKey _ => none
  | .other => none

/-- `merge_cart` (753-773). -/
def mergeCart (dest src : MCart) : List Sect → Option MCart
  | [] => some dest
  | s :: ss => (mergeOne dest src s).bind fun d => mergeCart d src ss

end Verif
