import Verif.Lz77
import Verif.Mem
/-
Model of the ROM image reader and writer (pico_cart.py 91-164).

`sha` stands for `hashlib.sha1(...).digest()`, `comp` for `compress_code` with the chosen options.  `none` is any
exception.  Python streams become lists of bytes and positions.
-/
namespace Verif

/-- The fields of `Cart` (pico_cart.py 37-53) that a ROM image can hold. -/
structure PCart where
  rom : List Nat
  code : List Nat
  codeRom : Option (List Nat)
  versionId : Nat
  v0 : Nat
  v1 : Nat
  v2 : Nat
  v3 : Nat
  platform : Nat
  defaultVersion : Bool
deriving DecidableEq

/-- `read_code_from_rom` (pico_cart.py 91-99) on the rest of the stream. -/
def readCodeFromRom (keep : Bool) (src : List Nat) : Option (List Nat × Option (List Nat)) :=
  let codeRom := if keep then some (setBlock (List.replicate 0x3d00 0) 0 (src.take 0x3d00)) else none
  (uncompressCode src).map fun code => (code, codeRom)

/-- `read_cart_from_rom` (pico_cart.py 101-124); `base` is the fresh `Cart`. -/
def readRom (sha : List Nat → List Nat) (base : PCart) (allowTiny keep : Bool) (buf : List Nat) : Option PCart :=
  if buf.length < 0x8000 ∧ allowTiny then
    (readCodeFromRom keep buf).map fun c => { base with code := c.1, codeRom := c.2 }
  else if buf.length < 0x4300 then none
  else
    match readCodeFromRom keep (buf.drop 0x4300) with
    | none => none
    | some (code, codeRom) =>
      let cart := { base with rom := buf.take 0x4300, code := code, codeRom := codeRom }
      if 0x8000 < buf.length then
        match buf.drop 0x8000 with
        | vid :: v0 :: v1 :: v2 :: plat :: v3 :: rest =>
          if rest.length < 20 then none
          else
            let hash := rest.take 20
            if hash ≠ List.replicate 20 0 ∧ hash ≠ sha (buf.take 0x8000) then none
            else some { cart with versionId := vid, v0 := v0, v1 := v1, v2 := v2, v3 := v3, platform := plat,
                                  defaultVersion := false }
        | _ => none
      else some cart

/-- The code area to write (pico_cart.py 132-135). -/
def codeArea (comp : List Nat → Option (List Nat)) (keep : Bool) (c : PCart) : Option (List Nat) :=
  match keep, c.codeRom with
  | true, some area => some area
  | _, _ => comp c.code

/-- `write_cart_to_rom` (pico_cart.py 126-147). -/
def writeRom (sha : List Nat → List Nat) (comp : List Nat → Option (List Nat)) (withTrailer keep : Bool) (c : PCart) :
    Option (List Nat) :=
  let buf := List.replicate (0x8000 + (if withTrailer then 0x20 else 0)) 0
  let buf := setBlock buf 0 c.rom
  match codeArea comp keep c with
  | none => none
  | some area =>
    let buf := setBlock buf c.rom.length area
    if withTrailer then
      let head := [c.versionId, c.v0, c.v1, c.v2, c.platform, c.v3]
      if head.all (· < 256) then
        let buf := setBlock buf 0x8000 head
        some (setBlock buf (0x8000 + 6) (sha (buf.take 0x8000)))
      else none
    else some buf

/-- `write_cart_to_tiny_rom` (pico_cart.py 149-164); `comp` is `compress_code` with `force_compress=True`. -/
def writeTinyRom (comp : List Nat → Option (List Nat)) (keep : Bool) (c : PCart) : Option (List Nat) :=
  match keep, c.codeRom with
  | true, some area => (getCompressedSize area).map fun n => getBlock area 0 n
  | _, _ =>
    match comp c.code with
    | none => none
    | some b => if b.length > c.code.length then encodeP8 c.code else some b

end Verif
