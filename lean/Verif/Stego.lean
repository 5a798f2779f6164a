import Verif.Bits
import Verif.Mem
import Verif.Rom
import Verif.Ptron
/-
Model of the cart images: data hidden in the low bits of the pixels (pico_cart.py 194-286, picotron_cart.py 295-406) and
the plain label and sprite sheet images of PICO-8 (pico_cart.py 288-314).

An image is the list of its pixels row by row, pixel (x, y) being number `x + y * width`.  Loading and saving PNG/QOI
files is not modelled (both are lossless for 8-bit RGBA); `none` is an exception.
-/
namespace Verif.Stego

/-- One pixel, channels below 256. -/
structure Px where
  r : Nat
  g : Nat
  b : Nat
  a : Nat
deriving DecidableEq, Repr

/-! ### PICO-8 -/

/-- `v & ~3`. -/
def clear2 (v : Nat) : Nat := (v >>> 2) <<< 2

/-- `v & ~7`. -/
def clear3 (v : Nat) : Nat := (v >>> 3) <<< 3

/-- The body of the loop of `write_cart_to_image` (pico_cart.py 275-280). -/
def hideByte (p : Px) (byte : Nat) : Px :=
  { b := clear2 p.b ||| (byte &&& 3)
    g := clear2 p.g ||| ((byte >>> 2) &&& 3)
    r := clear2 p.r ||| ((byte >>> 4) &&& 3)
    a := clear2 p.a ||| ((byte >>> 6) &&& 3) }

/-- The loop of `write_cart_to_image` (pico_cart.py 271-281); `none` is the `IndexError` of `output[i]`. -/
def hide : List Px → List Nat → Option (List Px)
  | [], _ => some []
  | _ :: _, [] => none
  | p :: ps, byte :: out => (hide ps out).map (hideByte p byte :: ·)

/-- pico_cart.py 214. -/
def seekByte (p : Px) : Nat := ((p.b &&& 3) <<< 0) ||| ((p.g &&& 3) <<< 2) ||| ((p.r &&& 3) <<< 4) ||| ((p.a &&& 3) <<< 6)

/-- The loop of `read_cart_from_image` (pico_cart.py 211-215). -/
def seek (image : List Px) : List Nat := image.map seekByte

/-- `k_palette` (pico_defs.py 124-158). -/
def palette : List Px := [
  ⟨0x00, 0x00, 0x00, 0xff⟩, ⟨0x1d, 0x2b, 0x53, 0xff⟩, ⟨0x7e, 0x25, 0x53, 0xff⟩, ⟨0x00, 0x87, 0x51, 0xff⟩,
  ⟨0xab, 0x52, 0x36, 0xff⟩, ⟨0x5f, 0x57, 0x4f, 0xff⟩, ⟨0xc2, 0xc3, 0xc7, 0xff⟩, ⟨0xff, 0xf1, 0xe8, 0xff⟩,
  ⟨0xff, 0x00, 0x4d, 0xff⟩, ⟨0xff, 0xa3, 0x00, 0xff⟩, ⟨0xff, 0xec, 0x27, 0xff⟩, ⟨0x00, 0xe4, 0x36, 0xff⟩,
  ⟨0x29, 0xad, 0xff, 0xff⟩, ⟨0x83, 0x76, 0x9c, 0xff⟩, ⟨0xff, 0x77, 0xa8, 0xff⟩, ⟨0xff, 0xcc, 0xaa, 0xff⟩,
  ⟨0x29, 0x18, 0x14, 0xff⟩, ⟨0x11, 0x1D, 0x35, 0xff⟩, ⟨0x42, 0x21, 0x36, 0xff⟩, ⟨0x12, 0x53, 0x59, 0xff⟩,
  ⟨0x74, 0x2F, 0x29, 0xff⟩, ⟨0x49, 0x33, 0x3B, 0xff⟩, ⟨0xA2, 0x88, 0x79, 0xff⟩, ⟨0xF3, 0xEF, 0x7D, 0xff⟩,
  ⟨0xBE, 0x12, 0x50, 0xff⟩, ⟨0xFF, 0x6C, 0x24, 0xff⟩, ⟨0xA8, 0xE7, 0x2E, 0xff⟩, ⟨0x00, 0xB5, 0x43, 0xff⟩,
  ⟨0x06, 0x5A, 0xB5, 0xff⟩, ⟨0x75, 0x46, 0x65, 0xff⟩, ⟨0xFF, 0x6E, 0x59, 0xff⟩, ⟨0xFF, 0x9D, 0x81, 0xff⟩]

/-- A pixel without the low bits, as `k_palette_rgb_6bpp_map` uses it (pico_cart.py 173, 200). -/
def key (p : Px) : Nat × Nat × Nat := (clear2 p.r, clear2 p.g, clear2 p.b)

/-- `k_palette_rgb_6bpp_map.get(key, 0)` (pico_cart.py 173, 200): of equal keys, the last one counts. -/
def colorOf (p : Px) : Nat :=
  (((List.range palette.length).reverse).find? fun i => (palette[i]?).map key == some (key p)).getD 0

/-- `create_screenshot_surface` (pico_cart.py 241-251) of one pixel. -/
def screenshotPx (transparent : Bool) (i : Nat) : Option Px :=
  (palette[i]?).map fun c => if transparent && i == 0 then { c with a := 0 } else c

/-- `create_screenshot_surface` (pico_cart.py 241-251). -/
def createScreenshot (transparent : Bool) (shot : List Nat) : Option (List Px) := shot.mapM (screenshotPx transparent)

/-- `surface_pixels_to_screenshot` (pico_cart.py 194-202) of an image of the given width, at the given offset; the
screenshot is 128 x 128. -/
def toScreenshot (width dx dy : Nat) (image : List Px) : Option (List Nat) :=
  (List.range (128 * 128)).mapM fun k => (image[(k % 128 + dx) + (k / 128 + dy) * width]?).map colorOf

/-- `image.draw(label_surf, k_label_offset)` (pico_cart.py 266, media_utils.py 124-126) at pixel number `i` of the
160 pixels wide image: an opaque pixel of the label replaces the pixel, a transparent one leaves it. -/
def drawPx (label : List Px) (i : Nat) (p : Px) : Px :=
  let x := i % 160
  let y := i / 160
  if 16 ≤ x ∧ x < 16 + 128 ∧ 24 ≤ y ∧ y < 24 + 128 then
    match label[(x - 16) + (y - 24) * 128]? with
    | some c => if c.a = 0 then p else c
    | none => p
  else p

/-- Drawing the label over the whole image. -/
def drawLabel (label : List Px) (image : List Px) : List Px := image.mapIdx (drawPx label)

/-- The characters that `draw_text_on_image` (pico_cart.py 221-239) draws with the spacing (0, 2) and the size (124, 16)
of titles, with their places; `x` and `y` are the local variables. -/
def glyphs (x y : Nat) : List Nat → List (Nat × Nat × Nat)
  | [] => []
  | ch :: text =>
    if ch = 10 then
      if y + 6 + 2 ≥ 16 then [] else glyphs 0 (y + 6 + 2) text
    else
      let w := if ch ≥ 0x80 then 8 else 4
      if x + w ≤ 124 then (x, y, ch) :: glyphs (x + w) y text else glyphs (x + w) y text

/-- Drawing one character (pico_cart.py 237, media_utils.py 124-126) at offset (18, 167) of the image.  `font x y` is the
pixel of the font and `over p q` is `q` composited over `p`. -/
def drawGlyph (font : Nat → Nat → Px) (over : Px → Px → Px) (image : List Px) (g : Nat × Nat × Nat) : List Px :=
  image.mapIdx fun i p =>
    let x := i % 160
    let y := i / 160
    if 18 + g.1 ≤ x ∧ x < 18 + g.1 + (if g.2.2 ≥ 0x80 then 8 else 4) ∧ 167 + g.2.1 ≤ y ∧ y < 167 + g.2.1 + 6 then
      over p (font (g.2.2 % 16 * 8 + (x - 18 - g.1)) (g.2.2 / 16 * 6 + (y - 167 - g.2.1)))
    else p

/-- `draw_text_on_image` (pico_cart.py 221-239). -/
def drawTitle (font : Nat → Nat → Px) (over : Px → Px → Px) (title : List Nat) (image : List Px) : List Px :=
  (glyphs 0 0 title).foldl (drawGlyph font over) image

/-- `write_cart_to_image` (pico_cart.py 253-286) after `write_cart_to_rom` gave `output`.  The template is an image of
160 x 205 pixels (checked when loading it, 177-192).  `label = none`: no label, or `template_only`; likewise an empty
title. -/
def writeImage (font : Nat → Nat → Px) (over : Px → Px → Px) (template : List Px) (label : Option (List Nat))
    (title : List Nat) (output : List Nat) : Option (List Px) :=
  if template.length ≠ 160 * 205 then none
  else
    match label with
    | none => hide (drawTitle font over title template) output
    | some l =>
      match createScreenshot true l with
      | none => none
      | some surf => hide (drawTitle font over title (drawLabel surf template)) output

/-- `read_cart_from_image` (pico_cart.py 204-219): the cart and its label. -/
def readImage (sha : List Nat → List Nat) (base : PCart) (tiny keep : Bool) (image : List Px) :
    Option (PCart × List Nat) :=
  if image.length ≠ 160 * 205 then none
  else
    match readRom sha base tiny keep (seek image) with
    | none => none
    | some cart => (toScreenshot 160 16 24 image).map fun label => (cart, label)

/-- `write_cart_label` (pico_cart.py 305-307); `none` is a cart without label. -/
def writeLabel (label : Option (List Nat)) : Option (List Px) :=
  createScreenshot true (label.getD (List.replicate (128 * 128) 0))

/-- `read_cart_label` (pico_cart.py 288-292). -/
def readLabel (image : List Px) : Option (List Nat) :=
  if image.length ≠ 128 * 128 then none else toScreenshot 128 0 0 image

/-- `write_cart_spritesheet` (pico_cart.py 309-315). -/
def writeSheet (rom : List Nat) : Option (List Px) :=
  match (List.range (128 * 128)).mapM fun k => get4 rom (memSpriteAddr (k % 128) (k / 128)) with
  | none => none
  | some shot => createScreenshot false shot

/-- The loop of `read_cart_spritesheet` (pico_cart.py 299-301) over the pixels from number `k` on. -/
def setSheet (rom : List Nat) (k : Nat) : List Nat → Option (List Nat)
  | [] => some rom
  | c :: cs =>
    match set4 rom (memSpriteAddr (k % 128) (k / 128)) (c &&& 0xf) with
    | none => none
    | some rom => setSheet rom (k + 1) cs

/-- `read_cart_spritesheet` (pico_cart.py 294-303), the data of the cart. -/
def readSheet (image : List Px) : Option (List Nat) :=
  if image.length ≠ 128 * 128 then none
  else
    match toScreenshot 128 0 0 image with
    | none => none
    | some shot => setSheet createRom 0 shot

/-! ### Picotron -/

/-- The body of the loop of `write_cart64_to_image` (picotron_cart.py 396-401). -/
def hideWord (p : Px) (word : Nat) : Px :=
  { r := clear3 p.r ||| (word &&& 7)
    g := clear3 p.g ||| ((word >>> 3) &&& 7)
    b := clear3 p.b ||| ((word >>> 6) &&& 7)
    a := clear2 p.a ||| ((word >>> 9) &&& 3) }

/-- The loop of `write_cart64_to_image` (picotron_cart.py 393-401).  `br.pos()` is the number of bytes taken from the
stream so far. -/
def hide64 (total endPos : Nat) : List Px → BitReader → Option (List Px)
  | [], _ => some []
  | p :: ps, br =>
    if total - br.src.length < endPos then
      match br.readBits 11 with
      | none => none
      | some (word, br) => (hide64 total endPos ps br).map (hideWord p word :: ·)
    else (hide64 total endPos ps br).map (hideWord p 0 :: ·)

/-- picotron_cart.py 306. -/
def seekWord (p : Px) : Nat := (p.r &&& 7) ||| ((p.g &&& 7) <<< 3) ||| ((p.b &&& 7) <<< 6) ||| ((p.a &&& 3) <<< 9)

/-- The loop of `read_cart64_from_image` (picotron_cart.py 302-308): the bytes that have reached the stream when
`io.getvalue()` is called, before the writer is flushed. -/
def seek64 (image : List Px) : List Nat := (image.foldl (fun w p => w.writeBits 11 (seekWord p)) BitWriter.init).out

/-- `write_cart64_to_image` (picotron_cart.py 375-406); `draw` stands for the drawing of the label and the title over the
template (384-391). -/
def writeImage64 (template : List Px) (draw : List Px → List Px) (cart : Ptron.Cart) (fast : Bool) : Option (List Px) :=
  match Ptron.writeRom cart 4 0x40000 fast with
  | none => none
  | some output =>
    if template.length ≠ 512 * 384 then none
    else hide64 output.length (output.length - 2) (draw template) (BitReader.init output)

/-- `label.qoi` and `label.png` (picotron_cart.py 42-44). -/
def labelQoi : List Nat := "label.qoi".toList.map Char.toNat
def labelPng : List Nat := "label.png".toList.map Char.toNat

/-- The pixels of the label of an image (picotron_cart.py 316-319); the label is 480 x 270 pixels. -/
def label64 (image : List Px) : Option (List Px) :=
  (List.range (480 * 270)).mapM fun k =>
    (image[(16 + k % 480) + (38 + k / 480) * 512]?).map fun p => ⟨clear3 p.r, clear3 p.g, clear3 p.b, 0xff⟩

/-- `read_cart64_from_image` (picotron_cart.py 295-328): the cart, with the label of the image added if it has none.
`saveQoi` is `label.save(format="qoi")`, `none` if that format is missing (`KeyError`), `savePng` is `label.save()`. -/
def readImage64 (saveQoi : List Px → Option (List Nat)) (savePng : List Px → List Nat) (defVersion : Nat) (tiny : Bool)
    (image : List Px) : Option Ptron.Cart :=
  if image.length ≠ 512 * 384 then none
  else
    match Ptron.readRom defVersion tiny (seek64 image) with
    | none => none
    | some cart =>
      if cart.files.any (fun f => f.1 == labelQoi || f.1 == labelPng) then some cart
      else
        match label64 image with
        | none => none
        | some label =>
          match saveQoi label with
          | some data => some { cart with files := Ptron.setFile cart.files labelQoi (some data) }
          | none => some { cart with files := Ptron.setFile cart.files labelPng (some (savePng label)) }

end Verif.Stego
