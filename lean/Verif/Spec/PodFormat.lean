import Verif.Spec.Lz4
/-
The format of PICO-8's pod files, for C39, and what editing one means: an ordered list of entries.  Independent of the code.
-/
namespace Verif.PodFormat

/-- What an entry holds: a file, an image (with `bpp` bits per pixel), or a palette of 256 colors. -/
inductive Content where
  | file (data : List Nat)
  | bmp (width height bpp : Nat) (pixels : List Nat)
  | pal (rgb : List Nat)
deriving DecidableEq, Repr

abbrev Name := List Nat

def lit (s : String) : List Nat := s.toList.map Char.toNat

/-- A 32-bit number, little-endian. -/
def le4 (n : Nat) : List Nat := [n % 256, n / 256 % 256, n / 65536 % 256, n / 16777216 % 256]

/-- A field of `k` bytes with a text that ends before the first zero. -/
def Field (k : Nat) (v f : List Nat) : Prop :=
  f.length = k ∧ 0 ∉ v ∧ ∃ rest, f = v ++ rest ∧ (rest = [] ∨ rest.head? = some 0)

/-- The bytes that hold `data`, for a declared size: the data itself, or the size and the bytes of an LZ4 block. -/
inductive Payload : Bool → Nat → List Nat → List Nat → Prop
  | plain {size : Nat} {data : List Nat} (h : data.length = size) : Payload false size data data
  | packed (size : Nat) {block data : List Nat} (h1 : block.length < 2 ^ 32) (h2 : Lz4Format.Loose [] block data) :
      Payload true size data (le4 block.length ++ block)

/-- The number of bytes of an image. -/
def imageSize (w h bpp : Nat) : Nat := w * h * (bpp / 8)

/-- The bytes of an entry: with its tag, its name, and what it holds. -/
inductive IsEntry : List Nat → Option Name → Content → List Nat → Prop
  | file (packed : Bool) (size : Nat) {name field data bytes : List Nat} (h1 : size < 2 ^ 32) (h2 : Field 0x40 name field)
      (h3 : Payload packed size data bytes) :
      IsEntry (lit (if packed then "cFIL" else "CFIL")) (some name) (.file data)
        (lit (if packed then "cFIL" else "CFIL") ++ (le4 0 ++ (le4 size ++ (field ++ bytes))))
  | bmp (packed : Bool) (size w h bpp : Nat) {raw bytes : List Nat} (h0 : size < 2 ^ 32) (h1 : packed = true ∨ 20 ≤ size)
      (h2 : w < 2 ^ 32) (h3 : h < 2 ^ 32) (h4 : bpp = 8 ∨ bpp = 32) (h5 : imageSize w h bpp ≤ raw.length)
      (h6 : Payload packed (size - 20) raw bytes) :
      IsEntry (lit (if packed then "cBMP" else "CBMP")) none (.bmp w h bpp (raw.take (imageSize w h bpp)))
        (lit (if packed then "cBMP" else "CBMP") ++
          (le4 size ++ (le4 w ++ (le4 h ++ (le4 bpp ++ (le4 0 ++ (le4 0 ++ bytes)))))))
  | pal {rgb : List Nat} (h : rgb.length = 768) : IsEntry (lit "CPAL") none (.pal rgb) (lit "CPAL" ++ (le4 768 ++ rgb))

/-- An entry of a file: its bytes, and what they mean. -/
structure Part where
  bytes : List Nat
  tag : List Nat
  name : Option Name
  content : Content

/-- A pod file, with the parts it consists of and what may follow the last one. -/
def IsPod (podName : Name) (parts : List Part) (tail data : List Nat) : Prop :=
  parts.length < 2 ^ 32 ∧ (∀ p ∈ parts, IsEntry p.tag p.name p.content p.bytes) ∧
  ∃ field junk, Field 0x20 podName field ∧ junk.length = 0x1c ∧
    data = lit "CPOD" ++ (le4 0x44 ++ (le4 1 ++ (field ++ (le4 parts.length ++ (junk ++ (parts.flatMap (·.bytes) ++ tail))))))

/-- What a user sees of an entry. -/
abbrev Shown := Option Name × Content

/-- A requested change. -/
inductive Edit where
  | insert (i : Nat) (name : Option Name) (content : Content) (compress : Bool)
  | delete (i : Nat)
  | replace (i : Nat) (content : Content)
  | rename (i : Nat) (name : Name)

/-- The new name of an entry: only files have names. -/
def renamed (name : Name) : Shown → Shown
  | (_, .file data) => (some name, .file data)
  | x => x

/-- The list after the change; an insertion past the end appends.  The other changes are refused if there is no such entry. -/
def apply (l : List Shown) : Edit → Option (List Shown)
  | .insert i name content _ => some (l.take i ++ (name, content) :: l.drop i)
  | .delete i => if i < l.length then some (l.take i ++ l.drop (i + 1)) else none
  | .replace i content => (l[i]?).map fun x => l.take i ++ (x.1, content) :: l.drop (i + 1)
  | .rename i name => (l[i]?).map fun x => l.take i ++ renamed name x :: l.drop (i + 1)

end Verif.PodFormat
