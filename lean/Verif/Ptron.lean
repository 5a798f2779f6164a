import Verif.Lz4
import Verif.Binary
/-
Model of Picotron cartridges in ROM form (picotron_cart.py 162-286).  `none` is an exception.

Paths are modelled by their encoded bytes: `encode_luastr`/`decode_luastr` (pico_defs.py 235-239, UTF-8 with
surrogateescape) are inverse to each other between the byte strings and the strings that come out of decoding.
-/
namespace Verif.Ptron

/-- `cart.files` (picotron_cart.py 53) in order of insertion, with `file.data` for each path: `none` for a `PicotronDir`
(picotron_fs.py 531-535). -/
abbrev Files := List (List Nat × Option (List Nat))

/-- The parts of `Cart64` (picotron_cart.py 46-54) that the ROM form stores. -/
structure Cart where
  version : Nat
  files : Files
deriving DecidableEq

/-- `cart.files[fspath] = file`: a dictionary keeps the place of a key it already has. -/
def setFile (files : Files) (path : List Nat) (data : Option (List Nat)) : Files :=
  if files.any (fun f => f.1 == path) then files.map fun f => if f.1 == path then (path, data) else f
  else files ++ [(path, data)]

/-- `fspath.endswith("/")`. -/
def endsSlash (path : List Nat) : Bool := path.getLast? == some 0x2f

/-- `str_split_last(path, "/")` (utils.py 1556-1559). -/
def splitLast (path : List Nat) : List Nat × List Nat :=
  let name := (path.reverse.takeWhile (· != 0x2f)).reverse
  (path.take (path.length - name.length - 1), name)

/-- `path_extension` (utils.py 2405-2407) of a name without slashes: `os.path.splitext` cuts at the last dot unless only
dots come before it. -/
def extension (name : List Nat) : List Nat :=
  let tail := (name.reverse.takeWhile (· != 0x2e)).reverse
  let stem := name.take (name.length - tail.length - 1)
  if tail.length < name.length ∧ stem.any (· != 0x2e) then 0x2e :: tail else []

/-- `ext_order_key` (picotron_cart.py 202-224).  (Python compares the decoded strings; here the encoded bytes are
compared, which may order names that are not UTF-8 differently.) -/
def orderKey (path : List Nat) : Int × List Nat × List Nat × List Nat :=
  let (dirname, filename) := splitLast path
  if filename = [] then (-10, [], dirname, filename)
  else
    let ext := extension filename
    let order : Int :=
      if filename = "main.lua".toList.map Char.toNat then 1
      else if ext = ".lua".toList.map Char.toNat then 0
      else if ext = ".pod".toList.map Char.toNat then 2
      else if ext = ".gfx".toList.map Char.toNat then 3
      else if ext = ".sfx".toList.map Char.toNat then 4
      else if ext = ".map".toList.map Char.toNat then 5
      else 6
    (order, ext, filename, dirname)

/-- Comparison of lists of numbers, as of Python strings. -/
def leStr : List Nat → List Nat → Bool
  | [], _ => true
  | _ :: _, [] => false
  | a :: as, b :: bs => if a = b then leStr as bs else decide (a < b)

/-- Comparison of the keys, as of Python tuples. -/
def leKey (a b : Int × List Nat × List Nat × List Nat) : Bool :=
  if a.1 ≠ b.1 then decide (a.1 < b.1)
  else if a.2.1 ≠ b.2.1 then leStr a.2.1 b.2.1
  else if a.2.2.1 ≠ b.2.2.1 then leStr a.2.2.1 b.2.2.1
  else leStr a.2.2.2 b.2.2.2

/-- Insertion before the first file that is not ordered before it. -/
def insertFile (f : List Nat × Option (List Nat)) : Files → Files
  | [] => [f]
  | g :: gs => if leKey (orderKey f.1) (orderKey g.1) then f :: g :: gs else g :: insertFile f gs

/-- `sorted(cart.files.items(), key=ext_order_key)` (picotron_cart.py 231), a stable sort. -/
def sortFiles (files : Files) : Files := files.foldr insertFile []

/-- What is written for one file (picotron_cart.py 232-241): the NUL-terminated path and, unless it is a directory, the
size (one byte, or 255 and four bytes) and the data. -/
def fileBytes (f : List Nat × Option (List Nat)) : Option (List Nat) :=
  if endsSlash f.1 == f.2.isSome then none
  else
    match f.2 with
    | none => some (f.1 ++ [0])
    | some data =>
      if data.length < 0xff then some (f.1 ++ 0 :: data.length :: data)
      else (packU false 4 data.length).map fun size => f.1 ++ 0 :: 0xff :: (size ++ data)

/-- The loop over the files. -/
def filesBytes : Files → Option (List Nat)
  | [] => some []
  | f :: fs => do
    let a ← fileBytes f
    let b ← filesBytes fs
    return a ++ b

/-- `k_rom_header_sig` (picotron_cart.py 160). -/
def romSig : List Nat := [0x70, 0x36, 0x34]

/-- `write_cart64_to_rom` (picotron_cart.py 226-261) without the printing of sizes.  `limit = 0` stands for `None` too. -/
def writeRom (cart : Cart) (padding limit : Nat) (fast : Bool) : Option (List Nat) := do
  let body ← filesBytes (sortFiles cart.files)
  let compressed ← Lz4.compress fast body
  if limit ≠ 0 ∧ 8 + compressed.length > limit then none
  else
    let version ← packU false 1 cart.version
    let size ← packU false 4 compressed.length
    return romSig ++ version ++ size ++ compressed ++ List.replicate padding 0

/-- `r.zbytes()` (utils.py 903-917 with no size): up to the NUL, which must exist. -/
def readZ : List Nat → Option (List Nat × List Nat)
  | [] => none
  | c :: r => if c = 0 then some ([], r) else (readZ r).map fun p => (c :: p.1, p.2)

/-- Size and data of a file (picotron_cart.py 183-186). -/
def readData (r : List Nat) : Option (List Nat × List Nat) := do
  let (size, r) ← unpackU false 1 r
  let (size, r) ← if size = 0xff then unpackU false 4 r else some (size, r)
  readBytes size.toNat false r

/-- The loop over the files (picotron_cart.py 178-188); every round consumes at least a NUL, so that the number of bytes
bounds the number of rounds. -/
def readFiles : Nat → List Nat → Files → Option Files
  | _, [], files => some files
  | 0, _ :: _, _ => none
  | fuel + 1, c :: cs, files => do
    let (path, r) ← readZ (c :: cs)
    if endsSlash path then readFiles fuel r (setFile files path none)
    else
      let (data, r) ← readData r
      readFiles fuel r (setFile files path (some data))

/-- `main.lua`, `k_p64_main_path` (picotron_cart.py 430). -/
def mainPath : List Nat := "main.lua".toList.map Char.toNat

/-- `read_cart64_from_rom` (picotron_cart.py 166-200).  `defVersion` is the version of a new `Cart64`.  The tiny form is
read by the PICO-8 code reader without a limit on the size. -/
def readRom (defVersion : Nat) (allowTiny : Bool) (buffer : List Nat) : Option Cart := do
  let (sig, r) ← readBytes 3 false buffer
  if sig = romSig then
    let (version, r) ← unpackU false 1 r
    let (size, r) ← unpackU false 4 r
    let (compressed, _) ← readBytes size.toNat false r
    let body ← Lz4.uncompress compressed
    let files ← readFiles body.length body []
    return ⟨version.toNat, files⟩
  else if allowTiny then
    let code ← uncompressCode buffer buffer.length
    return ⟨defVersion, [(mainPath, some code)]⟩
  else none

/-- `write_cart64_to_tiny_rom` (picotron_cart.py 263-286), given the payload of the main file; the other options are
left at their defaults. -/
def writeTiny (defVersion : Nat) (data : List Nat) : Option (List Nat) := do
  let lz4 ← writeRom ⟨defVersion, [(mainPath, some data)]⟩ 0 0 false
  let pxa ← compressFull true true false false data
  let result := data
  let result := if pxa.length < result.length then pxa else result
  let result := if lz4.length < result.length then lz4 else result
  return result

end Verif.Ptron
