import Verif.P8Source
import Verif.Url
import Verif.LuaStr
/-
Model of how a file is recognised: `read_cart_autodetect`, and the formats of `read_cart` (pico_cart.py 662-700) that it can
replace.  The model gives the reader that is called and what it is called with; the readers themselves are modelled elsewhere
(`readSource`, `readClip`, `readUrl`, C38 for images).
-/
namespace Verif.Auto

/-- The readers: of images, of `.p8` text (with and without `raw=True`), of clipboard text and of URLs. -/
inductive Reader
  | image | source | raw | clip | url
deriving DecidableEq

/-- A call of a reader with bytes (`image`) or text (the others). -/
structure Call where
  reader : Reader
  data : List Nat
deriving DecidableEq

/-- `k_png_header` (pico_cart.py 174). -/
def pngHeader : List Nat := [0x89, 0x50, 0x4e, 0x47, 13, 10, 0x1a, 10]

/-- `k_url_prefix` (pico_cart.py 598): `https://www.pico-8-edu.com`. -/
def urlPrefix : List Nat := [104, 116, 116, 112, 115, 58, 47, 47, 119, 119, 119, 46, 112, 105, 99, 111, 45, 56, 45, 101, 100, 117, 46, 99, 111, 109]

/-- `read_cart_autodetect` (pico_cart.py 662-683). -/
def auto (data : List Nat) : Call :=
  if pngHeader.isPrefixOf data then ⟨.image, data⟩
  else
    let text := LuaStr.decode data
    if sP8Prefix.isPrefixOf text || (headerLine sLua).isPrefixOf text then ⟨.source, text⟩
    else if clipPrefix.isPrefixOf text then ⟨.clip, pyRstrip text⟩
    else if urlPrefix.isPrefixOf text then ⟨.url, pyRstrip text⟩
    else ⟨.raw, text⟩

/-- Line ends as Python reads them from text files (`newline=None`). -/
def univNl : List Nat → List Nat
  | [] => []
  | 13 :: 10 :: cs => 10 :: univNl cs
  | 13 :: cs => 10 :: univNl cs
  | c :: cs => c :: univNl cs

/-- `file_read_maybe_text` (utils.py 2292-2293). -/
def readMaybeText (data : List Nat) : List Nat := univNl (LuaStr.decode data)

/-- `file_read_text` (utils.py 2287-2290): `none` is the `UnicodeDecodeError` for bytes that are not UTF-8, which is where the lenient
decoder gives a surrogate. -/
def readText (data : List Nat) : Option (List Nat) :=
  if (LuaStr.decode data).any fun c => 0xdc80 ≤ c && c ≤ 0xdcff then none else some (univNl (LuaStr.decode data))

/-- `file_write_text` (utils.py 2305-2308): the bytes; `none` is the `UnicodeEncodeError` for surrogates. -/
def writeText (t : List Nat) : Option (List Nat) :=
  if t.any fun c => 0xd800 ≤ c && c < 0xe000 then none else LuaStr.encode t

/-- The formats of `CartFormat` (pico_cart.py 7-18) considered here. -/
inductive Format
  | p8 | code | png | clip | url | lua
deriving DecidableEq

/-- `read_cart` with a format (pico_cart.py 685-700). -/
def explicit (f : Format) (data : List Nat) : Option Call :=
  match f with
  | .p8 => some ⟨.source, readMaybeText data⟩
  | .code => some ⟨.source, readMaybeText data⟩
  | .png => some ⟨.image, data⟩
  | .clip => (readText data).map fun t => ⟨.clip, pyRstrip t⟩
  | .url => (readText data).map fun t => ⟨.url, pyRstrip t⟩
  | .lua => some ⟨.raw, readMaybeText data⟩

/-- `write_cart_to_raw_source` (pico_cart.py 526-530). -/
def writeRaw (withHeader unicaps : Bool) (code : List Nat) : List Nat :=
  if withHeader then headerLine sLua ++ 10 :: fromP8str unicaps code else fromP8str unicaps code

/-- What a reader of text gives for a call, up to `preprocess`. -/
def runSource (version : Nat) (c : Call) : Option SCart :=
  match c.reader with
  | .source => readSource version false c.data
  | .raw => readSource version true c.data
  | _ => none

end Verif.Auto
