import Verif.Ptron
import Verif.Url
/-
Model of Picotron cartridges in text form, `.p64` and `.lua` (picotron_cart.py 432-528).  `none` is an exception.

As in `Verif.Ptron`, paths are modelled by their encoded bytes.  Line numbers kept for messages are left out.
-/
namespace Verif.P64

open Verif.Ptron (Files Cart setFile endsSlash splitLast leStr)

/-- An ASCII literal. -/
def lit (s : String) : List Nat := s.toList.map Char.toNat

/-- `k_p64_prefix` (432). -/
def p64Prefix : List Nat := lit "picotron cartridge"
/-- `k_p64_main_path` (433). -/
def mainPath : List Nat := lit "main.lua"
/-- `k_p64_file_prefix` (434). -/
def filePrefix : List Nat := [0x3a, 0x3a, 0x20]
/-- `k_p64_b64_prefix` (435). -/
def b64Prefix : List Nat := [0x62, 0x36, 0x34, 0x24]
/-- `k_p64_end_file` (437). -/
def endFile : List Nat := lit "[eoc]"

/-- `bytes.isspace` on one byte: what `bytes.strip()` and `bytes.split()` remove. -/
def byteSpace (c : Nat) : Bool := (9 ≤ c && c ≤ 13) || c == 32

/-- `bytes.strip()`. -/
def byteStrip (s : List Nat) : List Nat := ((s.dropWhile byteSpace).reverse.dropWhile byteSpace).reverse

/-- Put a byte at the beginning of the first piece. -/
def consHead (c : Nat) : List (List Nat) → List (List Nat)
  | [] => [[c]]
  | l :: ls => (c :: l) :: ls

/-- The pieces between line ends, where CR, LF and CR LF end a line; always at least one. -/
def pieces : List Nat → List (List Nat)
  | [] => [[]]
  | 13 :: 10 :: cs => [] :: pieces cs
  | c :: cs => if c = 10 ∨ c = 13 then [] :: pieces cs else consHead c (pieces cs)

/-- `bytes.splitlines()`: a line end at the end of the text does not begin another line. -/
def splitLines (s : List Nat) : List (List Nat) :=
  if (pieces s).getLast? = some [] then (pieces s).dropLast else pieces s

/-- The translation of the alternative characters at the start of `base64.b64decode`, into the alphabet of `b64Char`. -/
def b64Alt (c : Nat) : Nat := if c = 0x2b then 0x5f else if c = 0x2f then 0x2d else c

/-- `pico_base64_decode(data)` (pico_cart.py 544-545) with `validate=False`: bytes outside the alphabet are skipped.
Simplified: more characters after the padding, which Python ignores, are an exception here. -/
def b64DecodeLenient (s : List Nat) : Option (List Nat) :=
  b64Decode ((s.map b64Alt).filter fun c => (b64Val c).isSome || c == 61)

/-- The second word of `line.split()`, as in `line.split()[1]`; empty if there is none. -/
def secondWord (line : List Nat) : List Nat :=
  ((((line.dropWhile byteSpace).dropWhile fun c => !byteSpace c)).dropWhile byteSpace).takeWhile fun c => !byteSpace c

/-- The local variables of `read_cart64_from_source` (439-447). -/
structure State where
  cart : Cart
  path : Option (List Nat)
  lines : List (List Nat)
deriving DecidableEq

/-- `flush` (449-458).  A path that is `None` or empty is not stored. -/
def flush (s : State) : Option Cart :=
  match s.path with
  | none => some s.cart
  | some path =>
    if path = [] then some s.cart
    else if endsSlash path then some ⟨s.cart.version, setFile s.cart.files path none⟩
    else
      let data := joinNl s.lines
      if b64Prefix.isPrefixOf data then
        (b64DecodeLenient (data.drop 4)).map fun d => ⟨s.cart.version, setFile s.cart.files path (some d)⟩
      else some ⟨s.cart.version, setFile s.cart.files path (some data)⟩

/-- The loop body (460-474).  Simplified: `int` accepts a run of digits only (`parseNat`). -/
def step (raw : Bool) (s : State) (line : List Nat) : Option State :=
  if filePrefix.isPrefixOf line && !raw then
    (flush s).map fun cart =>
      let path := byteStrip (line.drop 3)
      ⟨cart, if path = endFile then none else some path, []⟩
  else if s.path = none ∧ (lit "version ").isPrefixOf line then
    (parseNat (secondWord line)).map fun v => ⟨⟨v, s.cart.files⟩, s.path, s.lines⟩
  else some ⟨s.cart, s.path, s.lines ++ [line]⟩

/-- The loop (460-474). -/
def steps (raw : Bool) : State → List (List Nat) → Option State
  | s, [] => some s
  | s, l :: ls => (step raw s l).bind fun s' => steps raw s' ls

/-- `raw` after the fallback (442-443). -/
def isRaw (data : List Nat) (raw : Bool) : Bool := raw || (!p64Prefix.isPrefixOf data && !filePrefix.isPrefixOf data)

/-- The end of `read_cart64_from_source` (476-481). -/
def finish (raw : Bool) (s : State) : Option Cart :=
  if raw then flush s
  else match s.path with
    | none => some s.cart
    | some path => if path = [] then some s.cart else none

/-- `read_cart64_from_source` (439-481); `defVersion` is the version a new `Cart64` has. -/
def read (defVersion : Nat) (data : List Nat) (raw : Bool) : Option Cart :=
  (steps (isRaw data raw) ⟨⟨defVersion, []⟩, if isRaw data raw then some mainPath else none, []⟩ (splitLines data)).bind
    (finish (isRaw data raw))

/-- The characters of `k_max_bad_p64_char_re` and `k_min_bad_p64_char_re` (483-484). -/
def badChar (avoidBase64 : Bool) (c : Nat) : Bool :=
  if avoidBase64 then c == 0
  else c ≤ 8 || (11 ≤ c && c ≤ 12) || (14 ≤ c && c ≤ 0x1f) || (0x7f ≤ c && c ≤ 0xff)

/-- `re.search(bad_p64_char_re, file.data, re.M)` (514): a bad character, or a line (after the beginning or a line feed)
that begins with the prefix of files. -/
def isBad (avoidBase64 : Bool) (data : List Nat) : Bool :=
  data.any (badChar avoidBase64) || (splitNl data).any filePrefix.isPrefixOf

/-- `list_chunk` (utils.py 1586-1588): the slices at the multiples of `size`. -/
def chunk (size : Nat) (s : List Nat) : List (List Nat) :=
  (List.range ((s.length + size - 1) / size)).map fun k => (s.drop (k * size)).take size

/-- `k_label_files` (42-44), `k_label_qoi_file` and `k_label_png_file`. -/
def labelFiles : List (List Nat) := [lit "label.qoi", lit "label.png"]

/-- `preview_order_key` (486-502).  (Python compares the decoded strings, here the encoded bytes are compared.) -/
def orderKey (path : List Nat) : List Nat × Int × List Nat :=
  let (dirname, filename) := splitLast path
  let order : Int :=
    if filename = [] then -3
    else if filename = mainPath then -2
    else if (lit ".lua").isSuffixOf filename then -1
    else if labelFiles.contains filename then 1
    else if filename.head? == some 0x2e then 2
    else 0
  (dirname, order, filename)

/-- Comparison of the keys, as of Python tuples. -/
def leKey (a b : List Nat × Int × List Nat) : Bool :=
  if a.1 ≠ b.1 then leStr a.1 b.1
  else if a.2.1 ≠ b.2.1 then decide (a.2.1 < b.2.1)
  else leStr a.2.2 b.2.2

/-- Insertion before the first file that is not ordered before it. -/
def insertFile (f : List Nat × Option (List Nat)) : Files → Files
  | [] => [f]
  | g :: gs => if leKey (orderKey f.1) (orderKey g.1) then f :: g :: gs else g :: insertFile f gs

/-- `sorted(cart.files.items(), key=preview_order_key)` (511), a stable sort. -/
def sortFiles (files : Files) : Files := files.foldr insertFile []

/-- What is appended to `lines` for the contents of a file (513-519). -/
def dataLines (avoidBase64 : Bool) : Option (List Nat) → List (List Nat)
  | none => []
  | some data => if isBad avoidBase64 data then chunk 76 (b64Prefix ++ b64Encode data) else [data]

/-- What is appended to `lines` for a file (512-519). -/
def fileLines (avoidBase64 : Bool) (f : List Nat × Option (List Nat)) : List (List Nat) :=
  (filePrefix ++ f.1) :: dataLines avoidBase64 f.2

/-- `lines` at the end of `write_cart64_to_source` (505-521). -/
def sourceLines (avoidBase64 : Bool) (cart : Cart) : List (List Nat) :=
  [p64Prefix ++ lit " // www.picotron.net", lit "version " ++ natDigits cart.version, []] ++
    (sortFiles cart.files).flatMap (fileLines avoidBase64) ++ [filePrefix ++ endFile]

/-- `write_cart64_to_source` (504-523). -/
def write (avoidBase64 : Bool) (cart : Cart) : List Nat := joinNl (sourceLines avoidBase64 cart) ++ [10]

/-- `write_cart64_to_raw_source` (525-528): `none` if there is no such file.  (`PicotronDir` has no data either.) -/
def writeRaw (cart : Cart) : Option (List Nat) :=
  ((cart.files.find? fun f => f.1 == mainPath).bind (·.2))

end Verif.P64
