import Verif.Mem
import Verif.Charset
import Verif.Text
/-
Model of the `.p8` text format: `read_cart_from_source` and `write_cart_to_source` (pico_cart.py 319-524).

Text is a list of code points, `none` any exception.  The reader's last step, `preprocess` (line 436), is a parameter of
the source (a hook) and is modelled separately (`Verif/Preprocess.lean`); here the code is what is passed to it, together
with the line number.
-/
namespace Verif

/-- The parts of a cart that `.p8` text can hold.  `label` is the array of `MultidimArray((128,128))`, the element `[x,y]`
at `x * 128 + y` (utils.py 1946-1971); `metas` is the ordered dictionary `Cart.meta` (pico_cart.py 53). -/
structure SCart where
  versionId : Nat
  defaultVersion : Bool
  code : List Nat
  codeLine : Nat
  rom : List Nat
  label : Option (List Nat)
  metas : List (List Nat × List (List Nat))
deriving DecidableEq

def sLua : List Nat := [108, 117, 97]
def sGfx : List Nat := [103, 102, 120]
def sMap : List Nat := [109, 97, 112]
def sGff : List Nat := [103, 102, 102]
def sSfx : List Nat := [115, 102, 120]
def sMusic : List Nat := [109, 117, 115, 105, 99]
def sLabel : List Nat := [108, 97, 98, 101, 108]
/-- `k_meta_prefix` (pico_cart.py 317): `meta:`. -/
def sMeta : List Nat := [109, 101, 116, 97, 58]
/-- `version ` (with the space). -/
def sVersion : List Nat := [118, 101, 114, 115, 105, 111, 110, 32]
/-- `k_p8_prefix` (pico_cart.py 316): `pico-8 cartridge`. -/
def sP8Prefix : List Nat := [112, 105, 99, 111, 45, 56, 32, 99, 97, 114, 116, 114, 105, 100, 103, 101]
/-- ` // http://www.pico-8.com` (pico_cart.py 441). -/
def sP8Suffix : List Nat := [32, 47, 47, 32, 104, 116, 116, 112, 58, 47, 47, 119, 119, 119, 46, 112, 105, 99, 111, 45, 56,
  46, 99, 111, 109]

/-- `"__" + s + "__"`. -/
def headerLine (s : List Nat) : List Nat := 95 :: 95 :: (s ++ [95, 95])

/-! ### Reader -/

/-- `nybbles` (pico_cart.py 322-324).  `int(b, 16)` is `hexVal` (only ASCII digits are modelled).  The source parses lazily
while it stores; a digit that does not parse aborts the whole read, so parsing first makes no difference. -/
def hexNybbles (line : List Nat) : Option (List Nat) := line.mapM hexVal

/-- `bytes` (pico_cart.py 330-332): pairs, the last one padded with `0`. -/
def hexBytes : List Nat → Option (List Nat)
  | [] => some []
  | [a] => (hexVal a).map fun x => [x * 16]
  | a :: b :: cs =>
    match hexVal a, hexVal b, hexBytes cs with
    | some x, some y, some r => some ((x * 16 + y) :: r)
    | _, _, _ => none

/-- `nybble_groups(line, 5)` (pico_cart.py 326-328): groups of five digits, the last one padded with `0`. -/
def hexGroups5 (line : List Nat) : Option (List (List Nat)) :=
  if h : line = [] then some []
  else
    match hexNybbles (line.take 5 ++ List.replicate (5 - line.length) 48), hexGroups5 (line.drop 5) with
    | some g, some r => some (g :: r)
    | _, _ => none
termination_by line.length
decreasing_by
  cases line with
  | nil => contradiction
  | cons => simp; omega

/-- `ext_nybbles` (pico_cart.py 334-339): also `g`..`v` for 16..31, in either case. -/
def extVal (c : Nat) : Option Nat :=
  let l := if 65 ≤ c ∧ c ≤ 90 then c + 32 else c
  if 103 ≤ l ∧ l ≤ 118 then some (l - 103 + 16) else hexVal c

/-- The loops `for b in ...: if x < lim: store; x += 1`. -/
def writeRow {S V : Type} (f : S → Nat → V → Option S) (lim : Nat) : S → Nat → List V → Option S
  | s, _, [] => some s
  | s, x, b :: bs =>
    if x < lim then
      match f s x b with
      | none => none
      | some s => writeRow f lim s (x + 1) bs
    else writeRow f lim s x bs

/-- A `gfx` line (pico_cart.py 373-379). -/
def gfxLine (rom : List Nat) (y : Nat) (clean : List Nat) : Option (List Nat) :=
  match hexNybbles clean with
  | none => none
  | some bs => writeRow (fun rom x b => set4 rom (memSpriteAddr x y) b) 0x80 rom 0 bs

/-- A `map` line (pico_cart.py 381-387). -/
def mapLine (rom : List Nat) (y : Nat) (clean : List Nat) : Option (List Nat) :=
  match hexBytes clean with
  | none => none
  | some bs => writeRow (fun rom x b => set8 rom (memMapAddr x y) b) 0x80 rom 0 bs

/-- A `gff` line (pico_cart.py 389-395). -/
def gffLine (rom : List Nat) (y : Nat) (clean : List Nat) : Option (List Nat) :=
  match hexBytes clean with
  | none => none
  | some bs => writeRow (fun rom x b => set8 rom (memFlagAddr x y) b) 0x80 rom 0 bs

/-- The 16-bit note of five digits `bph bpl bw bv be` (pico_cart.py 405). -/
def noteOf : List Nat → Option Nat
  | [bph, bpl, bw, bv, be] =>
    some (bpl ||| ((bph &&& 3) <<< 4) ||| ((bw &&& 7) <<< 6) ||| ((bv &&& 7) <<< 9) ||| ((be &&& 7) <<< 12) |||
      ((bw &&& 8) <<< 12))
  | _ => none

/-- An `sfx` line (pico_cart.py 397-408).  The first loop has no limit of its own: eight digits are at most four bytes. -/
def sfxLine (rom : List Nat) (y : Nat) (clean : List Nat) : Option (List Nat) :=
  match hexBytes (clean.take 8) with
  | none => none
  | some bs =>
    match writeRow (fun rom x b => set8 rom (memSfxInfoAddr y x) b) 4 rom 0 bs with
    | none => none
    | some rom =>
      match hexGroups5 (clean.drop 8) with
      | none => none
      | some gs =>
        writeRow (fun rom x g => match noteOf g with
          | none => none
          | some v => set16 rom (memSfxAddr y x) (v : Int)) 0x20 rom 0 gs

/-- A `music` line (pico_cart.py 410-418). -/
def musicLine (rom : List Nat) (y : Nat) (clean : List Nat) : Option (List Nat) :=
  match hexBytes (clean.take 2) with
  | some [flags] =>
    match hexBytes (clean.drop 3) with
    | none => none
    | some bs =>
      writeRow (fun rom x b => set8 rom (memMusicAddr y x) (b ||| (((flags >>> x) &&& 1) <<< 7))) 4 rom 0 bs
  | _ => none

/-- `cart.label[x, y] = b`. -/
def setLabel (label : List Nat) (x y b : Nat) : Option (List Nat) :=
  if x < 128 ∧ y < 128 then some (label.set (x * 128 + y) b) else none

/-- A `label` line (pico_cart.py 420-428). -/
def labelLine (label : Option (List Nat)) (y : Nat) (clean : List Nat) : Option (List Nat) :=
  match clean.mapM extVal with
  | none => none
  | some bs => writeRow (fun l x b => setLabel l x y b) 0x80 (label.getD (List.replicate (128 * 128) 0)) 0 bs

/-- `cart.meta[name].append(line)` on a `defaultdict(list)`. -/
def metaAppend (name line : List Nat) : List (List Nat × List (List Nat)) → List (List Nat × List (List Nat))
  | [] => [(name, [line])]
  | (n, ls) :: rest => if n = name then (n, ls ++ [line]) :: rest else (n, ls) :: metaAppend name line rest

/-- Variables of the reader's loop: the cart so far, `header`, `y` and `line_i`. -/
structure RState where
  cart : SCart
  header : Option (List Nat)
  y : Nat
  lineI : Nat
deriving DecidableEq

/-- `line.startswith("__") and clean.endswith("__")` (pico_cart.py 359). -/
def isHeaderLine (line : List Nat) : Bool :=
  line.take 2 == [95, 95] && (pyStrip line).drop ((pyStrip line).length - 2) == [95, 95]

/-- `clean.split()[1]`; `none` is the `IndexError`. -/
def secondWord (clean : List Nat) : Option (List Nat) :=
  let rest := ((clean.dropWhile pyIsSpace).dropWhile (fun c => !pyIsSpace c)).dropWhile pyIsSpace
  if rest = [] then none else some (rest.takeWhile fun c => !pyIsSpace c)

/-- One line of the reader's loop (pico_cart.py 355-434), without the line counter. -/
def readLine (raw : Bool) (st : RState) (line : List Nat) : Option RState :=
  let clean := pyStrip line
  let c := st.cart
  if isHeaderLine line && !raw then
    some { st with header := some ((clean.drop 2).take (clean.length - 4)), y := 0 }
  else if st.header = some sLua then
    match toP8str line with
    | none => none
    | some p =>
      some { st with
        cart := { c with code := if st.y = 0 then c.code ++ p else c.code ++ 10 :: p,
                         codeLine := if st.y = 0 then st.lineI else c.codeLine },
        y := st.y + 1 }
  else if st.header = some sGfx ∧ clean ≠ [] ∧ st.y < 0x80 then
    (gfxLine c.rom st.y clean).map fun rom => { st with cart := { c with rom := rom }, y := st.y + 1 }
  else if st.header = some sMap ∧ clean ≠ [] ∧ st.y < 0x40 then
    (mapLine c.rom st.y clean).map fun rom => { st with cart := { c with rom := rom }, y := st.y + 1 }
  else if st.header = some sGff ∧ clean ≠ [] ∧ st.y < 2 then
    (gffLine c.rom st.y clean).map fun rom => { st with cart := { c with rom := rom }, y := st.y + 1 }
  else if st.header = some sSfx ∧ clean ≠ [] ∧ st.y < 0x40 then
    (sfxLine c.rom st.y clean).map fun rom => { st with cart := { c with rom := rom }, y := st.y + 1 }
  else if st.header = some sMusic ∧ clean ≠ [] ∧ st.y < 0x40 then
    (musicLine c.rom st.y clean).map fun rom => { st with cart := { c with rom := rom }, y := st.y + 1 }
  else if st.header = some sLabel ∧ clean ≠ [] ∧ st.y < 0x80 then
    (labelLine c.label st.y clean).map fun l => { st with cart := { c with label := some l }, y := st.y + 1 }
  else
    match st.header with
    | some h =>
      if h.take 5 = sMeta then some { st with cart := { c with metas := metaAppend (h.drop 5) line c.metas } }
      else some st
    | none =>
      if clean.take 8 = sVersion then
        match secondWord clean with
        | none => none
        | some w => (parseNat w).map fun v => { st with cart := { c with versionId := v, defaultVersion := false } }
      else some st

/-- The reader's loop. -/
def readLines (raw : Bool) (st : RState) : List (List Nat) → Option RState
  | [] => some st
  | l :: ls =>
    match readLine raw st l with
    | none => none
    | some st => readLines raw { st with lineI := st.lineI + 1 } ls

/-- A fresh `Cart()` (pico_cart.py 40-53); `defVersion` is `get_default_pico8_version()`. -/
def freshCart (defVersion : Nat) : SCart := ⟨defVersion, true, [], 0, createRom, none, []⟩

/-- `read_cart_from_source` (pico_cart.py 319-438) up to the call of `preprocess`. -/
def readSource (defVersion : Nat) (raw : Bool) (data : List Nat) : Option SCart :=
  let raw := raw || !(data.take 16 == sP8Prefix || data.take 7 == headerLine sLua)
  (readLines raw ⟨freshCart defVersion, if raw then some sLua else none, 0, 0⟩ (p8SplitLines data)).map (·.cart)

/-! ### Writer -/

/-- `'%02x' % b`. -/
def hex2 (b : Nat) : List Nat := [hexDigit (b / 16), hexDigit (b % 16)]

/-- `get_needed_lines` (pico_cart.py 460-467): how many lines remain when trailing lines equal to a fresh cart's are left
out. -/
def neededLines (rom : List Nat) (addr : Nat → Nat) (size : Nat) : Nat → Nat
  | 0 => 0
  | n + 1 => if cmpeq8 rom (addr n) (addr n) size createRom then neededLines rom addr size n else n + 1

/-- One written `gfx` line (pico_cart.py 477-478). -/
def gfxText (rom : List Nat) (y : Nat) : Option (List Nat) :=
  ((List.range 128).mapM fun x => get4 rom (memSpriteAddr x y)).map (·.map hexDigit)

/-- One written `map` line (pico_cart.py 484-485). -/
def mapText (rom : List Nat) (y : Nat) : Option (List Nat) :=
  ((List.range 128).mapM fun x => get8 rom (memMapAddr x y)).map (·.flatMap hex2)

/-- One written `gff` line (pico_cart.py 491-492). -/
def gffText (rom : List Nat) (y : Nat) : Option (List Nat) :=
  ((List.range 128).mapM fun x => get8 rom (memFlagAddr x y)).map (·.flatMap hex2)

/-- The five digits of a note (pico_cart.py 501). -/
def noteDigits (n : Nat) : List Nat :=
  [(n >>> 4) &&& 3, n &&& 0xf, ((n >>> 6) &&& 7) ||| ((n >>> 12) &&& 8), (n >>> 9) &&& 7, (n >>> 12) &&& 7]

/-- One written `sfx` line (pico_cart.py 499-502). -/
def sfxText (rom : List Nat) (y : Nat) : Option (List Nat) :=
  match (List.range 4).mapM fun x => get8 rom (memSfxInfoAddr y x) with
  | none => none
  | some info =>
    match (List.range 32).mapM fun x => get16 rom (memSfxAddr y x) with
    | none => none
    | some notes => some (info.flatMap hex2 ++ notes.flatMap fun n => (noteDigits n).map hexDigit)

/-- The flags byte of a music row (pico_cart.py 510). -/
def musicFlags (chans : List Nat) : Nat := (chans.zipIdx.map fun ci => ((ci.1 >>> 7) &&& 1) <<< ci.2).sum

/-- One written `music` line (pico_cart.py 509-512). -/
def musicText (rom : List Nat) (y : Nat) : Option (List Nat) :=
  ((List.range 4).mapM fun x => get8 rom (memMusicAddr y x)).map fun chans =>
    hex2 (musicFlags chans) ++ 32 :: chans.flatMap fun ch => hex2 (ch &&& 0x7f)

/-- A digit of the label (pico_cart.py 457-458). -/
def extDigit (b : Nat) : Nat := if b < 16 then hexDigit b else b - 16 + 103

/-- One written `label` line (pico_cart.py 516-517). -/
def labelText (label : List Nat) (y : Nat) : Option (List Nat) :=
  ((List.range 128).mapM fun x => label[x * 128 + y]?).map (·.map extDigit)

/-- A section: nothing if it needs no lines, otherwise its header and its lines (pico_cart.py 473-512). -/
def sectionText (inc : Bool) (name : List Nat) (n : Nat) (row : Nat → Option (List Nat)) : Option (List (List Nat)) :=
  if inc && n ≠ 0 then ((List.range n).mapM row).map (headerLine name :: ·) else some []

/-- The lines of `write_cart_to_source` (pico_cart.py 440-522); `inc` is `include` (`sections=None` is `fun _ => true`). -/
def sourceLines (unicaps : Bool) (inc : List Nat → Bool) (c : SCart) : Option (List (List Nat)) :=
  let head := [sP8Prefix ++ sP8Suffix, sVersion ++ natDigits c.versionId]
  let lua := if inc sLua then [headerLine sLua, fromP8str unicaps c.code] else []
  let label := match c.label with
    | none => some []
    | some l => sectionText (inc sLabel && l.any (· ≠ 0)) sLabel 128 (labelText l)
  let metas := (c.metas.filter fun m => inc (sMeta ++ m.1)).flatMap fun m => headerLine (sMeta ++ m.1) :: m.2
  match sectionText (inc sGfx) sGfx (neededLines c.rom (fun y => (memSpriteAddr 0 y).1) 0x40 0x80) (gfxText c.rom),
    sectionText (inc sMap) sMap (neededLines c.rom (memMapAddr 0) 0x80 0x20) (mapText c.rom),
    sectionText (inc sGff) sGff (neededLines c.rom (memFlagAddr 0) 0x80 2) (gffText c.rom),
    sectionText (inc sSfx) sSfx (neededLines c.rom (fun y => memSfxAddr y 0) 0x44 0x40) (sfxText c.rom),
    sectionText (inc sMusic) sMusic (neededLines c.rom (fun y => memMusicAddr y 0) 4 0x40) (musicText c.rom), label with
  | some gfx, some map, some gff, some sfx, some music, some label =>
    some (head ++ lua ++ gfx ++ map ++ gff ++ sfx ++ music ++ label ++ metas)
  | _, _, _, _, _, _ => none

/-- `write_cart_to_source` (pico_cart.py 440-524). -/
def writeSource (unicaps : Bool) (inc : List Nat → Bool) (c : SCart) : Option (List Nat) :=
  (sourceLines unicaps inc c).map fun lines => joinNl lines ++ [10]

end Verif
