import Verif.CartExport
import Verif.P64
/-
Model of `JsExport` (pico_export.py 92-165): carts inside a javascript file.  The text is a list of code points; `none` is
an exception.  The size of a cart, `k_cart_size` (pico_defs.py 117), is the parameter `size`.
-/
namespace Verif.JsExport

open Verif.ExportSpec (Name)
open Verif.Export (Impl dictOf)
open Verif.P64 (lit chunk)

/-- Drop a fixed text from the front. -/
def dropLit (p s : List Nat) : Option (List Nat) := if p.isPrefixOf s then some (s.drop p.length) else none

/-- Match `var\s+NAME\s*=\s*\[` (100, 106) at the beginning; the result is what follows.  Repeated white space need not be given back,
because what follows it in the pattern is not white space. -/
def matchHead (name s : List Nat) : Option (List Nat) :=
  (dropLit (lit "var") s).bind fun s =>
    if (s.takeWhile pyIsSpace) = [] then none
    else (dropLit name (s.dropWhile pyIsSpace)).bind fun s =>
      (dropLit [0x3d] (s.dropWhile pyIsSpace)).bind fun s => dropLit [0x5b] (s.dropWhile pyIsSpace)

/-- `re.search(r"var\s+NAME\s*=\s*\[(.*?)\]", text, re.S)` (100, 106): the text before the group, the group, and the
text after it. -/
def findVar (name : List Nat) : List Nat → Option (List Nat × List Nat × List Nat)
  | [] => none
  | c :: t =>
    match matchHead name (c :: t) with
    | some r =>
      if r.contains 0x5d then
        some ((c :: t).take (t.length + 1 - r.length), r.takeWhile (· != 0x5d), r.dropWhile (· != 0x5d))
      else (findVar name t).map fun x => (c :: x.1, x.2)
    | none => (findVar name t).map fun x => (c :: x.1, x.2)

/-- `_cartname` and `_cartdat`. -/
def nameVar : List Nat := lit "_cartname"
def dataVar : List Nat := lit "_cartdat"

/-- `str.split(sep)` for a one-character separator. -/
def splitC (sep : Nat) : List Nat → List (List Nat)
  | [] => [[]]
  | c :: cs => if c = sep then [] :: splitC sep cs else P64.consHead c (splitC sep cs)

/-- `str.join` for a one-character separator. -/
def joinC (sep : Nat) : List (List Nat) → List Nat
  | [] => []
  | [l] => l
  | l :: l' :: ls => l ++ sep :: joinC sep (l' :: ls)

/-- The names (112-117); `[1:-1]` drops a character at either end. -/
def parseNames (text : List Nat) : List Name :=
  if pyStrip text = [] then [] else (splitC 0x2c text).map fun x => ((pyStrip x).drop 1).dropLast

/-- The data (119-123).  Simplified: `int` accepts a run of digits only.  Assigning to a `bytearray` fails for other values than bytes and
past its end. -/
def parseData (total : Nat) (text : List Nat) : Option (List Nat) :=
  if pyStrip text = [] then some (List.replicate total 0)
  else ((splitC 0x2c text).mapM fun x => (parseNat (pyStrip x)).bind fun v => if v < 256 then some v else none).bind
    fun bytes => if bytes.length ≤ total then some (bytes ++ List.replicate (total - bytes.length) 0) else none

/-- The state after `get_carts_impl`: `text`, `cartnames` and `cartdata`. -/
structure Parsed where
  text : List Nat
  names : List Name
  data : List Nat
deriving DecidableEq

/-- `get_carts_impl` (111-128). -/
def carts (size : Nat) (text : List Nat) : Option (Parsed × List (Name × Nat)) :=
  (findVar nameVar text).bind fun n =>
    let names := parseNames n.2.1
    (findVar dataVar text).bind fun d =>
      (parseData (size * names.length) d.2.1).map fun data => (⟨text, names, data⟩, dictOf names.zipIdx)

/-- `cartnames_text` (156). -/
def namesText (names : List Name) : List Nat :=
  match names with
  | [] => []
  | n :: ns => (0x60 :: n ++ [0x60]) ++ ns.flatMap fun n => [0x2c, 0x20] ++ (0x60 :: n ++ [0x60])

/-- `cartdata_chunks` (159-163). -/
def dataText (data : List Nat) : List Nat :=
  10 :: match chunk 0x100 data with
    | [] => []
    | c :: cs => joinC 0x2c (c.map natDigits) ++ cs.flatMap fun c => [0x2c, 10] ++ joinC 0x2c (c.map natDigits)

/-- `finish_write` (155-165). -/
def finishWrite (p : Parsed) : Option (List Nat) :=
  (findVar nameVar p.text).bind fun n =>
    let text := n.1 ++ namesText p.names ++ n.2.2
    (findVar dataVar text).map fun d => d.1 ++ dataText p.data ++ d.2.2

/-- `read_impl` (133-134), the slice. -/
def read (size : Nat) (p : Parsed) (i : Nat) : Option (List Nat) := some ((p.data.drop (size * i)).take size)

/-- `insert_impl` (136-140). -/
def insert (size : Nat) (p : Parsed) (i : Option Nat) (name : Name) (rom : List Nat) : Option (List Nat) :=
  let i := i.getD p.names.length
  finishWrite ⟨p.text, p.names.take i ++ name :: p.names.drop i, p.data.take (size * i) ++ rom ++ p.data.drop (size * i)⟩

/-- `replace_impl` (142-144). -/
def replace (size : Nat) (p : Parsed) (i : Nat) (rom : List Nat) : Option (List Nat) :=
  finishWrite ⟨p.text, p.names, p.data.take (size * i) ++ rom ++ p.data.drop (size * (i + 1))⟩

/-- `delete_impl` (146-149). -/
def delete (size : Nat) (p : Parsed) (i : Nat) : Option (List Nat) :=
  finishWrite ⟨p.text, p.names.take i ++ p.names.drop (i + 1), p.data.take (size * i) ++ p.data.drop (size * (i + 1))⟩

/-- `rename_impl` (151-153). -/
def rename (p : Parsed) (i : Nat) (name : Name) : Option (List Nat) :=
  finishWrite ⟨p.text, p.names.set i name, p.data⟩

/-- `JsExport` as a container of carts. -/
def impl (size : Nat) : Impl (List Nat) Parsed Nat where
  carts := carts size
  read := read size
  insert := insert size
  replace := replace size
  delete := delete size
  rename := rename

end Verif.JsExport
