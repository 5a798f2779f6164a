import Verif.P8Source
/-
Model of a PICO-8 cart's title: `Cart.title`, its setter, `set_raw_title` and `set_code_without_title` (pico_cart.py 57-84).
The code of a cart that is being processed is always replaced by the last one (pico_process.py 156-158).
-/
namespace Verif.CartTitle

/-- `title`. -/
def sTitle : List Nat := [116, 105, 116, 108, 101]

/-- What `str.splitlines` takes for the end of a line. -/
def isBreak (c : Nat) : Bool := [10, 11, 12, 13, 28, 29, 30, 0x85, 0x2028, 0x2029].contains c

/-- `str.splitlines()`: a carriage return and a line feed are one end of line, and the text after the last one is no line if it is empty. -/
def splitLines : List Nat → List (List Nat)
  | [] => []
  | 13 :: 10 :: cs => [] :: splitLines cs
  | c :: cs =>
    if isBreak c then [] :: splitLines cs
    else match splitLines cs with
      | [] => [[c]]
      | l :: ls => (c :: l) :: ls

/-- What `re.fullmatch(r"-- ?(.*)", line)` captures, or nothing (pico_cart.py 64-66); the lines have no line feeds. -/
def heading : List Nat → List Nat
  | 45 :: 45 :: 32 :: t => t
  | 45 :: 45 :: t => t
  | _ => []

/-- The title of code (pico_cart.py 62-68); `split("\n", 2)[:2]` are the first two lines. -/
def codeTitle (code : List Nat) : List Nat :=
  ((((splitNl code).take 2).flatMap fun l => heading l ++ [10]).reverse.dropWhile (· == 10)).reverse

/-- `Cart.title` (pico_cart.py 57-70). -/
def title (c : SCart) : Option (List Nat) :=
  match c.metas.lookup sTitle with
  | none => some (codeTitle c.code)
  | some ls => (ls.mapM toP8str).map joinNl

/-- `m.meta[name] = lines`: in its place if the name exists, else at the end. -/
def setMeta (name : List Nat) (ls : List (List Nat)) : List (List Nat × List (List Nat)) → List (List Nat × List (List Nat))
  | [] => [(name, ls)]
  | (n, old) :: rest => if n = name then (n, ls) :: rest else (n, old) :: setMeta name ls rest

/-- `set_raw_title` (pico_cart.py 77-78). -/
def setRawTitle (c : SCart) (ls : List (List Nat)) : SCart := { c with metas := setMeta sTitle ls c.metas }

/-- The setter of `title` (pico_cart.py 72-75). -/
def setTitle (c : SCart) (value : List Nat) : SCart := setRawTitle c (splitLines (fromP8str false value))

/-- `set_code_without_title` (pico_cart.py 80-84). -/
def setCode (c : SCart) (code : List Nat) : Option SCart :=
  match title c, title { c with code := code } with
  | some old, some new => some (if old ≠ new then setTitle { c with code := code } old else { c with code := code })
  | _, _ => none

end Verif.CartTitle
