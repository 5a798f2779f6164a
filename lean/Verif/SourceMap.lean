import Verif.Find
/-
Model of the positions reported to the user and of the include preprocessor
(pico_process.py 82-105, 111-116, 130-146; pico_preprocess.py).  Texts are lists of character codes.
-/
namespace Verif

/-- The loop of `get_line_col` (pico_process.py 85-90): the line and the start of that line. -/
def lineLoop (text : List Nat) (idx start line : Nat) : Nat × Nat :=
  if start < idx then
    match h : findFrom [10] text start with
    | none => (line, start)
    | some e => if e ≥ idx then (line, start) else lineLoop text idx (e + 1) (line + 1)
  else (line, start)
termination_by idx - start
decreasing_by have := (findFrom_some h).1; omega

/-- `get_line_col` (82-92). -/
def getLineCol (text : List Nat) (idx start : Nat) : Nat × Int :=
  let r := lineLoop text idx start 0
  (r.1, (idx : Int) - r.2)

/-- `k_tab_break` (pico_preprocess.py 112). -/
def tabBreak : List Nat := [10, 45, 45, 62, 56, 10]

/-- The loop of `get_tab_line_col` (97-102). -/
def tabLoop (text : List Nat) (idx start tab : Nat) : Nat × Nat :=
  if start < idx ∧ tab < 15 then
    match h : findFrom tabBreak text start with
    | none => (tab, start)
    | some e => if e ≥ idx then (tab, start) else tabLoop text idx (e + 6) (tab + 1)
  else (tab, start)
termination_by idx - start
decreasing_by have := (findFrom_some h).1; omega

/-- `get_tab_line_col` (94-105). -/
def getTabLineCol (text : List Nat) (idx : Nat) : Nat × Nat × Int :=
  let r := tabLoop text idx 0 0
  (r.1, getLineCol text idx r.2)

/-- The loop of `trim_cart_to_tab` (pico_preprocess.py 117-129): start and end of the tab, or an error. -/
def trimLoop (code : List Nat) (target tab start : Nat) : Option (Nat × Nat) :=
  if start < code.length then
    match h : findFrom tabBreak code start with
    | none => if tab = target then some (start, code.length) else trimLoop code target (tab + 1) (code.length + 6)
    | some e => if tab = target then some (start, e) else trimLoop code target (tab + 1) (e + 6)
  else none
termination_by code.length - start
decreasing_by
  · omega
  · have := (findFrom_some h).1; omega

/-- `CodeMapping` (pico_preprocess.py 3-5). Paths are lists of characters too. -/
structure CodeMap where
  idx : Nat
  path : List Nat
  code : List Nat
  srcIdx : Nat
  line : Nat
deriving DecidableEq

/-- The loop over the mappings in `trim_cart_to_tab` (133-144). -/
def trimMaps (path : List Nat) (start stop : Nat) : List CodeMap → List CodeMap → List CodeMap
  | [], acc => acc
  | m :: ms, acc =>
    if m.idx > stop then acc
    else
      let acc := if m.idx ≤ start then [] else acc
      trimMaps path start stop ms (acc ++ [{ m with idx := m.idx - start, srcIdx := m.srcIdx + (if m.path = path then start else 0) }])

/-- `trim_cart_to_tab` (114-145). -/
def trimCart (path code : List Nat) (maps : List CodeMap) (target : Nat) : Option (List Nat × List CodeMap) :=
  match trimLoop code target 0 0 with
  | none => none
  | some (s, e) => some ((code.drop s).take (e - s), trimMaps path s e maps [])

/-- The lookup in `CartSource.get_location` (pico_process.py 140-146): the mapping used and the position in its source. -/
def mapLookup (maps : List CodeMap) (idx : Nat) : Option (CodeMap × Nat) :=
  (maps.reverse.find? fun m => idx ≥ m.idx).map fun m => (m, m.srcIdx + (idx - m.idx))

end Verif
