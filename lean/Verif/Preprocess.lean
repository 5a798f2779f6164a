import Verif.SourceMap
import Verif.Text
/-
Model of `preprocess_code` and `read_included_cart` (pico_preprocess.py 7-110).
-/
namespace Verif

/-- `k_long_brackets_re.match(code, i)` (7, 16-21): the end of the long bracket that starts at `i`. -/
def skipLong (code : List Nat) (i : Nat) : Option Nat :=
  match code.drop i with
  | 91 :: r =>
    let k := (r.takeWhile (· == 61)).length
    match r.drop k with
    | 91 :: r' => (findSub (93 :: (List.replicate k 61 ++ [93])) r').map fun j => i + 1 + k + 1 + j + (k + 2)
    | _ => none
  | _ => none

/-- `k_wspace` (8). -/
def isWs (c : Nat) : Bool := c == 32 || c == 9 || c == 13 || c == 10

/-- Advance to the end of the line (36-37). -/
def toEol (code : List Nat) (i : Nat) : Nat := i + ((code.drop i).takeWhile (· != 10)).length

/-- The end of a quoted string (44-46), starting after the quote: each backslash skips a character. -/
def strEnd (q : Nat) : List Nat → Nat → Nat
  | [], i => i + 1
  | c :: cs, i =>
    if c = q then i + 1
    else if c = 92 then (match cs with | [] => i + 3 | _ :: cs' => strEnd q cs' (i + 2))
    else strEnd q cs (i + 1)

/-- Backing up over the whitespace before a `#` (54-60): the start of the line, or `none` if the line has something else before. -/
def backUp (code : List Nat) : Nat → Option Nat
  | 0 => some 0
  | i + 1 => match code[i]? with
    | some c => if isWs c then (if c = 10 then some (i + 1) else backUp code i) else none
    | none => none

/-- The test on the character after a `#` (51). -/
def isDirective : Option Nat → Bool
  | none => false
  | some d => !isWs d && d != 40

/-- An included cart: its path, code and mappings. -/
structure Included where
  path : List Nat
  code : List Nat
  maps : List CodeMap

/-- `k_include`. -/
def includeWord : List Nat := [35, 105, 110, 99, 108, 117, 100, 101]

/-- `code[hash_i:end_i].split(maxsplit=1)` (66) and the test on it (67): the argument of an include line. -/
def includeArg (line : List Nat) : Option (List Nat) :=
  let word := line.takeWhile fun c => !pyIsSpace c
  let rest := (line.drop word.length).dropWhile pyIsSpace
  if word = includeWord ∧ rest ≠ [] then some rest else none

/-- The variables of `preprocess_code` (12-14); `out` is the concatenation of `outparts`. -/
structure Prep where
  i : Nat
  start : Nat
  outI : Nat
  out : List Nat
  maps : List CodeMap
deriving DecidableEq

/-- `flush_output` (23-29). -/
def Prep.flush (path code : List Nat) (line : Nat) (s : Prep) : Prep :=
  if s.i > s.start then
    { s with out := s.out ++ (code.drop s.start).take (s.i - s.start), maps := s.maps ++ [⟨s.outI, path, code, s.start, line⟩],
             outI := s.outI + (s.i - s.start), start := s.i }
  else { s with start := s.i }

/-- The mappings of an included cart at `outI` (105-109). -/
def Included.mapsAt (c : Included) (outI : Nat) : List CodeMap :=
  if c.maps = [] then [⟨outI, c.path, c.code, 0, 0⟩] else c.maps.map fun m => { m with idx := outI + m.idx }

/-- One iteration of the main loop (31-75); `none` when an include fails.  `inc` stands for reading the cart
(`read_included_cart` up to line 103, with `trim_cart_to_tab`). -/
def prepStep (path code : List Nat) (line : Nat) (inc : List Nat → Option Included) (s : Prep) : Option Prep :=
  let i := s.i
  let c := code[i]?
  let n := code[i + 1]?
  if c = some 45 ∧ n = some 45 then
    some { s with i := (skipLong code (i + 2)).getD (toEol code (i + 2)) }
  else if c = some 91 ∧ n = some 91 then some { s with i := (skipLong code i).getD i }
  else if c = some 34 ∨ c = some 39 then some { s with i := strEnd (c.getD 0) (code.drop (i + 1)) (i + 1) }
  else if c ≠ some 35 then some { s with i := i + 1 }
  else if isDirective n then
    match backUp code i with
    | none => some { s with i := i + 1 }
    | some b =>
      let s := Prep.flush path code line { s with i := b }
      let e := toEol code i
      match includeArg ((code.drop i).take (e - i)) with
      | none => some { s with i := i + 1 }
      | some arg =>
        match inc arg with
        | none => none
        | some c => some { i := e, start := e, outI := s.outI + c.code.length, out := s.out ++ c.code, maps := s.maps ++ c.mapsAt s.outI }
  else some { s with i := i + 1 }

/-- The main loop (31) with a bound on the number of iterations: `none` when it does not end, or fails. -/
def prepLoop (path code : List Nat) (line : Nat) (inc : List Nat → Option Included) : Nat → Prep → Option Prep
  | 0, s => if s.i < code.length then none else some (s.flush path code line)
  | fuel + 1, s =>
    if s.i < code.length then (prepStep path code line inc s).bind (prepLoop path code line inc fuel)
    else some (s.flush path code line)

/-- `preprocess_code` (10-78): the code and the mappings. -/
def preprocess (path code : List Nat) (line : Nat) (inc : List Nat → Option Included) (fuel : Nat) : Option (List Nat × List CodeMap) :=
  (prepLoop path code line inc fuel ⟨0, 0, 0, [], []⟩).map fun s => (s.out, s.maps)

end Verif
