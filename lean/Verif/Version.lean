import Verif.Text
/-
Model of the PICO-8 version numbers (pico_defs.py 318-409).  A version tuple is four naturals.  The environment variables that override the
default and the latest version are not modelled (no override), nor are the warnings on stderr.
-/
namespace Verif

abbrev Ver := List Nat

/-- `k_version_tuples` (pico_defs.py 318-335). -/
def versionTuples : List (Nat × Ver) :=
  [(28, [0, 2, 0, 0]), (29, [0, 2, 1, 0]), (30, [0, 2, 2, 0]), (31, [0, 2, 2, 1]), (32, [0, 2, 2, 2]), (33, [0, 2, 3, 0]),
   (34, [0, 2, 4, 0]), (35, [0, 2, 4, 1]), (36, [0, 2, 4, 2]), (37, [0, 2, 5, 0]), (38, [0, 2, 5, 2]), (39, [0, 2, 5, 4]),
   (40, [0, 2, 5, 5]), (41, [0, 2, 5, 6]), (42, [0, 2, 6, 1]), (43, [0, 2, 7, 0])]

/-- `k_version_tuples.get(id)`. -/
def versionGet (id : Nat) : Option Ver := versionTuples.lookup id

/-- `get_default_pico8_version` (337-339), `get_latest_pico8_version` (341-345). -/
def defaultVersionId : Nat := 42
def latestVersionId : Nat := (versionTuples.map (·.1)).foldl max 0

/-- `get_pico8_version_tuple` (364-377). -/
def versionTuple (id : Nat) : Ver :=
  match versionGet id with
  | some v => v
  | none =>
    if id ≥ 28 then (versionGet defaultVersionId).getD [0, 0, 0, 0]
    else if id ≥ 19 then [0, 2, 0, 0]
    else if id ≥ 8 then [0, 1, 5 + id, 0]
    else [0, 0, 0, 0]

/-- `pre-v0.2.0` -/
def preText : List Nat := [112, 114, 101, 45, 118, 48, 46, 50, 46, 48]

/-- `format_pico8_version` (379-384). -/
def formatVersion (t : Ver) : List Nat :=
  let g := fun i => t.getD i 0
  if g 1 ≥ 2 then
    118 :: (natDigits (g 0) ++ 46 :: (natDigits (g 1) ++ 46 :: (natDigits (g 2) ++ if 26 > g 3 ∧ g 3 > 0 then [97 + g 3] else [])))
  else preText

/-- Python's comparison of tuples, `a >= b`. -/
def tupleGe : List Nat → List Nat → Bool
  | _, [] => true
  | [], _ :: _ => false
  | a :: as, b :: bs => if a = b then tupleGe as bs else decide (a > b)

/-- The ways `(\d+)` can match at the start, in the order in which the regex engine tries them: longest first.  (Digits of other scripts,
which `\d` and `int` also accept, are not modelled.) -/
def digitGroups (s : List Nat) : List (List Nat × List Nat) :=
  (List.range (s.takeWhile fun c => 48 ≤ c && c ≤ 57).length).reverse.map fun i => (s.take (i + 1), s.drop (i + 1))

/-- `.` (unescaped in the pattern): any character but a newline. -/
def anyChar : List Nat → List (List Nat)
  | [] => []
  | c :: s => if c = 10 then [] else [s]

/-- `([a-z]?)` and the end of the text. -/
def letterEnd : List Nat → List Nat
  | [] => [0]
  | [c] => if 97 ≤ c ∧ c ≤ 122 then [c - 97] else []
  | _ => []

/-- All the matches of `v(\d+).(\d+).(\d+)([a-z]?)` (387), in the order of the regex engine, as version tuples. -/
def versionMatches (s : List Nat) : List (List Nat × List Nat × List Nat × Nat) :=
  match s with
  | [] => []
  | c :: s =>
    if c ≠ 118 then []
    else
      (digitGroups s).flatMap fun p1 => (anyChar p1.2).flatMap fun s => (digitGroups s).flatMap fun p2 =>
        (anyChar p2.2).flatMap fun s => (digitGroups s).flatMap fun p3 => (letterEnd p3.2).map fun l => (p1.1, p2.1, p3.1, l)

/-- One round of the loop over the known versions (398-400); `none` is the initial -1. -/
def versionStep (t : Ver) (mk : Option Nat) (kv : Nat × Ver) : Option Nat :=
  if tupleGe t kv.2 then some (match mk with | none => kv.1 | some k => max k kv.1) else mk

/-- The search for the version id (395-407). -/
def versionFind (t : Ver) : Option Nat :=
  if t.getD 1 0 < 2 then none
  else
    match versionTuples.foldl (versionStep t) none with
    | none => none
    | some mk => if versionGet mk ≠ some t ∧ mk = latestVersionId then none else some mk

/-- `parse_pico8_version` (386-409); `none` is an error. -/
def parseVersion (s : List Nat) : Option Nat :=
  match (versionMatches s).head? with
  | some (a, b, c, l) =>
    match parseNat a, parseNat b, parseNat c with
    | some a, some b, some c => versionFind [a, b, c, l]
    | _, _, _ => none
  | none => parseNat s

end Verif
