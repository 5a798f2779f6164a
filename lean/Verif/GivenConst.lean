import Verif.ConstFold
import Verif.Lex
import Verif.Charset
/-!
Model of the constants given on the command line: `const_from_token`, `parse_constant` (pico_constfold.py 423-441, 744-760) and the options `--const` and
`--str-const` (run_shrinko.py 432-438).  `none` is an error: the message that the constant cannot be parsed, or the exception of a malformed literal.
-/
namespace Verif.GivenConst

/-- `LuaValue` with the floats (pico_constfold.py 11-82), which are left as the text they are read from (so an error of `float(...)` is not seen here). -/
inductive Given where
  | val (v : LV)
  | float (text : List Nat)
deriving DecidableEq, Repr

/-- `parse_luanum` with its sign (pico_tokenize.py 779-826), as the value of `LuaInteger` or `LuaFloat`.  It knows no `~`. -/
def parseLuanum (s : List Nat) : Option Given :=
  let t := s.map lowerChar
  let neg := t.head? == some 45
  match parseLuaAbs (if neg then t.drop 1 else t) with
  | .int v => some (.val (LV.mkInt (if neg then -v else v)))
  | .float => if t.head? == some 126 then none else some (.float s)
  | .bad => none

/-- `const_from_token` (pico_constfold.py 423-441) with `Token.parsed_value` (pico_tokenize.py 231-241). -/
def constOf (p8 : Bool) : Tk → Option Given
  | (.number, s) => if p8 then (parseFixnum s).map fun v => .val (.fix v) else parseLuanum s
  | (.string, s) => (parseLiteral p8 s).map fun v => .val (.str v)
  | (_, s) =>
    if s = [110, 105, 108] then some (.val .nil)
    else if s = [116, 114, 117, 101] then some (.val (.bool true))
    else if s = [102, 97, 108, 115, 101] then some (.val (.bool false))
    else none

/-- The token that `parse_constant` takes (pico_constfold.py 749-755). -/
def takeToken : List Tk → Option Tk
  | [t] => some t
  | [a, b] => if (a.2 = [45] ∨ a.2 = [126]) ∧ b.1 = .number then some (.number, a.2 ++ b.2) else none
  | _ => none

/-- `to_langstr` (pico_defs.py 244-248). -/
def toLangstr (p8 : Bool) (s : List Nat) : Option (List Nat) := if p8 then toP8str s else some s

/-- `parse_constant` (pico_constfold.py 744-760). -/
def parseConstant (p8 asStr : Bool) (value : List Nat) : Option Given :=
  (toLangstr p8 value).bind fun s =>
    if asStr then some (.val (.str s))
    else (lexAll p8 s).bind fun ts => (takeToken ts).bind (constOf p8)

/-- A dictionary, the newest entry in front. -/
abbrev Consts := List (List Nat × Given)

/-- The comprehensions over the options (run_shrinko.py 434, 438): the values in order, put into the dictionary `m`. -/
def addAll (p8 asStr : Bool) (m : Consts) : List (List Nat × List Nat) → Option Consts
  | [] => some m
  | (name, text) :: rest => (parseConstant p8 asStr text).bind fun v => addAll p8 asStr ((name, v) :: m) rest

/-- `args.const` (run_shrinko.py 432-438). -/
def given (p8 : Bool) (consts strs : List (List Nat × List Nat)) : Option Consts :=
  (addAll p8 false [] consts).bind fun m => addAll p8 true m strs

end Verif.GivenConst
