import Verif.Text
/-!
Model of the names and arguments in hint comments, and of the aliases for them (`--$def-alias: name = value`): pico_tokenize.py 12-17 and 486-491,
pico_process.py 231-244.  Texts are lists of code points.
-/
namespace Verif.Aliases

/-- `list_unpack(s.split(sep, 1), 2, "")` for a separator of one character (utils.py 1642-1645). -/
def splitFirst (sep : Nat) (s : List Nat) : List Nat × List Nat := (s.takeWhile (· != sep), (s.dropWhile (· != sep)).drop 1)

/-- `split_hint_args` without the aliases (pico_tokenize.py 12-14). -/
def splitHint (data : List Nat) : List Nat × List Nat :=
  let x := splitFirst 32 (pyStrip data)
  (pyStrip x.1, pyStrip x.2)

/-- `ctxt.custom_aliases` (pico_process.py 231-234): the newest first, so that `lookup` finds what the dict has. -/
abbrev Table := List (List Nat × List Nat × List Nat)

/-- `pre_args` put before `args` (pico_process.py 239-243). -/
def join (pre args : List Nat) : List Nat := if pre = [] then args else if args = [] then pre else pre ++ [32] ++ args

/-- `map_aliases` (pico_process.py 236-244).  The loop need not end: `none` means that it has not after `fuel` tests of its condition. -/
def mapFuel (tbl : Table) : Nat → List Nat → List Nat → Option (List Nat × List Nat)
  | 0, _, _ => none
  | fuel + 1, name, args => match tbl.lookup name with
    | none => some (name, pyStrip args)
    | some (target, pre) => mapFuel tbl fuel target (join pre args)

/-- `split_hint_args` (pico_tokenize.py 12-17). -/
def useHint (fuel : Nat) (tbl : Table) (data : List Nat) : Option (List Nat × List Nat) :=
  mapFuel tbl fuel (splitHint data).1 (splitHint data).2

/-- What a `def-alias:` comment does, with the text after its first colon (pico_tokenize.py 486-491, pico_process.py 231-234). -/
def defAlias (fuel : Nat) (tbl : Table) (text : List Nat) : Option Table :=
  (useHint fuel tbl (splitFirst 61 text).2).map fun x => (pyStrip (splitFirst 61 text).1, x) :: tbl

/-- The `def-alias:` comments of the code, in order. -/
def run (fuel : Nat) : Table → List (List Nat) → Option Table
  | tbl, [] => some tbl
  | tbl, t :: ts => (defAlias fuel tbl t).bind fun tbl' => run fuel tbl' ts

end Verif.Aliases
