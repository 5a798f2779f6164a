import Verif.SourceMap
import Verif.Text
/-!
Model of how errors and warnings are printed: `Error` (pico_process.py 273-294) and the loop over them (run_shrinko.py 639-652).  The locations
are those of `Verif/SourceMap.lean`.
-/
namespace Verif.Errors

/-- A source file: its path and text (pico_process.py 118-126).  (A `CartSource` first looks up the file of a position, see C45.) -/
structure Src where
  path : List Nat
  text : List Nat
deriving DecidableEq

/-- `Error` (pico_process.py 273-276), with the source and position of its token. -/
structure Err where
  src : Option Src
  idx : Nat
  msg : List Nat
deriving DecidableEq

/-- `str` of the column, which is never negative for a position in the text. -/
def colText (c : Int) : List Nat := if c < 0 then 45 :: natDigits c.natAbs else natDigits c.natAbs

/-- The path, line and column of an error (pico_process.py 285): `???` without a source. -/
def location (e : Err) : List Nat × Nat × Int :=
  match e.src with
  | some s => (s.path, getLineCol s.text e.idx 0)
  | none => ([63, 63, 63], 0, 0)

/-- `Error.format` (pico_process.py 281-290) for `common` and `absolute`; `shown` is `path_relative` or `path_absolute`. -/
def format (shown : List Nat → List Nat) (e : Err) : List Nat :=
  let loc := location e
  shown loc.1 ++ [58] ++ natDigits (loc.2.1 + 1) ++ [58] ++ colText (loc.2.2 + 1) ++ [58, 32] ++ e.msg

/-- `"{tab:X}"`, for tabs up to 15. -/
def tabText (t : Nat) : List Nat := if t < 10 then [48 + t] else [55 + t]

/-- `Error.format` (pico_process.py 281-288) for `tabbed`. -/
def formatTabbed (shown : List Nat → List Nat) (e : Err) : List Nat :=
  let loc : List Nat × Nat × Nat × Int :=
    match e.src with
    | some s => (s.path, getTabLineCol s.text e.idx)
    | none => ([63, 63, 63], 0, 0, 0)
  shown loc.1 ++ [32, 40, 116, 97, 98, 32] ++ tabText loc.2.1 ++ [44, 32, 108, 105, 110, 101, 32] ++ natDigits (loc.2.2.1 + 1) ++
    [44, 32, 99, 111, 108, 32] ++ colText (loc.2.2.2 + 1) ++ [41, 58, 32] ++ e.msg

/-- Insertion for `sorted`, which is stable: before the first error that is greater or equal by `Error.__lt__` (pico_process.py 278-279). -/
def insertErr (x : Err) : List Err → List Err
  | [] => [x]
  | y :: l => if y.idx < x.idx then y :: insertErr x l else x :: y :: l

/-- `sorted(errors)` (run_shrinko.py 649). -/
def sortErrs : List Err → List Err
  | [] => []
  | x :: l => insertErr x (sortErrs l)

/-- The lines that are printed for the errors (run_shrinko.py 649-650). -/
def printed (shown : List Nat → List Nat) (errors : List Err) : List (List Nat) := (sortErrs errors).map (format shown)

end Verif.Errors
