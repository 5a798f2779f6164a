/-!
A reader of CSV files (RFC 4180): rows end with a line feed, cells are separated by commas, and a cell in double quotes has them doubled.
-/
namespace Verif.Csv

/-- Where the reader is: in a plain cell, within quotes, or behind a quote that may have ended the cell. -/
inductive Mode | plain | quoted | closing
deriving DecidableEq

/-- The rows read, the cells of the current row, and the current cell. -/
structure State where
  rows : List (List (List Nat))
  row : List (List Nat)
  cell : List Nat
  mode : Mode
deriving DecidableEq

/-- One character. -/
def step (s : State) (c : Nat) : State :=
  match s.mode with
  | .quoted => if c = 34 then { s with mode := .closing } else { s with cell := s.cell ++ [c] }
  | m =>
    if c = 44 then ⟨s.rows, s.row ++ [s.cell], [], .plain⟩
    else if c = 10 then ⟨s.rows ++ [s.row ++ [s.cell]], [], [], .plain⟩
    else if c = 34 then { s with cell := if m = .closing then s.cell ++ [34] else s.cell, mode := .quoted }
    else { s with cell := s.cell ++ [c] }

/-- The state after a text. -/
def scan (s : State) (text : List Nat) : State := text.foldl step s

/-- The rows of a file, if it ends with the end of a row. -/
def read (text : List Nat) : Option (List (List (List Nat))) :=
  let s := scan ⟨[], [], [], .plain⟩ text
  if s.row = [] ∧ s.cell = [] ∧ s.mode = .plain then some s.rows else none

end Verif.Csv
