/-!
Reading a line of a size report: a label, a number, and a percentage with at most two decimals.  Independent of the code.
-/
namespace Verif.Report

/-- The value of decimal digits (anything else is no number). -/
def number (s : List Nat) : Option Nat :=
  if s = [] then none
  else if s.all (fun c => decide (48 ≤ c ∧ c ≤ 57)) then some (s.foldl (fun a c => a * 10 + (c - 48)) 0) else none

/-- A percentage, in hundredths of a percent: `12%` is 1200, `99.87%` is 9987. -/
def hundredths (t : List Nat) : Option Nat :=
  match t.dropWhile (fun c => decide (48 ≤ c ∧ c ≤ 57)) with
  | [37] => (number (t.takeWhile (fun c => decide (48 ≤ c ∧ c ≤ 57)))).map (· * 100)
  | [46, a, b, 37] =>
    (number (t.takeWhile (fun c => decide (48 ≤ c ∧ c ≤ 57)))).bind fun w => (number [a, b]).map (w * 100 + ·)
  | _ => none

/-- `line` reports the size `n` under a label, and `h` hundredths of a percent of the limit. -/
def Reports (line label : List Nat) (n h : Nat) : Prop :=
  ∃ num pct, line = label ++ [58, 32] ++ num ++ [32] ++ pct ++ [10] ∧ number num = some n ∧ hundredths pct = some h

end Verif.Report
