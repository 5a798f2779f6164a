/-!
Reading the query of a URL as a server does (`application/x-www-form-urlencoded`, URL Standard section 5.1), independent of the code.
-/
namespace Verif.Query

/-- The value of a hexadecimal digit. -/
def hex (c : Nat) : Option Nat :=
  if 48 ≤ c ∧ c ≤ 57 then some (c - 48) else if 65 ≤ c ∧ c ≤ 70 then some (c - 55) else if 97 ≤ c ∧ c ≤ 102 then some (c - 87) else none

/-- Percent-decoding, where `+` is a space. -/
def decode : List Nat → List Nat
  | [] => []
  | 37 :: x :: y :: t =>
    match hex x, hex y with
    | some a, some b => (16 * a + b) :: decode t
    | _, _ => 37 :: decode (x :: y :: t)
  | c :: t => (if c = 43 then 32 else c) :: decode t

/-- Text is divided at each `sep`. -/
def pieces (sep : Nat) : List Nat → List (List Nat)
  | [] => [[]]
  | c :: t =>
    if c = sep then [] :: pieces sep t
    else match pieces sep t with
      | p :: ps => (c :: p) :: ps
      | [] => [[c]]

/-- What is before and after the first `sep`. -/
def cut (sep : Nat) (t : List Nat) : List Nat × List Nat := (t.takeWhile (· ≠ sep), (t.dropWhile (· ≠ sep)).drop 1)

/-- The names and values of a query, as bytes. -/
def form (query : List Nat) : List (List Nat × List Nat) :=
  (pieces 38 query).map fun p => (decode (cut 61 p).1, decode (cut 61 p).2)

/-- The query of a URL: between the first `?` and the `#` of a fragment. -/
def queryOf (url : List Nat) : List Nat := (cut 63 (cut 35 url).1).2

end Verif.Query
