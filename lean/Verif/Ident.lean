/-
Model of the generator of short identifiers (pico_rename.py 142-162, 334-356; pico_tokenize.py 5-10, 298-303).
Strings are lists of character codes.
-/
namespace Verif

/-- `keywords` (pico_tokenize.py 5-10). -/
def keywords : List (List Nat) :=
  ["and", "break", "do", "else", "elseif", "end", "false", "for", "function", "goto", "if", "in", "local", "nil", "not", "or", "repeat",
    "return", "then", "true", "until", "while"].map fun s => s.toList.map Char.toNat

/-- `is_ident_char` (pico_tokenize.py 298-300). -/
def isIdentChar (pico8 : Bool) (c : Nat) : Bool :=
  (48 ≤ c && c ≤ 57) || (97 ≤ c && c ≤ 122) || (65 ≤ c && c ≤ 90) || c == 95 || (pico8 && (c == 0x1e || c == 0x1f || 0x80 ≤ c))

/-- `str.isdigit` on characters below 0x100: the ASCII digits and the superscripts 2, 3 and 1. -/
def isDigitChar (c : Nat) : Bool := (48 ≤ c && c ≤ 57) || c == 0xb2 || c == 0xb3 || c == 0xb9

/-- `is_identifier` (pico_tokenize.py 302-303). -/
def isIdentifier (pico8 : Bool) (s : List Nat) : Bool :=
  !s.isEmpty && s.all (isIdentChar pico8) && !(match s with | c :: _ => isDigitChar c | [] => false) && !keywords.contains s

def asciiLower : List Nat := (List.range 26).map (· + 97)
def asciiUpper : List Nat := (List.range 26).map (· + 65)
def asciiDigits : List Nat := (List.range 10).map (· + 48)

inductive Focus | chars | compressed | other
  deriving DecidableEq, Repr

/-- `k_identifier_chars` (142-147). -/
def identifierChars : Focus → List Nat
  | .chars => asciiLower ++ asciiUpper ++ asciiDigits ++ [95, 0x1e, 0x1f] ++ (List.range 128).map (· + 128)
  | .compressed => asciiLower ++ asciiDigits ++ [95]
  | .other => asciiLower ++ asciiUpper ++ asciiDigits ++ [95]

/-- `ident_chars` (149-156).  `order` is the result of sorting the characters used in the program by frequency. -/
def identChars (focus : Focus) (order : List Nat) : List Nat :=
  let first := order.filter (identifierChars focus).contains
  first ++ (identifierChars focus).filter fun c => !first.contains c

/-- `ident_char_order_map.get` (158): the successor of a character in `ident_chars`. -/
def nextOf : List Nat → Nat → Option Nat
  | a :: b :: cs, c => if a = c then some b else nextOf (b :: cs) c
  | _, _ => none

/-- The `while` loop of `get_next_ident_char` (336-337): the first character after `c` that is no digit. -/
def nextNonDigit : List Nat → Nat → Option Nat
  | a :: cs, c => if a = c then cs.find? (fun x => !isDigitChar x) else nextNonDigit cs c
  | [], _ => none

/-- `get_next_ident_char` (334-341) for a given character.  Simplified: following the successor map while the character is a digit is
written as a search in the rest of the list, see `nextNonDigit`. -/
def nextIdentChar (chars : List Nat) (c : Nat) (first : Bool) : Nat × Bool :=
  match (if first then nextNonDigit chars c else nextOf chars c) with
  | some n => (n, true)
  | none => (chars.headD 0, false)

/-- `get_next_ident_char(None, True)[0]` (334-341). -/
def firstIdentChar (chars : List Nat) : Nat := (chars.find? fun x => !isDigitChar x).getD (chars.headD 0)

/-- One round of `get_idents` (347-353): the `for` loop with its `else`.  The string is kept in reverse, so that the loop starts at the
head; `i == 0` is the last element. -/
def bump (chars : List Nat) : List Nat → List Nat
  | [] => [firstIdentChar chars]
  | c :: rest => if (nextIdentChar chars c rest.isEmpty).2 then (nextIdentChar chars c rest.isEmpty).1 :: rest
    else (nextIdentChar chars c rest.isEmpty).1 :: bump chars rest

/-- The `while True` loop up to the next `yield` (346-355), given up after `fuel` rounds. -/
def nextIdent (chars : List Nat) : Nat → List Nat → Option (List Nat)
  | 0, _ => none
  | fuel + 1, cur => if keywords.contains (bump chars cur).reverse then nextIdent chars fuel (bump chars cur) else some (bump chars cur)

/-- The state of the generator (reversed identifier) at its n-th `yield`; 23 rounds always suffice (`C26_never_stuck`). -/
def identState (chars : List Nat) : Nat → Option (List Nat)
  | 0 => nextIdent chars 23 []
  | n + 1 => (identState chars n).bind (nextIdent chars 23)

/-- The n-th identifier yielded by `get_idents` (343-356). -/
def ident (chars : List Nat) (n : Nat) : Option (List Nat) := (identState chars n).map List.reverse

end Verif
