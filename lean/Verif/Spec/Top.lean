/-
For C43: which characters of PICO-8 code are at the top level, that is in no comment and no string, as far as include lines are concerned.
Independent of the model; positions count from 0.
-/
namespace Verif.TopSpec

/-- `[`, `k` equal signs and `[` stand at `i`. -/
def Opens (code : List Nat) (k i : Nat) : Prop := (91 :: (List.replicate k 61 ++ [91])) <+: code.drop i

/-- `]`, `k` equal signs and `]` stand at `i`. -/
def Closes (code : List Nat) (k i : Nat) : Prop := (93 :: (List.replicate k 61 ++ [93])) <+: code.drop i

/-- A long bracket stands from `i` to `j`: it ends at the first bracket of its own level. -/
def Long (code : List Nat) (i j : Nat) : Prop :=
  ∃ k p, Opens code k i ∧ i + k + 2 ≤ p ∧ Closes code k p ∧ (∀ p', i + k + 2 ≤ p' → p' < p → ¬ Closes code k p') ∧ j = p + k + 2

/-- The rest of a string from `i`, after which `j` follows: up to the quote `q`, a backslash hides the character after it. -/
inductive Quoted (code : List Nat) (q : Nat) : Nat → Nat → Prop
  | close {i} (h : code[i]? = some q) : Quoted code q i (i + 1)
  | escape {i d j} (hq : q ≠ 92) (h : code[i]? = some 92) (hd : code[i + 1]? = some d) (h' : Quoted code q (i + 2) j) : Quoted code q i j
  | plain {i c j} (h : code[i]? = some c) (hq : c ≠ q) (hb : c ≠ 92) (h' : Quoted code q (i + 1) j) : Quoted code q i j

/-- A comment begins at `i`. -/
def Comment (code : List Nat) (i : Nat) : Prop := code[i]? = some 45 ∧ code[i + 1]? = some 45

/-- A long string begins at `i`.  Only `[[` counts. -/
def LongString (code : List Nat) (i : Nat) : Prop := code[i]? = some 91 ∧ code[i + 1]? = some 91

/-- The line ends at `j`. -/
def LineEnd (code : List Nat) (i j : Nat) : Prop :=
  i ≤ j ∧ (∀ x, i ≤ x → x < j → code[x]? ≠ some 10) ∧ (j = code.length ∨ code[j]? = some 10)

/-- The first character of the line from `b` that is not blank is the `#` at `k`. -/
def Hash (code : List Nat) (b k : Nat) : Prop :=
  b ≤ k ∧ code[k]? = some 35 ∧ ∀ x, b ≤ x → x < k → ∃ c, code[x]? = some c ∧ (c = 32 ∨ c = 9 ∨ c = 13)

/-- What stands at `i` reaches to `j`: a comment, a string, an include line (`line b e`: one from `b` to `e`), or a single character. -/
inductive Piece (line : Nat → Nat → Prop) (code : List Nat) : Nat → Nat → Prop
  | longComment {i j} (h : Comment code i) (hl : Long code (i + 2) j) : Piece line code i j
  | comment {i j} (h : Comment code i) (hl : ∀ j, ¬ Long code (i + 2) j) (he : LineEnd code (i + 2) j) : Piece line code i j
  | longString {i j} (h : LongString code i) (hl : Long code i j) : Piece line code i j
  | string {i j q} (hq : q = 34 ∨ q = 39) (h : code[i]? = some q) (hs : Quoted code q (i + 1) j) : Piece line code i j
  | incl {b i e} (hl : line b e) (h : Hash code b i) : Piece line code i e
  | char {i c} (h : code[i]? = some c) (h1 : ¬ Comment code i) (h2 : ¬ LongString code i) (h3 : c ≠ 34 ∧ c ≠ 39)
      (h4 : ∀ b e, line b e → ¬ Hash code b i) : Piece line code i (i + 1)

/-- `i` is at the top level. -/
inductive Top (line : Nat → Nat → Prop) (code : List Nat) : Nat → Prop
  | start : Top line code 0
  | next {i j} (h : Top line code i) (hp : Piece line code i j) : Top line code j

end Verif.TopSpec
