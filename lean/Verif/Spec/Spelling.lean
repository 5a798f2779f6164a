import Verif.Paren
/-
How operators are written (Lua 5.4 reference manual, section 3.4, and the PICO-8 and Picotron manuals), independent of the tokenizer and of the parser.
-/
namespace Verif.Spelling
open Paren (Op Lang)

/-- How an operator is written. -/
def written : Op → String
  | .or_ => "or" | .and_ => "and" | .not_ => "not"
  | .bangEq => "!=" | .tildeEq => "~=" | .eqEq => "==" | .lt => "<" | .le => "<=" | .gt => ">" | .ge => ">="
  | .bar => "|" | .caret2 => "^^" | .tilde => "~" | .amp => "&"
  | .shl => "<<" | .shr => ">>" | .lshr => ">>>" | .rotr => ">><" | .rotl => "<<>"
  | .concat => ".." | .plus => "+" | .minus => "-" | .star => "*" | .slash => "/" | .slash2 => "//" | .bslash => "\\"
  | .percent => "%" | .caret => "^" | .hash => "#" | .at_ => "@" | .dollar => "$"

/-- The operators that assignments can be combined with. -/
def combines (L : Lang) : List Op :=
  [.plus, .minus, .star, .slash, .bslash, .percent, .caret, .concat, .bar, .amp, .caret2, .shl, .shr] ++
    match L with
    | .pico8 => [.lshr, .rotl, .rotr]
    | .picotron => [.slash2]

end Verif.Spelling
