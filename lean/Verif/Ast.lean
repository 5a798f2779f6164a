import Verif.Paren
/-
Tokens and syntax trees of whole programs, for the model of the parser (pico_parse.py 300-1075).

Tokens carry their kind, what matters of their text, and their line (`vline`).  Compiler tokens and hints in comments are not modelled.
Trees keep what the nodes of the source keep, without the tokens and without what name resolution adds.
-/
namespace Verif.Syntax
open Paren (Op Lang)

/-- Names, as the codes of their characters. -/
abbrev Nm := List Nat

/-- The codes of a text. -/
@[coe] def nm (s : String) : Nm := s.toList.map Char.toNat

scoped instance : Coe String Nm := ⟨nm⟩

/-- Kinds of tokens; keywords that are operators are `op`. -/
inductive K
  | id (s : Nm) | num (s : String) | str (s : String)
  /-- `nil`, `true`, `false` -/
  | cst (s : String)
  | dots | lp | rp | lb | rb | lc | rc | comma | semi | dot | colon | dcolon | eq | quest
  | op (o : Op)
  /-- compound assignment, e.g. `+=` -/
  | opeq (o : Op)
  | kDo | kIf | kThen | kElse | kElseif | kEnd | kWhile | kRepeat | kUntil | kFor | kIn | kFunction | kBreak | kReturn | kLocal | kGoto
  deriving DecidableEq, Repr

/-- A token and its line. -/
structure T where
  k : K
  line : Nat
  deriving DecidableEq, Repr

/-- A parameter: a name, or `...` as `none`. -/
abbrev Param := Option Nm

/-- The target of a function statement: `a.b.c:m`. -/
structure FnName where
  base : Nm
  keys : List Nm
  meth : Option Nm
  deriving DecidableEq, Repr

/-- `short_state` (pico_parse.py 687-688): whether more follows a short block on its line. -/
abbrev Nested := Bool

mutual
/-- Expressions. -/
inductive Ex where
  | var (x : Nm) | num (s : String) | str (s : String) | cst (s : String) | vararg
  | func (ps : List Param) (body : Block)
  | group (e : Ex)
  | un (o : Op) (e : Ex)
  | bin (o : Op) (l r : Ex)
  | member (b : Ex) (x : Nm)
  | index (b k : Ex)
  /-- the flag tells whether the only argument is written without parentheses -/
  | call (b : Ex) (sh : Bool) (args : Exs)
  | method (b : Ex) (x : Nm) (sh : Bool) (args : Exs)
  | table (its : Its)
/-- Lists of expressions. -/
inductive Exs where
  | nil | cons (e : Ex) (es : Exs)
/-- Table items: `e`, `x = e` and `[k] = e`. -/
inductive Its where
  | nil | pos (e : Ex) (its : Its) | named (x : Nm) (e : Ex) (its : Its) | keyed (k e : Ex) (its : Its)
/-- Statements. -/
inductive St where
  | do_ (b : Block)
  | if_ (i : If)
  | while_ (c : Ex) (b : Block)
  | whileShort (c : Ex) (b : Block) (n : Nested)
  | repeat_ (b : Block) (c : Ex)
  | fornum (x : Nm) (a b : Ex) (step : Exs) (body : Block)
  | forin (xs : List Nm) (es : Exs) (body : Block)
  | break_
  | return_ (es : Exs)
  /-- names with their attributes -/
  | local_ (xs : List (Nm × Option Nm)) (es : Exs)
  | localfn (x : Nm) (ps : List Param) (b : Block)
  | goto_ (x : Nm)
  | label (x : Nm)
  | func (f : FnName) (ps : List Param) (b : Block)
  | assign (ts es : Exs)
  | opassign (o : Op) (t e : Ex)
  | call (e : Ex)
  | print (es : Exs)
/-- What follows `if` or `elseif`. -/
inductive If where
  | long (c : Ex) (b : Block) (t : Tail)
  | short (c : Ex) (b : Block) (n : Nested)
  | shortElse (c : Ex) (b els : Block) (n : Nested)
/-- What follows the first block of an `if ... then`. -/
inductive Tail where
  | end_ | else_ (b : Block) | elseif_ (i : If)
/-- Blocks; `semi` is an empty statement. -/
inductive Block where
  | nil | semi (b : Block) | cons (s : St) (b : Block)
end

end Verif.Syntax
