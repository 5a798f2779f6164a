import Verif.Source
/-
Model of `unminify_code` (pico_unminify.py 5-115) on trees: the text of a program with one statement per line, indented, and without shorthands
and empty statements.

Simplifications: there are no comments, and the separators of tables are commas, none after the last item (trees do not keep them).
-/
namespace Verif.Unmin
open Syntax Mini
open Paren (Op Lang)

/-- What is put out: a token, with whether it is that of a unary operator; white space, after which `prev_tight` is false; a keyword that is
added to make a long form, perhaps after a space; or an error. -/
inductive U
  | tok (k : K) (un : Bool)
  | raw (s : List Nat)
  | word (lead : Bool) (k : K)
  | crash
  deriving DecidableEq, Repr

/-- `k_tight_prefix_tokens` (15). -/
def tightPre : K → Bool
  | .lp | .lb | .lc | .quest | .dot | .colon | .dcolon => true
  | _ => false

/-- `k_tight_suffix_tokens` (16). -/
def tightSuf : K → Bool
  | .rp | .rb | .rc | .comma | .semi | .dot | .colon | .dcolon => true
  | _ => false

/-- `token.value in ("(", "[")` (54). -/
def opens : K → Bool
  | .lp | .lb => true
  | _ => false

/-- Tokens that are called or indexed without a space (54-55). -/
def callee : K → Bool
  | .id _ | .kFunction | .rp | .rb | .rc => true
  | _ => false

/-- Is there a space between a token and the next one (52-57)?  `not` is no punctuation. -/
def spaced (a : K) (un : Bool) (b : K) : Bool :=
  !tightPre a && !tightSuf b && !(opens b && callee a) && !(un && a != .op .not_)

/-- The space before a token; there is a previous one if `prev_tight`. -/
def gap : Option (K × Bool) → K → List Nat
  | none, _ => []
  | some (a, un), b => if spaced a un b then [32] else []

/-- The text of what is put out (`visit_token`, 18-62); `none` if there is an error. -/
def put : Option (K × Bool) → List U → Option (List Nat)
  | _, [] => some []
  | p, .tok k un :: us => (put (some (k, un)) us).map ((gap p k ++ (tkOf k).2) ++ ·)
  | _, .raw s :: us => (put none us).map (s ++ ·)
  | p, .word lead k :: us => (put p us).map (((if lead then [32] else []) ++ (tkOf k).2) ++ ·)
  | _, .crash :: _ => none

/-- A token that is not that of a unary operator. -/
abbrev tk (k : K) : U := .tok k false

/-- Tokens without line breaks. -/
def plain : List M → List U
  | [] => []
  | .t k :: ms => tk k :: plain ms
  | .nl :: ms => plain ms

/-- A newline. -/
abbrev newline : U := .raw [10]

/-- `indent_str * indent`. -/
def indent (ind : List Nat) (n : Nat) : List Nat := (List.replicate n ind).flatten

/-- `is_function_stmt` (pico_parse.py 1087-1088). -/
def isFn : St → Bool
  | .func _ _ _ | .localfn _ _ _ => true
  | _ => false

variable (ind : List Nat)

mutual
/-- Expressions; `n` is the indentation. -/
def uE (n : Nat) : Ex → List U
  | .var x => [tk (.id x)]
  | .num s => [tk (.num s)]
  | .str s => [tk (.str s)]
  | .cst s => [tk (.cst s)]
  | .vararg => [tk .dots]
  | .func ps b => tk .kFunction :: tk .lp :: (plain (prParams ps) ++ (newline :: (uB (n + 1) none b ++ [.raw (indent ind n), tk .kEnd])))
  | .group e => tk .lp :: (uE n e ++ [tk .rp])
  | .un o e => .tok (.op o) true :: uE n e
  | .bin o l r => uE n l ++ tk (.op o) :: uE n r
  | .member b x => uE n b ++ [tk .dot, tk (.id x)]
  | .index b k => uE n b ++ tk .lb :: (uE n k ++ [tk .rb])
  | .call b false as => uE n b ++ tk .lp :: (uEs n as ++ [tk .rp])
  | .call b true as => uE n b ++ uEs n as
  | .method b x false as => uE n b ++ tk .colon :: tk (.id x) :: tk .lp :: (uEs n as ++ [tk .rp])
  | .method b x true as => uE n b ++ tk .colon :: tk (.id x) :: uEs n as
  | .table its => tk .lc :: (uIts n its ++ [tk .rc])
/-- Lists of expressions. -/
def uEs (n : Nat) : Exs → List U
  | .nil => []
  | .cons e es => uE n e ++ (plain (sepEs es) ++ uEs n es)
/-- Table items. -/
def uIts (n : Nat) : Its → List U
  | .nil => []
  | .pos e its => uE n e ++ (plain (sepIts its) ++ uIts n its)
  | .named x e its => tk (.id x) :: tk .eq :: (uE n e ++ (plain (sepIts its) ++ uIts n its))
  | .keyed k e its => tk .lb :: (uE n k ++ tk .rb :: tk .eq :: (uE n e ++ (plain (sepIts its) ++ uIts n its)))
/-- The condition of a shorthand without the parentheses that are its own tokens (40-43), which may be those of a call. -/
def uC (n : Nat) : Ex → List U
  | .group e => uE n e
  | .call b false as => uE n b ++ uEs n as
  | .method b x false as => uE n b ++ tk .colon :: tk (.id x) :: uEs n as
  | .var x => [tk (.id x)]
  | .num s => [tk (.num s)]
  | .str s => [tk (.str s)]
  | .cst s => [tk (.cst s)]
  | .vararg => [tk .dots]
  | .func ps b => tk .kFunction :: (plain ((prParams ps).dropLast) ++ (newline :: (uB (n + 1) none b ++ [.raw (indent ind n), tk .kEnd])))
  | .un o e => .tok (.op o) true :: uE n e
  | .bin o l r => uE n l ++ tk (.op o) :: uE n r
  | .member b x => uE n b ++ [tk .dot, tk (.id x)]
  | .index b k => uE n b ++ tk .lb :: (uE n k ++ [tk .rb])
  | .call b true as => uE n b ++ uEs n as
  | .method b x true as => uE n b ++ tk .colon :: tk (.id x) :: uEs n as
  | .table its => tk .lc :: (uIts n its ++ [tk .rc])
/-- Statements. -/
def uS (n : Nat) : St → List U
  | .do_ b => tk .kDo :: newline :: (uB (n + 1) none b ++ [.raw (indent ind n), tk .kEnd])
  | .if_ i => tk .kIf :: uI n true i
  | .while_ c b => tk .kWhile :: (uE n c ++ tk .kDo :: newline :: (uB (n + 1) none b ++ [.raw (indent ind n), tk .kEnd]))
  | .whileShort c b _ => tk .kWhile :: (uC n c ++ .word true .kDo :: newline :: (uB (n + 1) none b ++ [.raw (indent ind n), .word false .kEnd]))
  | .repeat_ b c => tk .kRepeat :: newline :: (uB (n + 1) none b ++ .raw (indent ind n) :: tk .kUntil :: uE n c)
  | .fornum x a b s d =>
    tk .kFor :: tk (.id x) :: tk .eq :: (uE n a ++ tk .comma :: (uE n b ++ (plain (sepEs s) ++ (uEs n s ++
      tk .kDo :: newline :: (uB (n + 1) none d ++ [.raw (indent ind n), tk .kEnd])))))
  | .forin xs es d =>
    tk .kFor :: (plain (prNames xs) ++ tk .kIn :: (uEs n es ++ tk .kDo :: newline :: (uB (n + 1) none d ++ [.raw (indent ind n), tk .kEnd])))
  | .break_ => [tk .kBreak]
  | .return_ es => tk .kReturn :: uEs n es
  | .local_ xs es => tk .kLocal :: (plain (prLocals xs) ++ (plain (eqEs es) ++ uEs n es))
  | .localfn x ps b =>
    tk .kLocal :: tk .kFunction :: tk (.id x) :: tk .lp :: (plain (prParams ps) ++ newline :: (uB (n + 1) none b ++ [.raw (indent ind n), tk .kEnd]))
  | .goto_ x => [tk .kGoto, tk (.id x)]
  | .label x => [tk .dcolon, tk (.id x), tk .dcolon]
  | .func f ps b =>
    tk .kFunction :: (plain (prName f) ++ tk .lp :: (plain (prParams ps) ++ newline :: (uB (n + 1) none b ++ [.raw (indent ind n), tk .kEnd])))
  | .assign ts es => uEs n ts ++ tk .eq :: uEs n es
  | .opassign o t e => uE n t ++ tk (.opeq o) :: uE n e
  | .call e => uE n e
  | .print es => tk .quest :: uEs n es
/-- What follows `if` (`w`) or `elseif`.  `then` and `end` are added to `if` shorthands (70-71, 98-99), after the last block. -/
def uI (n : Nat) (w : Bool) : If → List U
  | .long c b t => uE n c ++ tk .kThen :: newline :: (uB (n + 1) none b ++ .raw (indent ind n) :: uT n t)
  | .short c b _ =>
    (if w then uC n c ++ [.word true .kThen] else uE n c) ++
      newline :: (uB (n + 1) none b ++ .raw (indent ind n) :: (if w then [.word false .kEnd] else []))
  | .shortElse c b e _ =>
    (if w then uC n c ++ [.word true .kThen] else uE n c) ++
      newline :: (uB (n + 1) none b ++ .raw (indent ind n) :: tk .kElse :: newline :: (uL (n + 1) none e ++ [.raw (indent ind n), .word false .kEnd]))
/-- What follows the first block of a long `if`. -/
def uT (n : Nat) : Syntax.Tail → List U
  | .end_ => [tk .kEnd]
  | .else_ b => tk .kElse :: newline :: (uB (n + 1) none b ++ [.raw (indent ind n), tk .kEnd])
  | .elseif_ i => tk .kElseif :: uI n false i
/-- Blocks (`visit_node` and `end_visit_node`, 64-111).  `prev` tells whether the previous child is a function; a blank line goes before a function
that comes after something else, and one after every function. -/
def uB (n : Nat) (prev : Option Bool) : Block → List U
  | .nil => []
  | .semi b => uB n (some false) b
  | .cons s b =>
    (if isFn s && prev == some false then [newline] else []) ++
      .raw (indent ind n) :: (uS n s ++ newline :: ((if isFn s then [newline] else []) ++ uB n (some (isFn s)) b))
/-- The block of the `else` of a shorthand: the condition of `else`, which it does not have, is looked up for a `;` (42). -/
def uL (n : Nat) (prev : Option Bool) : Block → List U
  | .nil => []
  | .semi _ => [.crash]
  | .cons s b =>
    (if isFn s && prev == some false then [newline] else []) ++
      .raw (indent ind n) :: (uS n s ++ newline :: ((if isFn s then [newline] else []) ++ uL n (some (isFn s)) b))
end

/-- `unminify_code` (5-115); `ind` is the option `indent`. -/
def unminify (b : Block) : Option (List Nat) := put none (newline :: uB ind 0 none b)

end Verif.Unmin
