import Verif.Ast
/-
Model of `output_node` (pico_output.py 297-385) as far as tokens and line breaks are concerned: the tokens of a tree in order, and where line
breaks go (with the options `wspace` and `lines`, which are the default).

Simplifications: white space on a line is the subject of C30; kept comments are left out.  Since trees do not keep the separators of tables,
they are printed as the token fixups leave them (pico_minify.py 450-453, 465-466); likewise `then` or `do` is the same for all long `if`s
(pico_minify.py 474-475).
-/
namespace Verif.Mini
open Syntax
open Paren (Op Lang)

deriving instance DecidableEq for Ex, Exs, Its, St, If, Tail, Block

/-- What is put out: a token, or a line break. -/
inductive M
  | t (k : K)
  | nl
  deriving DecidableEq, Repr

/-- The tokens of an output with their lines. -/
def lay : Nat → List M → List T
  | _, [] => []
  | n, .t k :: ms => ⟨k, n⟩ :: lay n ms
  | n, .nl :: ms => lay (n + 1) ms

/-- `need_linebreak` after a shorthand (pico_output.py 375-380), which is on a line of its own unless it is inside of another one (`sh`, which
is `short_level > 0`) or it is marked as nested. -/
def brk (sh : Bool) (d : Nested) : List M := if sh || d then [] else [.nl]

/-- A comma before further expressions. -/
def sepEs : Exs → List M
  | .nil => []
  | .cons _ _ => [.t .comma]

/-- A comma before further items. -/
def sepIts : Its → List M
  | .nil => []
  | _ => [.t .comma]

/-- `=` before values. -/
def eqEs : Exs → List M
  | .nil => []
  | .cons _ _ => [.t .eq]

/-- Names with commas. -/
def prNames : List Nm → List M
  | [] => []
  | [x] => [.t (.id x)]
  | x :: xs => .t (.id x) :: .t .comma :: prNames xs

/-- An attribute. -/
def prAttr : Option Nm → List M
  | none => []
  | some a => [.t (.op .lt), .t (.id a), .t (.op .gt)]

/-- Names with attributes and commas. -/
def prLocals : List (Nm × Option Nm) → List M
  | [] => []
  | [x] => .t (.id x.1) :: prAttr x.2
  | x :: xs => .t (.id x.1) :: (prAttr x.2 ++ .t .comma :: prLocals xs)

/-- A parameter. -/
def prPar : Param → K
  | none => .dots
  | some x => .id x

/-- Parameters with commas, and the closing parenthesis. -/
def prParams : List Param → List M
  | [] => [.t .rp]
  | [p] => [.t (prPar p), .t .rp]
  | p :: ps => .t (prPar p) :: .t .comma :: prParams ps

/-- The target of a function statement. -/
def prName (f : FnName) : List M :=
  .t (.id f.base) :: (f.keys.flatMap (fun x => [.t .dot, .t (.id x)]) ++ f.meth.toList.flatMap fun x => [.t .colon, .t (.id x)])

variable (th : K)

mutual
/-- Expressions. -/
def prE (sh : Bool) : Ex → List M
  | .var x => [.t (.id x)]
  | .num s => [.t (.num s)]
  | .str s => [.t (.str s)]
  | .cst s => [.t (.cst s)]
  | .vararg => [.t .dots]
  | .func ps b => .t .kFunction :: .t .lp :: (prParams ps ++ (prB sh b ++ [.t .kEnd]))
  | .group e => .t .lp :: (prE sh e ++ [.t .rp])
  | .un o e => .t (.op o) :: prE sh e
  | .bin o l r => prE sh l ++ .t (.op o) :: prE sh r
  | .member b x => prE sh b ++ [.t .dot, .t (.id x)]
  | .index b k => prE sh b ++ .t .lb :: (prE sh k ++ [.t .rb])
  | .call b false as => prE sh b ++ .t .lp :: (prEs sh as ++ [.t .rp])
  | .call b true as => prE sh b ++ prEs sh as
  | .method b x false as => prE sh b ++ .t .colon :: .t (.id x) :: .t .lp :: (prEs sh as ++ [.t .rp])
  | .method b x true as => prE sh b ++ .t .colon :: .t (.id x) :: prEs sh as
  | .table its => .t .lc :: (prIts sh its ++ [.t .rc])
/-- Lists of expressions. -/
def prEs (sh : Bool) : Exs → List M
  | .nil => []
  | .cons e es => prE sh e ++ (sepEs es ++ prEs sh es)
/-- Table items. -/
def prIts (sh : Bool) : Its → List M
  | .nil => []
  | .pos e its => prE sh e ++ (sepIts its ++ prIts sh its)
  | .named x e its => .t (.id x) :: .t .eq :: (prE sh e ++ (sepIts its ++ prIts sh its))
  | .keyed k e its => .t .lb :: (prE sh k ++ .t .rb :: .t .eq :: (prE sh e ++ (sepIts its ++ prIts sh its)))
/-- Statements. -/
def prS (sh : Bool) : St → List M
  | .do_ b => .t .kDo :: (prB sh b ++ [.t .kEnd])
  | .if_ i => .t .kIf :: prI sh i
  | .while_ c b => .t .kWhile :: (prE sh c ++ .t .kDo :: (prB sh b ++ [.t .kEnd]))
  | .whileShort c b d => .t .kWhile :: (prE (sh || !d) c ++ (prB (sh || !d) b ++ brk sh d))
  | .repeat_ b c => .t .kRepeat :: (prB sh b ++ .t .kUntil :: prE sh c)
  | .fornum x a b s d =>
    .t .kFor :: .t (.id x) :: .t .eq :: (prE sh a ++ .t .comma :: (prE sh b ++ (sepEs s ++ (prEs sh s ++ .t .kDo :: (prB sh d ++ [.t .kEnd])))))
  | .forin xs es d => .t .kFor :: (prNames xs ++ .t .kIn :: (prEs sh es ++ .t .kDo :: (prB sh d ++ [.t .kEnd])))
  | .break_ => [.t .kBreak]
  | .return_ es => .t .kReturn :: prEs sh es
  | .local_ xs es => .t .kLocal :: (prLocals xs ++ (eqEs es ++ prEs sh es))
  | .localfn x ps b => .t .kLocal :: .t .kFunction :: .t (.id x) :: .t .lp :: (prParams ps ++ (prB sh b ++ [.t .kEnd]))
  | .goto_ x => [.t .kGoto, .t (.id x)]
  | .label x => [.t .dcolon, .t (.id x), .t .dcolon]
  | .func f ps b => .t .kFunction :: (prName f ++ .t .lp :: (prParams ps ++ (prB sh b ++ [.t .kEnd])))
  | .assign ts es => prEs sh ts ++ .t .eq :: prEs sh es
  | .opassign o t e => prE sh t ++ .t (.opeq o) :: prE sh e
  | .call e => prE sh e
  -- `short` is never nested (pico_parse.py 840)
  | .print es => .t .quest :: (prEs true es ++ brk sh false)
/-- What follows `if` or `elseif`. -/
def prI (sh : Bool) : If → List M
  | .long c b t => prE sh c ++ .t th :: (prB sh b ++ prT sh t)
  | .short c b d => prE (sh || !d) c ++ (prB (sh || !d) b ++ brk sh d)
  | .shortElse c b e d => prE (sh || !d) c ++ (prB (sh || !d) b ++ .t .kElse :: (prB (sh || !d) e ++ brk sh d))
/-- What follows the first block of a long `if`. -/
def prT (sh : Bool) : Tail → List M
  | .end_ => [.t .kEnd]
  | .else_ b => .t .kElse :: (prB sh b ++ [.t .kEnd])
  | .elseif_ i => .t .kElseif :: prI sh i
/-- Blocks. -/
def prB (sh : Bool) : Block → List M
  | .nil => []
  | .semi b => .t .semi :: prB sh b
  | .cons s b => prS sh s ++ prB sh b
end

/-- The tokens of the output of a program. -/
def output (b : Block) : List T := lay 1 (prB th false b)

end Verif.Mini
