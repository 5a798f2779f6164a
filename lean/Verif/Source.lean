import Verif.Lex
import Verif.MinifyText
import Verif.Syntax
import Verif.Props.Lex
/-
From texts to tokens with lines, as the parser takes them, and from the tokens of a tree back to a text: `tokenize` (pico_tokenize.py 319-708)
with `vline`, and `output_node` (pico_output.py 297-385) on the tokens that the model of trees gives.
-/
namespace Verif.Mini
open Syntax
open Paren (Op Lang)

/-- How many lines a skipped piece counts: a newline in white space and the end of a line comment count, newlines in long comments do not
(pico_tokenize.py 537-573, 661-663). -/
def skipLines (p8 : Bool) : List Nat → Nat
  | [] => 0
  | c :: r =>
    match lexClass p8 c r.head? with
    | .space => if c = 10 then 1 else 0
    | .comment => if longOpens (r.drop 1) then 0 else 1
    | .lineComment => 1
    | _ => 0

/-- `tokenize` (pico_tokenize.py 319-708) with the `vline` of each token. -/
def lexLines (p8 : Bool) (n : Nat) (l : List Nat) : Option (List (Tk × Nat)) :=
  if l = [] then some []
  else match lexStep p8 l with
    | .bad => none
    | .skip rest => if rest.length < l.length then lexLines p8 (n + skipLines p8 l) rest else none
    | .tok kind text rest => if rest.length < l.length then (lexLines p8 n rest).map (((kind, text), n) :: ·) else none
termination_by l.length

/-- Keywords, as the parser takes them. -/
def wordTable : List (Nm × K) :=
  [(nm "and", .op .and_), (nm "or", .op .or_), (nm "not", .op .not_), (nm "nil", .cst "nil"), (nm "true", .cst "true"), (nm "false", .cst "false"),
   (nm "break", .kBreak), (nm "do", .kDo), (nm "else", .kElse), (nm "elseif", .kElseif), (nm "end", .kEnd), (nm "for", .kFor),
   (nm "function", .kFunction), (nm "goto", .kGoto), (nm "if", .kIf), (nm "in", .kIn), (nm "local", .kLocal), (nm "repeat", .kRepeat),
   (nm "return", .kReturn), (nm "then", .kThen), (nm "until", .kUntil), (nm "while", .kWhile)]

/-- Symbols, as the parser takes them (pico_parse.py 255-295 for the operators). -/
def signTable : List (Nm × K) :=
  [(nm "...", .dots), (nm "(", .lp), (nm ")", .rp), (nm "[", .lb), (nm "]", .rb), (nm "{", .lc), (nm "}", .rc), (nm ",", .comma), (nm ";", .semi),
   (nm ".", .dot), (nm ":", .colon), (nm "::", .dcolon), (nm "=", .eq), (nm "?", .quest),
   (nm "!=", .op .bangEq), (nm "~=", .op .tildeEq), (nm "==", .op .eqEq), (nm "<", .op .lt), (nm "<=", .op .le), (nm ">", .op .gt), (nm ">=", .op .ge),
   (nm "|", .op .bar), (nm "^^", .op .caret2), (nm "~", .op .tilde), (nm "&", .op .amp), (nm "<<", .op .shl), (nm ">>", .op .shr), (nm ">>>", .op .lshr),
   (nm ">><", .op .rotr), (nm "<<>", .op .rotl), (nm "..", .op .concat), (nm "+", .op .plus), (nm "-", .op .minus), (nm "*", .op .star),
   (nm "/", .op .slash), (nm "//", .op .slash2), (nm "\\", .op .bslash), (nm "%", .op .percent), (nm "^", .op .caret), (nm "#", .op .hash),
   (nm "@", .op .at_), (nm "$", .op .dollar),
   (nm "|=", .opeq .bar), (nm "^^=", .opeq .caret2), (nm "&=", .opeq .amp), (nm "<<=", .opeq .shl), (nm ">>=", .opeq .shr), (nm ">>>=", .opeq .lshr),
   (nm ">><=", .opeq .rotr), (nm "<<>=", .opeq .rotl), (nm "..=", .opeq .concat), (nm "+=", .opeq .plus), (nm "-=", .opeq .minus), (nm "*=", .opeq .star),
   (nm "/=", .opeq .slash), (nm "//=", .opeq .slash2), (nm "\\=", .opeq .bslash), (nm "%=", .opeq .percent), (nm "^=", .opeq .caret)]

/-- What a token is to the parser. -/
def kOf : Tk → Option K
  | (.ident, s) => some (.id s)
  | (.number, s) => some (.num (text s))
  | (.string, s) => some (.str (text s))
  | (.keyword, s) => wordTable.lookup s
  | (.punct, s) => signTable.lookup s

/-- The other way round: kind and text of a token. -/
def tkOf : K → Tk
  | .id s => (.ident, s)
  | .num s => (.number, codes s)
  | .str s => (.string, codes s)
  | k =>
    match wordTable.find? (·.2 == k) with
    | some p => (.keyword, p.1)
    | none => (.punct, ((signTable.find? (·.2 == k)).map (·.1)).getD [])

/-- The tokens of a text with their lines, for the parser; `none` if there is an error.  Lines are counted from 1 here instead of 0; they are only
compared with each other. -/
def readText (L : Lang) (s : List Nat) : Option (List T) :=
  (lexLines (L == .pico8) 1 s).bind fun ts => ts.mapM fun p => (kOf p.1).map (⟨·, p.2⟩)

/-- Tokenize and parse (pico_process.py, `process_code`). -/
def parseText (L : Lang) (n : Nat) (s : List Nat) : Option Block := (readText L s).bind (root L n)

/-- Which tokens a line break goes before (`need_linebreak`). -/
def marks (b : Bool) : List M → List (K × Bool)
  | [] => []
  | .t k :: ms => (k, b) :: marks false ms
  | .nl :: ms => marks true ms

/-- Neighbouring tokens that are both as they were in the same source are in its order, and not side by side if a line break goes between them:
otherwise none is written (pico_output.py 312-316). -/
def Apart (a b : OTok) : Prop :=
  a.modified = false → b.modified = false → a.src = b.src → a.endidx ≤ b.idx ∧ (b.brk = true → a.endidx < b.idx)

/-- The tokens that are written for a tree: as the tree says, some of them modified or new, and the others from their place in the source. -/
structure Renders (p8 : Bool) (srcs : Nat → List Nat) (ms : List M) (ts : List OTok) : Prop where
  toks : ts.map (fun t => ((t.kind, t.text), t.brk)) = (marks false ms).map fun p => (tkOf p.1, p.2)
  plain : ∀ t ∈ ts, t.comment = false
  place : ∀ t ∈ ts, t.modified = false → ∃ sp, lexSpans p8 0 (srcs t.src) = some sp ∧ ((t.kind, t.text), t.idx, t.endidx) ∈ sp
  order : Neighbours Apart ts

end Verif.Mini
