import Verif.StrLit
import Verif.Ident
/-
Model of the tokenizer (pico_tokenize.py 319-708) and of the output of tokens with as little whitespace as needed
(pico_output.py 259-265, 297-331).

Characters are codes.  Tokens carry their kind and text; hints in comments, sublanguages, compilers and dynamic includes are not modelled (a
comment is skipped).  The source goes on after an error, collecting all of them; here the first error is the result `bad`, because every caller
rejects a text with errors.
-/
namespace Verif

inductive TokKind | number | string | ident | keyword | punct
  deriving DecidableEq, Repr

abbrev Tk := TokKind × List Nat

/-- What the tokenizer does at a character, decided by it and the next one (the chain of conditions 661-701). -/
inductive LexClass | space | num | ident | str | long | comment | lineComment | punct | notEq | bad
  deriving DecidableEq, Repr

/-- `"+-*/\\%&|^<>=~#()[]{};,?@$.:"` (684). -/
def punctChars : List Nat :=
  [43, 45, 42, 47, 92, 37, 38, 124, 94, 60, 62, 61, 126, 35, 40, 41, 91, 93, 123, 125, 59, 44, 63, 64, 36, 46, 58]

/-- `'0' <= peek() <= '9'`; at the end `peek()` is the empty string. -/
def headDigit (h : Option Nat) : Bool := match h with | some c => isDigit c | none => false

/-- The conditions of the main loop (661-701). -/
def lexClass (p8 : Bool) (c : Nat) (h : Option Nat) : LexClass :=
  if isWspace c then .space
  else if isDigit c || (c == 46 && headDigit h) then .num
  else if isIdentChar p8 c then .ident
  else if c == 34 || c == 39 then .str
  else if c == 91 && (h == some 61 || h == some 91) then .long
  else if c == 45 && h == some 45 then .comment
  else if c == 47 && p8 && h == some 47 then .lineComment
  else if punctChars.contains c then .punct
  else if c == 33 && h == some 61 then .notEq
  else .bad

/-- A character that goes on a Picotron number (585-586); `prev` is `peek(-1)`. -/
def numGo (isHex : Bool) (prev c : Nat) : Bool :=
  isIdentChar false c || c == 46 || ((c == 45 || c == 43) && (if isHex then [112, 80] else [101, 69]).contains prev)

/-- The number scanner of Picotron (580-589). -/
def numScan (isHex : Bool) (prev : Nat) : List Nat → Nat
  | [] => 0
  | c :: r => if numGo isHex prev c then numScan isHex c r + 1 else 0

/-- `peek(1) in ('b', 'B')` etc. -/
def headIn (h : Option Nat) (cs : List Nat) : Bool := match h with | some c => cs.contains c | none => false

/-- The characters that go on a PICO-8 number (591-609). -/
def numDigit (base : Nat) (c : Nat) : Bool :=
  c == 46 || (if base = 2 then c == 48 || c == 49 else if base = 16 then isDigit c || (97 ≤ c && c ≤ 102) || (65 ≤ c && c ≤ 70) else isDigit c)

/-- `tokenize_number` (575-611): the length of the number. -/
def numLen (p8 : Bool) (l : List Nat) : Nat :=
  let c := l.head?
  let h := (l.drop 1).head?
  if p8 then
    if c == some 48 && headIn h [98, 66] then 2 + ((l.drop 2).takeWhile (numDigit 2)).length
    else if c == some 48 && headIn h [120, 88] then 2 + ((l.drop 2).takeWhile (numDigit 16)).length
    else (l.takeWhile (numDigit 10)).length
  else numScan (c == some 48 && headIn h [120, 88]) 0 l

/-- The length of a punctuation token (685-695), with `c` its first character and `r` the text after that. -/
def punctLen (p8 : Bool) (c : Nat) (r : List Nat) : Nat :=
  if [46, 58, 47, 94, 60, 62].contains c && r.head? == some c then
    if (c == 46 || (p8 && c == 62)) && (r.drop 1).head? == some c then
      if c == 62 && (r.drop 2).head? == some 61 then 4 else 3
    else if (c == 60 || c == 62) && p8 && (r.drop 1).head? == some (if c = 60 then 62 else 60) then
      if (r.drop 2).head? == some 61 then 4 else 3
    else if [46, 47, 94, 60, 62].contains c && (r.drop 1).head? == some 61 then 3 else 2
  else if [43, 45, 42, 47, 92, 37, 38, 124, 94, 60, 62, 61, 126].contains c && r.head? == some 61 then 2
  else 1

inductive LexStep
  | skip (rest : List Nat)
  | tok (kind : TokKind) (text rest : List Nat)
  | bad
  deriving DecidableEq, Repr

/-- After a line comment (537-543): the text behind the next newline. -/
def afterLine (s : List Nat) : List Nat := (s.dropWhile (· ≠ 10)).drop 1

/-- Whether a long bracket opens here (550-555). -/
def longOpens (s : List Nat) : Bool :=
  s.head? == some 91 && ((s.drop 1).dropWhile (· == 61)).head? == some 91

/-- `tokenize_long_comment`, `tokenize_line_comment` (537-573) after `--`.  An unterminated long comment is an error. -/
def lexComment (s : List Nat) : LexStep :=
  if longOpens s then
    match scanLong s with
    | some (_, rest) => .skip rest
    | none => .bad
  else .skip (afterLine s)

/-- Cut off the first `n` characters as a token. -/
def cutTok (kind : TokKind) (n : Nat) (l : List Nat) : LexStep := .tok kind (l.take n) (l.drop n)

/-- One round of the main loop (658-702). -/
def lexStep (p8 : Bool) (l : List Nat) : LexStep :=
  match l with
  | [] => .bad
  | c :: r =>
    match lexClass p8 c r.head? with
    | .space => .skip r
    | .num => cutTok .number (numLen p8 (c :: r)) (c :: r)
    | .ident =>
      let w := (c :: r).takeWhile (isIdentChar p8)
      cutTok (if keywords.contains w then .keyword else .ident) w.length (c :: r)
    | .str => match scanString c r with
      | some rest => cutTok .string ((c :: r).length - rest.length) (c :: r)
      | none => .bad
    | .long => match scanLong (c :: r) with
      | some (_, rest) => cutTok .string ((c :: r).length - rest.length) (c :: r)
      | none => .bad
    | .comment => lexComment (r.drop 1)
    | .lineComment => .skip (afterLine (r.drop 1))
    | .punct => cutTok .punct (punctLen p8 c r) (c :: r)
    | .notEq => cutTok .punct 2 (c :: r)
    | .bad => .bad

/-- `tokenize` (319-708); `none` if there is any error. -/
def lexAll (p8 : Bool) (l : List Nat) : Option (List Tk) :=
  if l = [] then some []
  else match lexStep p8 l with
    | .bad => none
    | .skip rest => if rest.length < l.length then lexAll p8 rest else none
    | .tok kind text rest => if rest.length < l.length then (lexAll p8 rest).map ((kind, text) :: ·) else none
termination_by l.length

/-- `tokenize` with the `idx` and `endidx` of each token (`add_token`, 363-374); `off` is where `l` starts. -/
def lexSpans (p8 : Bool) (off : Nat) (l : List Nat) : Option (List (Tk × Nat × Nat)) :=
  if l = [] then some []
  else match lexStep p8 l with
    | .bad => none
    | .skip rest => if rest.length < l.length then lexSpans p8 (off + (l.length - rest.length)) rest else none
    | .tok kind text rest =>
      if rest.length < l.length then
        (lexSpans p8 (off + (l.length - rest.length)) rest).map (((kind, text), off, off + (l.length - rest.length)) :: ·)
      else none
termination_by l.length

/-- A token or kept comment to be written (pico_tokenize.py 180-296): kind and text, the source it comes from, where, its virtual line, and
whether it was modified or created since.  For a comment, `text` is what `comment_output` writes (337-345). -/
structure OTok where
  kind : TokKind
  text : List Nat
  src : Nat
  idx : Nat
  endidx : Nat
  vline : Nat
  modified : Bool
  /-- A shorthand statement ended just before this token (`need_linebreak`, 372-384). -/
  brk : Bool
  comment : Bool := false
deriving DecidableEq

/-- `need_whitespace_between` (259-265). -/
def needSpace (p8 : Bool) (prev next : OTok) : Bool :=
  if prev.comment || next.comment then false
  else lexAll p8 (prev.text ++ next.text) != some [(prev.kind, prev.text), (next.kind, next.text)]

/-- `wspace_output` with `minify_wspace` (311-325): the whitespace written before `next`, and the new `need_linebreak`. -/
def wspaceOut (p8 minifyLines : Bool) (prev next : OTok) (brk : Bool) : List Nat × Bool :=
  if (decide (prev.endidx < next.idx) || prev.src != next.src || prev.modified || next.modified) && !prev.text.isEmpty then
    if (brk && !next.comment) || (!minifyLines && next.vline != prev.vline) then ([10], false)
    else if needSpace p8 prev next then ([32], brk)
    else ([], brk)
  else ([], brk)

/-- What comes out of `output_node` (297-385) after `prev`, as separators and tokens.  A comment with a newline also clears
`need_linebreak` (349-350). -/
def sepsFrom (p8 minifyLines : Bool) (prev : OTok) (brk : Bool) : List OTok → List (List Nat × OTok)
  | [] => []
  | t :: ts =>
    let w := wspaceOut p8 minifyLines prev t (brk || t.brk)
    (w.1, t) :: sepsFrom p8 minifyLines t (if t.comment && t.text.contains 10 then false else w.2) ts

/-- The text of separators and tokens. -/
def sepsText : List (List Nat × OTok) → List Nat
  | [] => []
  | (w, t) :: r => w ++ t.text ++ sepsText r

/-- The minified text of a sequence; before the first token there is no whitespace (`Token.none`). -/
def outputTokens (p8 minifyLines : Bool) : List OTok → List Nat
  | [] => []
  | t :: ts => t.text ++ sepsText (sepsFrom p8 minifyLines t t.brk ts)

/-- `str.isspace` on a character below 256. -/
def isPySpace (c : Nat) : Bool := (9 ≤ c && c ≤ 13) || (28 ≤ c && c ≤ 32) || c == 0x85 || c == 0xa0

/-- The last line of a text. -/
def lastLine (s : List Nat) : List Nat := (s.reverse.takeWhile (· ≠ 10)).reverse

/-- `get_orig_wspace` (271-295) on `source.text[pre.endidx:post.idx]`.  What is left after cutting away the tokens in it (276-280) is the
parameter `cut`, together with whether there were tokens. -/
def origSpace (cut : List Nat → List Nat × Bool) (text : List Nat) (allowBreaks needBreak : Bool) : List Nat :=
  let r : List Nat × Bool :=
    if !text.isEmpty && !text.all isPySpace then
      let c := cut text
      let newlines := min (c.1.count 10) 2
      let line := if newlines ≠ 0 then lastLine c.1 else c.1
      let lspace := (line.takeWhile (· == 32)).length
      let rspace := (line.reverse.takeWhile (· == 32)).length
      (List.replicate newlines 10 ++ List.replicate (max lspace rspace) 32, needBreak || (c.2 && text.contains 10 && allowBreaks))
    else (text, needBreak)
  let s := if !allowBreaks && r.1.contains 10 then r.1.takeWhile (· ≠ 10) ++ [32] else r.1
  if r.2 && !s.contains 10 then s ++ [10] else s

/-- The separators without `minify_wspace` (327-335); `gap prev next` is the source text between two tokens. -/
def origSepsFrom (p8 : Bool) (cut : List Nat → List Nat × Bool) (gap : OTok → OTok → List Nat) (prev : OTok) (brk : Bool) :
    List OTok → List (List Nat × OTok)
  | [] => []
  | t :: ts =>
    let need := brk || t.brk
    let w := origSpace cut (gap prev t) (t.vline != prev.vline) (need && !t.comment)
    let w' := if w.isEmpty && needSpace p8 prev t then [32] else w
    (w', t) :: origSepsFrom p8 cut gap t (if w'.contains 10 || (t.comment && t.text.contains 10) then false else need) ts

/-! ### Counting tokens -/

/-- A token as `count_tokens` (pico_tokenize.py 711-729) sees it; `kind = none` for the end token, `stop` for one with the lint hint
`count::stop`. -/
structure CTok where
  kind : Option TokKind
  text : List Nat
  idx : Nat
  endidx : Nat
  stop : Bool := false

/-- The values that cost nothing (718). -/
def freeTexts : List (List Nat) :=
  [[44], [46], [58], [59], [58, 58], [41], [93], [125], [101, 110, 100], [108, 111, 99, 97, 108]]

/-- The values after which a minus sign is an operator on them (724). -/
def operandEnds : List (List Nat) := [[41], [93], [125], [59], [101, 110, 100]]

/-- The exception for the sign of a number (721-725). -/
def signFree (prev : Option CTok) (t : CTok) (next : Option CTok) : Bool :=
  (t.text == [45] || t.text == [126]) &&
  (match next with | some n => n.kind == some .number && t.endidx == n.idx | none => false) &&
  (match prev with
    | some p => !(p.kind == some .number || p.kind == some .string || p.kind == some .ident) && !operandEnds.contains p.text
    | none => false)

/-- `count_tokens` (711-729). -/
def countTokens (prev : Option CTok) : List CTok → Nat
  | [] => 0
  | t :: r =>
    if t.stop then 0
    else (if t.kind == none || freeTexts.contains t.text then 0 else if signFree prev t r.head? then 0 else 1) + countTokens (some t) r

end Verif
