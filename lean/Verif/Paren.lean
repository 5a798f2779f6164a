/-
Model of the expression parser of pico_parse.py and of the part of pico_minify.py that removes
parentheses, rewrites negative numbers as unary operators and drops call parentheses.

Simplifications.  A function expression (which contains statements) is one opaque token, as are
`nil`, `true` and `false`.  The `?` print shorthand inside an expression is left out.  Tokens carry
a kind and an identifying number instead of text (the text level is the subject of `Verif.Lex`).
Python's recursion is bounded by fuel; statements about it hold for all sufficiently large fuel.
-/
namespace Verif.Paren

/-- Operator symbols: pico_parse.py:255-284 (`k_unary_ops`, `k_binary_op_precs`). -/
inductive Op where
  | or_ | and_ | bangEq | tildeEq | eqEq | lt | le | gt | ge | bar | caret2 | tilde | amp
  | shl | shr | lshr | rotr | rotl | concat | plus | minus | star | slash | slash2 | bslash
  | percent | caret | not_ | hash | at_ | dollar
  deriving DecidableEq, Repr

inductive Lang where
  | pico8 | picotron
  deriving DecidableEq, Repr

/-- pico_parse.py:255-263: `k_unary_ops` restricted by `k_unary_op_langs`. -/
def isUn (L : Lang) : Op → Bool
  | .minus | .tilde | .not_ | .hash | .at_ | .percent | .dollar => true
  | .star => L == .picotron
  | _ => false

/-- pico_parse.py:265-284: `k_binary_op_precs`; 0 for symbols that are not in the table. -/
def prec : Op → Nat
  | .or_ => 1 | .and_ => 2
  | .bangEq | .tildeEq | .eqEq | .lt | .le | .gt | .ge => 3
  | .bar => 4 | .caret2 | .tilde => 5 | .amp => 6
  | .shl | .shr | .lshr | .rotr | .rotl => 7
  | .concat => 8
  | .plus | .minus => 9
  | .star | .slash | .slash2 | .bslash | .percent => 10
  | .caret => 12
  | .not_ | .hash | .at_ | .dollar => 0

/-- pico_parse.py:265-295: membership in `k_binary_op_precs`, restricted by
`k_binary_op_langs`. -/
def isBin (L : Lang) : Op → Bool
  | .not_ | .hash | .at_ | .dollar => false
  | .lshr | .rotr | .rotl => L == .pico8
  | .slash2 => L == .picotron
  | _ => true

/-- pico_parse.py:286-288: `k_right_binary_ops`. -/
def rightOp : Op → Bool
  | .caret | .concat => true
  | _ => false

/-- pico_parse.py:263: `k_unary_ops_prec`. -/
def unPrec : Nat := 11

/-- Tokens as the parser sees them. -/
inductive Tok where
  | id (n : Nat) | cst (n : Nat) | num (v : Int) | str (n : Nat) | fn (n : Nat) | dots
  | lp | rp | lb | rb | lc | rc | comma | semi | dot | colon | eq
  | op (o : Op) | other (n : Nat)
  deriving DecidableEq, Repr

mutual
/-- Expression nodes (pico_parse.py: the node types var, const, function, varargs, group, unary_op,
binary_op, member, index, call, table).  `method` is a call whose function is a method member.  The
flag of a call tells whether its only argument is written without parentheses. -/
inductive Ex where
  | var (n : Nat) | cst (n : Nat) | num (v : Int) | str (n : Nat) | fn (n : Nat) | vararg
  | group (e : Ex)
  | un (o : Op) (e : Ex)
  | bin (o : Op) (l r : Ex)
  | member (b : Ex) (n : Nat)
  | index (b k : Ex)
  | call (b : Ex) (sh : Bool) (args : Exs)
  | method (b : Ex) (n : Nat) (sh : Bool) (args : Exs)
  | table (its : Its)
/-- Call arguments. -/
inductive Exs where
  | nil | cons (e : Ex) (es : Exs)
/-- Table items: positional, `name = value` and `[key] = value`. -/
inductive Its where
  | nil | pos (e : Ex) (its : Its) | named (n : Nat) (e : Ex) (its : Its)
  | keyed (k e : Ex) (its : Its)
end

/-- pico_parse.py:299: `k_prefix_types`. -/
def isPrefix : Ex → Bool
  | .var _ | .member _ _ | .index _ _ | .call _ _ _ | .method _ _ _ _ | .group _ => true
  | _ => false

/-- pico_parse.py:639-640: `compare_prec`. -/
def accepts (o : Op) : Option Nat → Bool
  | none => true
  | some p => if rightOp o then decide (p ≤ prec o) else decide (p < prec o)

mutual
/-- pico_parse.py:606-637: `parse_core_expr`. -/
def parseCore (L : Lang) : Nat → List Tok → Option (Ex × List Tok)
  | 0, _ => none
  | _ + 1, [] => none
  | n + 1, t :: r =>
    match t with
    | .cst c => some (.cst c, r)
    | .num v => some (.num v, r)
    | .str s => some (.str s, r)
    | .lc =>
      match parseItems L n r with
      | some (its, r') => some (.table its, r')
      | none => none
    | .lp =>
      match parseExpr L n none r with
      | some (e, .rp :: r') => some (.group e, r')
      | _ => none
    | .op o =>
      if isUn L o then
        match parseExpr L n (some unPrec) r with
        | some (e, r') => some (.un o e, r')
        | none => none
      else none
    | .fn f => some (.fn f, r)
    | .dots => some (.vararg, r)
    | .id v => some (.var v, r)
    | _ => none

/-- pico_parse.py:642-643: `parse_expr` up to its loop. -/
def parseExpr (L : Lang) : Nat → Option Nat → List Tok → Option (Ex × List Tok)
  | 0, _, _ => none
  | n + 1, p, toks =>
    match parseCore L n toks with
    | some (e, r) => parseLoop L n p e r
    | none => none

/-- pico_parse.py:644-677: the loop of `parse_expr`. -/
def parseLoop (L : Lang) : Nat → Option Nat → Ex → List Tok → Option (Ex × List Tok)
  | 0, _, _, _ => none
  | _ + 1, _, e, [] => some (e, [])
  | n + 1, p, e, t :: r =>
    match t with
    | .dot =>
      if isPrefix e then
        match r with
        | .id m :: r' => parseLoop L n p (.member e m) r'
        | _ => none
      else some (e, t :: r)
    | .lb =>
      if isPrefix e then
        match parseExpr L n none r with
        | some (k, .rb :: r') => parseLoop L n p (.index e k) r'
        | _ => none
      else some (e, t :: r)
    | .lp =>
      if isPrefix e then
        match parseArgs L n r with
        | some (args, r') => parseLoop L n p (.call e false args) r'
        | none => none
      else some (e, t :: r)
    | .lc =>
      if isPrefix e then
        match parseCore L n (t :: r) with
        | some (arg, r') => parseLoop L n p (.call e true (.cons arg .nil)) r'
        | none => none
      else some (e, t :: r)
    | .str _ =>
      if isPrefix e then
        match parseCore L n (t :: r) with
        | some (arg, r') => parseLoop L n p (.call e true (.cons arg .nil)) r'
        | none => none
      else some (e, t :: r)
    | .colon =>
      if isPrefix e then
        match r with
        | .id m :: .lp :: r' =>
          match parseArgs L n r' with
          | some (args, r'') => parseLoop L n p (.method e m false args) r''
          | none => none
        | .id m :: .lc :: r' =>
          match parseCore L n (.lc :: r') with
          | some (arg, r'') => parseLoop L n p (.method e m true (.cons arg .nil)) r''
          | none => none
        | .id m :: .str s :: r' =>
          match parseCore L n (.str s :: r') with
          | some (arg, r'') => parseLoop L n p (.method e m true (.cons arg .nil)) r''
          | none => none
        | _ => none
      else some (e, t :: r)
    | .op o =>
      if isBin L o && accepts o p then
        match parseExpr L n (some (prec o)) r with
        | some (other, r') => parseLoop L n p (.bin o e other) r'
        | none => none
      else some (e, t :: r)
    | _ => some (e, t :: r)

/-- pico_parse.py:572-589: `parse_call` after its opening parenthesis. -/
def parseArgs (L : Lang) : Nat → List Tok → Option (Exs × List Tok)
  | 0, _ => none
  | n + 1, toks =>
    match toks with
    | .rp :: r => some (.nil, r)
    | _ => parseArgs1 L n toks

/-- pico_parse.py:580-587: the loop of `parse_call`. -/
def parseArgs1 (L : Lang) : Nat → List Tok → Option (Exs × List Tok)
  | 0, _ => none
  | n + 1, toks =>
    match parseExpr L n none toks with
    | some (e, .rp :: r) => some (.cons e .nil, r)
    | some (e, .comma :: r) =>
      match parseArgs1 L n r with
      | some (es, r') => some (.cons e es, r')
      | none => none
    | _ => none

/-- pico_parse.py:538-570: `parse_table` after its opening brace. -/
def parseItems (L : Lang) : Nat → List Tok → Option (Its × List Tok)
  | 0, _ => none
  | n + 1, toks =>
    match toks with
    | .rc :: r => some (.nil, r)
    | .lb :: r =>
      match parseExpr L n none r with
      | some (k, .rb :: .eq :: r') =>
        match parseExpr L n none r' with
        | some (e, r'') =>
          match parseSep L n r'' with
          | some (its, q) => some (.keyed k e its, q)
          | none => none
        | none => none
      | _ => none
    | .id m :: .eq :: r =>
      match parseExpr L n none r with
      | some (e, r'') =>
        match parseSep L n r'' with
        | some (its, q) => some (.named m e its, q)
        | none => none
      | none => none
    | _ :: .eq :: _ => none
    | _ =>
      match parseExpr L n none toks with
      | some (e, r'') =>
        match parseSep L n r'' with
        | some (its, q) => some (.pos e its, q)
        | none => none
      | none => none

/-- pico_parse.py:563-568: what follows a table item. -/
def parseSep (L : Lang) : Nat → List Tok → Option (Its × List Tok)
  | 0, _ => none
  | n + 1, toks =>
    match toks with
    | .rc :: r => some (.nil, r)
    | .comma :: r => parseItems L n r
    | .semi :: r => parseItems L n r
    | _ => none
end

/-- pico_minify.py:455-461: is the only argument a table or a string, so that the call needs no
parentheses? -/
def bareArgs : Exs → Bool
  | .cons (.str _) .nil => true
  | .cons (.table _) .nil => true
  | _ => false

mutual
/-- The token sequence of an expression after the token fixups: separators are single commas with
no trailing one (pico_minify.py:450-453, 465-466). -/
def pr : Ex → List Tok
  | .var n => [.id n]
  | .cst n => [.cst n]
  | .num v => [.num v]
  | .str n => [.str n]
  | .fn n => [.fn n]
  | .vararg => [.dots]
  | .group e => .lp :: (pr e ++ [.rp])
  | .un o e => .op o :: pr e
  | .bin o l r => pr l ++ .op o :: pr r
  | .member b n => pr b ++ [.dot, .id n]
  | .index b k => pr b ++ .lb :: (pr k ++ [.rb])
  | .call b sh args => pr b ++ (if sh then prBare args else .lp :: prArgs args)
  | .method b n sh args =>
    pr b ++ .colon :: .id n :: (if sh then prBare args else .lp :: prArgs args)
  | .table its => .lc :: prItems its
/-- Arguments without parentheses. -/
def prBare : Exs → List Tok
  | .nil => []
  | .cons e es => pr e ++ prBare es
/-- Arguments up to and including the closing parenthesis. -/
def prArgs : Exs → List Tok
  | .nil => [.rp]
  | .cons e .nil => pr e ++ [.rp]
  | .cons e es => pr e ++ .comma :: prArgs es
/-- Table items up to and including the closing brace. -/
def prItems : Its → List Tok
  | .nil => [.rc]
  | .pos e .nil => pr e ++ [.rc]
  | .pos e its => pr e ++ .comma :: prItems its
  | .named n e .nil => .id n :: .eq :: (pr e ++ [.rc])
  | .named n e its => .id n :: .eq :: (pr e ++ .comma :: prItems its)
  | .keyed k e .nil => .lb :: (pr k ++ .rb :: .eq :: (pr e ++ [.rc]))
  | .keyed k e its => .lb :: (pr k ++ .rb :: .eq :: (pr e ++ .comma :: prItems its))
end

/-- Where a node sits in its parent, as far as `fixup_nodes_pre` distinguishes it. -/
inductive Ctx where
  /-- operand of a unary operator -/
  | unArg
  /-- left operand of a binary operator -/
  | left (o : Op)
  /-- right operand of a binary operator -/
  | right (o : Op)
  /-- the indexed or called expression -/
  | base
  /-- a place where exactly one value is used: inside another group, an index key, a table value, an
  argument or item that is not the last, a condition that is not short, a compound assignment, the
  last source of an assignment having at least as many sources as targets -/
  | single
  /-- the last argument, item, or returned value, or the last source of an assignment with more
  targets than sources -/
  | last
  /-- anywhere else -/
  | keep
  deriving DecidableEq, Repr

/-- pico_parse.py:1090-1094: `get_precedence`. -/
def exPrec : Ex → Option Nat
  | .bin o _ _ => some (prec o)
  | .un _ _ => some unPrec
  | _ => none

/-- `get_precedence` of the parent (pico_minify.py:372). -/
def ctxPrec : Ctx → Option Nat
  | .unArg => some unPrec
  | .left o | .right o => some (prec o)
  | _ => none

/-- pico_parse.py:1096-1100: `is_right_assoc` of the parent. -/
def ctxRightAssoc : Ctx → Bool
  | .left o | .right o => rightOp o
  | _ => false

/-- `outer.right == node` (pico_minify.py:378). -/
def ctxIsRight : Ctx → Bool
  | .right _ => true
  | _ => false

/-- pico_parse.py:1102-1109: `can_replace_with_unary`. -/
def canUnary (c : Ctx) : Bool :=
  ctxIsRight c || (match ctxPrec c with
    | none => true
    | some p => decide (p < unPrec))

/-- pico_parse.py:1083-1084: `is_vararg_expr`. -/
def isVararg : Ex → Bool
  | .call _ _ _ | .method _ _ _ _ | .vararg => true
  | _ => false

/-- pico_minify.py:343-350: `value_is_negative`, on the signed value of the literal. -/
def isNeg (v : Int) : Bool := decide (v < 0)

/-- pico_minify.py:376-383: the decision for an operand with the given inner expression. -/
def removeOperand (focusTokens : Bool) (c : Ctx) (outer : Nat) (inner : Ex) : Bool :=
  match exPrec inner with
  | some ip =>
    decide (ip > outer) ||
      (decide (ip = outer) && (decide (outer = unPrec) || ctxRightAssoc c == ctxIsRight c))
  | none =>
    match inner with
    | .group _ | .var _ | .index _ _ | .member _ _ | .call _ _ _ | .method _ _ _ _ | .vararg => true
    | .num v => focusTokens || canUnary c || !isNeg v
    | .cst _ | .str _ => true
    | _ => false

/-- pico_minify.py:371-404: is the group around `inner` removed at this place? -/
def removes (focusTokens : Bool) (c : Ctx) (inner : Ex) : Bool :=
  match ctxPrec c with
  | some outer => removeOperand focusTokens c outer inner
  | none =>
    match c with
    | .base => isPrefix inner
    | .single => true
    | .last => !isVararg inner
    | _ => false

mutual
/-- pico_minify.py:360-411: `fixup_nodes_pre` over an expression, parents before children.  Also
pico_minify.py:455-461: a call whose only argument is (before its own groups are removed, as the
parenthesis comes first in the traversal) a string or table loses its parentheses; this is not done
for methods, whose argument list also holds the method name. -/
def mn (f : Bool) (c : Ctx) : Ex → Ex
  | .group e => if removes f c e then mn f c e else .group (mn f .single e)
  | .un o e => .un o (mn f .unArg e)
  | .bin o l r => .bin o (mn f (.left o) l) (mn f (.right o) r)
  | .member b n => .member (mn f .base b) n
  | .index b k => .index (mn f .base b) (mn f .single k)
  | .call b _ args => .call (mn f .base b) (bareArgs args) (mnArgs f args)
  | .method b n sh args => .method (mn f .base b) n sh (mnArgs f args)
  | .table its => .table (mnItems f its)
  | e => e
def mnArgs (f : Bool) : Exs → Exs
  | .nil => .nil
  | .cons e .nil => .cons (mn f .last e) .nil
  | .cons e es => .cons (mn f .single e) (mnArgs f es)
def mnItems (f : Bool) : Its → Its
  | .nil => .nil
  | .pos e .nil => .pos (mn f .last e) .nil
  | .pos e its => .pos (mn f .single e) (mnItems f its)
  | .named n e its => .named n (mn f .single e) (mnItems f its)
  | .keyed k e its => .keyed (mn f .single k) (mn f .single e) (mnItems f its)
end

/-- What formatting a number literal may produce (pico_minify.py:486-501): a plain literal, a
literal with a sign, or (Picotron, where a sign is unavoidable) a sign in parentheses. -/
inductive NumOut where
  | plain (v : Int) | signed (o : Op) (v : Int) | parens (o : Op) (v : Int)

/-- The expression that the tokens of a formatted number spell. -/
def NumOut.ex : NumOut → Ex
  | .plain v => .num v
  | .signed o v => .un o (.num v)
  | .parens o v => .group (.un o (.num v))

/-- pico_minify.py:468-481: operators replaced by their equals. -/
def canonOp (L : Lang) (v37 : Bool) : Op → Op
  | .bangEq => .tildeEq
  | .caret2 => if v37 then .tilde else .caret2
  | .slash2 => if L == .picotron then .bslash else .slash2
  | o => o

mutual
/-- pico_minify.py:434-501: `fixup_tokens` over an expression: the numbers are reformatted (`fmt`
is told whether a sign is allowed) and operators are replaced by their equals. -/
def fx (L : Lang) (v37 : Bool) (fmt : Bool → Int → NumOut) (c : Ctx) : Ex → Ex
  | .num v => (fmt (canUnary c) v).ex
  | .group e => .group (fx L v37 fmt .single e)
  | .un o e => .un o (fx L v37 fmt .unArg e)
  | .bin o l r => .bin (canonOp L v37 o) (fx L v37 fmt (.left o) l) (fx L v37 fmt (.right o) r)
  | .member b n => .member (fx L v37 fmt .base b) n
  | .index b k => .index (fx L v37 fmt .base b) (fx L v37 fmt .single k)
  | .call b sh args => .call (fx L v37 fmt .base b) sh (fxArgs L v37 fmt args)
  | .method b n sh args => .method (fx L v37 fmt .base b) n sh (fxArgs L v37 fmt args)
  | .table its => .table (fxItems L v37 fmt its)
  | e => e
def fxArgs (L : Lang) (v37 : Bool) (fmt : Bool → Int → NumOut) : Exs → Exs
  | .nil => .nil
  | .cons e es => .cons (fx L v37 fmt .single e) (fxArgs L v37 fmt es)
def fxItems (L : Lang) (v37 : Bool) (fmt : Bool → Int → NumOut) : Its → Its
  | .nil => .nil
  | .pos e its => .pos (fx L v37 fmt .single e) (fxItems L v37 fmt its)
  | .named n e its => .named n (fx L v37 fmt .single e) (fxItems L v37 fmt its)
  | .keyed k e its => .keyed (fx L v37 fmt .single k) (fx L v37 fmt .single e)
      (fxItems L v37 fmt its)
end

/-- The expression after paren removal and token fixups. -/
def minify (L : Lang) (v37 f : Bool) (fmt : Bool → Int → NumOut) (c : Ctx) (e : Ex) : Ex :=
  fx L v37 fmt c (mn f c e)

end Verif.Paren
