import Verif.Ast
/-
Model of the parser (pico_parse.py 300-1075), without name resolution, which does not influence the tree.

Python's recursion is bounded by fuel; statements about it hold for all sufficiently large fuel.  Errors are `none`: also those after which
the source goes on, because every caller rejects a program with errors.

Simplification: the print shorthand `?` is read at the start of a statement only, where nothing can continue the call that it
stands for (the source also takes it inside of expressions).
-/
namespace Verif.Syntax
open Paren (Op Lang isUn isBin prec unPrec accepts)

/-- `peek()` (pico_parse.py 332-334): the kind of the next token. -/
def hd (ts : List T) : Option K := ts.head?.map T.k

/-- `require` (360-363). -/
def req (k : K) : List T → Option (List T)
  | [] => none
  | t :: r => if t.k = k then some r else none

/-- `require_ident` (365-372). -/
def ident : List T → Option (Nm × List T)
  | ⟨.id x, _⟩ :: r => some (x, r)
  | _ => none

/-- `k_prefix_types` (299). -/
def isPre : Ex → Bool
  | .var _ | .member _ _ | .index _ _ | .call _ _ _ | .method _ _ _ _ | .group _ => true
  | _ => false

/-- `k_block_ends` (297). -/
def isBlockEnd : Option K → Bool
  | some .kEnd | some .kElse | some .kElseif | some .kUntil => true
  | _ => false

/-- `e(vline) and peek().vline > vline` (828, 967); the end of the input is on the last of all lines. -/
def later : Option Nat → List T → Bool
  | none, _ => false
  | some _, [] => true
  | some v, t :: _ => decide (v < t.line)

/-- `peek().vline == vline` (687-688, 729). -/
def sameLine (v : Nat) : List T → Bool
  | [] => false
  | t :: _ => decide (t.line = v)

/-- `peek(-1)` when parsing went from the first tokens to the second ones. -/
def lastOf (toks rest : List T) : Option T := (toks.take (toks.length - rest.length)).getLast?

/-- `peek().value == "{" or peek().type == TokenType.string` (659, 666): a call argument without parentheses. -/
def bareStart : Option K → Bool
  | some .lc | some (.str _) => true
  | _ => false

/-- `first.type == NodeType.call` (913). -/
def isCall : Ex → Bool
  | .call _ _ _ | .method _ _ _ _ => true
  | _ => false

/-- Whether the token goes on an expression that is a call, or makes it the target of an assignment (646-677, 909-912). -/
def continues (L : Lang) : Option K → Bool
  | some .dot | some .lb | some .lp | some .lc | some (.str _) | some .colon | some .comma | some .eq | some (.opeq _) => true
  | some (.op o) => isBin L o
  | _ => false

/-- `parse_list(tokens, parse_var)` (679-685). -/
def names : List T → Option (List Nm × List T)
  | ⟨.id x, _⟩ :: ⟨.comma, _⟩ :: r => (names r).map fun p => (x :: p.1, p.2)
  | ⟨.id x, _⟩ :: r => some ([x], r)
  | _ => none

/-- `parse_var(with_attr=True)` (434-439): the attribute behind a name. -/
def attr (L : Lang) : List T → Option (Option Nm × List T)
  | ⟨.op .lt, l⟩ :: r =>
    if L = .picotron then
      match r with
      | ⟨.id a, _⟩ :: ⟨.op .gt, _⟩ :: r' => if a = nm "const" ∨ a = nm "close" then some (some a, r') else none
      | _ => none
    else some (none, ⟨.op .lt, l⟩ :: r)
  | r => some (none, r)

/-- `parse_list` of names with attributes (850). -/
def locals (L : Lang) : Nat → List T → Option (List (Nm × Option Nm) × List T)
  | 0, _ => none
  | n + 1, toks =>
    (ident toks).bind fun p => (attr L p.2).bind fun q =>
      if hd q.2 = some .comma then (locals L n q.2.tail).map fun s => ((p.1, q.1) :: s.1, s.2)
      else some ([(p.1, q.1)], q.2)

/-- One parameter (508-512). -/
def paramOf : K → Option Param
  | .dots => some none
  | .id x => some (some x)
  | _ => none

/-- The loop over parameters (507-516). -/
def params1 : List T → Option (List Param × List T)
  | t :: r =>
    match paramOf t.k with
    | none => none
    | some p =>
      match r with
      | [] => none
      | s :: r' =>
        if s.k = .rp then some ([p], r')
        else if s.k = .comma then (params1 r').map fun q => (p :: q.1, q.2)
        else none
  | [] => none

/-- The parameters after the opening parenthesis (505-516). -/
def params (toks : List T) : Option (List Param × List T) :=
  if hd toks = some .rp then some ([], toks.tail) else params1 toks

/-- The keys of a function target (486-490). -/
def fnKeys : List T → Option (List Nm × List T)
  | ⟨.dot, _⟩ :: ⟨.id x, _⟩ :: r => (fnKeys r).map fun p => (x :: p.1, p.2)
  | ⟨.dot, _⟩ :: _ => none
  | r => some ([], r)

/-- The target of a function statement (482-501). -/
def fnName (toks : List T) : Option (FnName × List T) :=
  (ident toks).bind fun p => (fnKeys p.2).bind fun q =>
    if hd q.2 = some .colon then (ident q.2.tail).map fun m => (⟨p.1, q.1, some m.1⟩, m.2)
    else some (⟨p.1, q.1, none⟩, q.2)

mutual
/-- `parse_core_expr` (614-639). -/
def core (L : Lang) : Nat → List T → Option (Ex × List T)
  | 0, _ => none
  | _ + 1, [] => none
  | n + 1, t :: r =>
    match t.k with
    | .cst c => some (.cst c, r)
    | .num s => some (.num s, r)
    | .str s => some (.str s, r)
    | .lc => (items L n r).map fun p => (.table p.1, p.2)
    | .lp => (expr L n none r).bind fun p => (req .rp p.2).map fun q => (.group p.1, q)
    | .op o => if isUn L o then (expr L n (some unPrec) r).map fun p => (.un o p.1, p.2) else none
    | .kFunction => (func L n r).map fun p => (.func p.1.1 p.1.2, p.2)
    | .dots => some (.vararg, r)
    | .id x => some (.var x, r)
    | _ => none

/-- `parse_expr` (644-645) up to its loop. -/
def expr (L : Lang) : Nat → Option Nat → List T → Option (Ex × List T)
  | 0, _, _ => none
  | n + 1, p, toks => (core L n toks).bind fun q => loop L n p q.1 q.2

/-- The loop of `parse_expr` (646-677). -/
def loop (L : Lang) : Nat → Option Nat → Ex → List T → Option (Ex × List T)
  | 0, _, _, _ => none
  | _ + 1, _, e, [] => some (e, [])
  | n + 1, p, e, t :: r =>
    match t.k with
    | .dot => if isPre e then (ident r).bind fun q => loop L n p (.member e q.1) q.2 else some (e, t :: r)
    | .lb =>
      if isPre e then (expr L n none r).bind fun q => (req .rb q.2).bind fun s => loop L n p (.index e q.1) s
      else some (e, t :: r)
    | .lp => if isPre e then (args L n r).bind fun q => loop L n p (.call e false q.1) q.2 else some (e, t :: r)
    | .lc => if isPre e then (core L n (t :: r)).bind fun q => loop L n p (.call e true (.cons q.1 .nil)) q.2 else some (e, t :: r)
    | .str _ => if isPre e then (core L n (t :: r)).bind fun q => loop L n p (.call e true (.cons q.1 .nil)) q.2 else some (e, t :: r)
    | .colon =>
      if isPre e then
        (ident r).bind fun q =>
          if bareStart (hd q.2) then (core L n q.2).bind fun s => loop L n p (.method e q.1 true (.cons s.1 .nil)) s.2
          else (req .lp q.2).bind fun s => (args L n s).bind fun u => loop L n p (.method e q.1 false u.1) u.2
      else some (e, t :: r)
    | .op o =>
      if isBin L o && accepts o p then (expr L n (some (prec o)) r).bind fun q => loop L n p (.bin o e q.1) q.2
      else some (e, t :: r)
    | _ => some (e, t :: r)

/-- `parse_call` (573-589) after its opening parenthesis. -/
def args (L : Lang) : Nat → List T → Option (Exs × List T)
  | 0, _ => none
  | n + 1, toks => if hd toks = some .rp then some (.nil, toks.tail) else (exprs L n toks).bind fun p => (req .rp p.2).map fun q => (p.1, q)

/-- `parse_list(tokens, parse_expr)` (679-685), also the loop of `parse_call` (580-587). -/
def exprs (L : Lang) : Nat → List T → Option (Exs × List T)
  | 0, _ => none
  | n + 1, toks => (expr L n none toks).bind fun p =>
    if hd p.2 = some .comma then (exprs L n p.2.tail).map fun q => (.cons p.1 q.1, q.2) else some (.cons p.1 .nil, p.2)

/-- `parse_table` (540-571) after its opening brace. -/
def items (L : Lang) : Nat → List T → Option (Its × List T)
  | 0, _ => none
  | n + 1, toks =>
    if hd toks = some .rc then some (.nil, toks.tail)
    else if hd toks = some .lb then
      (expr L n none toks.tail).bind fun p => (req .rb p.2).bind fun q => (req .eq q).bind fun s =>
        (expr L n none s).bind fun u => (itemSep L n u.2).map fun v => (.keyed p.1 u.1 v.1, v.2)
    else if hd toks.tail = some .eq then
      (ident toks).bind fun p => (expr L n none p.2.tail).bind fun u => (itemSep L n u.2).map fun v => (.named p.1 u.1 v.1, v.2)
    else (expr L n none toks).bind fun u => (itemSep L n u.2).map fun v => (.pos u.1 v.1, v.2)

/-- What follows a table item (564-569). -/
def itemSep (L : Lang) : Nat → List T → Option (Its × List T)
  | 0, _ => none
  | n + 1, toks =>
    if hd toks = some .rc then some (.nil, toks.tail)
    else if hd toks = some .semi ∨ hd toks = some .comma then items L n toks.tail
    else none

/-- `parse_function` (458-538) from its parameters on. -/
def func (L : Lang) : Nat → List T → Option ((List Param × Block) × List T)
  | 0, _ => none
  | n + 1, toks =>
    (req .lp toks).bind fun r => (params r).bind fun p => (block L n none p.2).bind fun b =>
      (req .kEnd b.2).map fun s => ((p.1, b.1), s)

/-- `parse_if` (698-741) after its keyword. -/
def ifs (L : Lang) : Nat → List T → Option (If × List T)
  | 0, _ => none
  | n + 1, toks =>
    (expr L n none toks).bind fun c =>
      if hd c.2 = some .kThen ∨ (L = .pico8 ∧ hd c.2 = some .kDo) then
        (block L n none c.2.tail).bind fun b => (tail L n b.2).map fun t => (.long c.1 b.1 t.1, t.2)
      else match lastOf toks c.2 with
        | none => none
        | some t =>
          if t.k = .rp then
            (block L n (some t.line) c.2).bind fun b =>
              if sameLine t.line b.2 ∧ hd b.2 = some .kElse then
                (block L n (some t.line) b.2.tail).map fun d => (.shortElse c.1 b.1 d.1 (sameLine t.line d.2), d.2)
              else some (.short c.1 b.1 (sameLine t.line b.2), b.2)
          else none

/-- What follows the first block of `if ... then` (709-723). -/
def tail (L : Lang) : Nat → List T → Option (Tail × List T)
  | 0, _ => none
  | n + 1, toks =>
    if hd toks = some .kElse then
      (block L n none toks.tail).bind fun b => (req .kEnd b.2).map fun q => (.else_ b.1, q)
    else if hd toks = some .kElseif then (ifs L n toks.tail).map fun i => (.elseif_ i.1, i.2)
    else (req .kEnd toks).map fun q => (.end_, q)

/-- `parse_stmt` (918-955) except for empty statements, with the statement parsers that it calls. -/
def stmt (L : Lang) : Nat → Option Nat → List T → Option (St × List T)
  | 0, _, _ => none
  | _ + 1, _, [] => none
  | n + 1, v, t :: r =>
    match t.k with
    -- parse_do (690-696)
    | .kDo => (block L n none r).bind fun b => (req .kEnd b.2).map fun q => (.do_ b.1, q)
    | .kIf => (ifs L n r).map fun i => (.if_ i.1, i.2)
    -- parse_while (743-761)
    | .kWhile =>
      (expr L n none r).bind fun c =>
        if hd c.2 = some .kDo then
          (block L n none c.2.tail).bind fun b => (req .kEnd b.2).map fun q => (.while_ c.1 b.1, q)
        else match lastOf r c.2 with
          | none => none
          | some t =>
            if t.k = .rp then (block L n (some t.line) c.2).map fun b => (.whileShort c.1 b.1 (sameLine t.line b.2), b.2)
            else none
    -- parse_repeat, parse_until (763-776)
    | .kRepeat =>
      (block L n none r).bind fun b => (req .kUntil b.2).bind fun q => (expr L n none q).map fun c => (.repeat_ b.1 c.1, c.2)
    -- parse_for (778-824)
    | .kFor =>
      if hd r.tail = some .eq then
        (ident r).bind fun x => (req .eq x.2).bind fun q => (expr L n none q).bind fun a => (req .comma a.2).bind fun q' =>
          (expr L n none q').bind fun b =>
            (if hd b.2 = some .comma then (expr L n none b.2.tail).map fun s => (Exs.cons s.1 .nil, s.2) else some (.nil, b.2)).bind fun s =>
              (req .kDo s.2).bind fun q => (block L n none q).bind fun d => (req .kEnd d.2).map fun q =>
                (.fornum x.1 a.1 b.1 s.1 d.1, q)
      else
        (names r).bind fun x => (req .kIn x.2).bind fun q => (exprs L n q).bind fun es => (req .kDo es.2).bind fun q =>
          (block L n none q).bind fun d => (req .kEnd d.2).map fun q => (.forin x.1 es.1 d.1, q)
    | .kBreak => some (.break_, r)
    -- parse_return (826-832)
    | .kReturn =>
      if isBlockEnd (hd r) || hd r = some .semi || later v r then some (.return_ .nil, r)
      else (exprs L n r).map fun es => (.return_ es.1, es.2)
    | .kLocal =>
      if hd r = some .kFunction then
        (ident r.tail).bind fun x => (func L n x.2).map fun f => (.localfn x.1 f.1.1 f.1.2, f.2)
      else
        -- parse_local (844-859)
        (locals L n r).bind fun x =>
          if hd x.2 = some .eq then (exprs L n x.2.tail).map fun es => (.local_ x.1 es.1, es.2) else some (.local_ x.1 .nil, x.2)
    | .kGoto => (ident r).map fun x => (.goto_ x.1, x.2)
    | .dcolon => (ident r).bind fun x => (req .dcolon x.2).map fun q => (.label x.1, q)
    | .kFunction => (fnName r).bind fun f => (func L n f.2).map fun p => (.func f.1 p.1.1 p.1.2, p.2)
    -- parse_print (834-842); nothing may continue the call, see above
    | .quest => (exprs L n r).bind fun es => if continues L (hd es.2) then none else some (.print es.1, es.2)
    | _ => misc L n (t :: r)

/-- `parse_misc_stmt` (905-916), `parse_assign` (866-879), `parse_opassign` (881-888). -/
def misc (L : Lang) : Nat → List T → Option (St × List T)
  | 0, _ => none
  | n + 1, toks =>
    (expr L n none toks).bind fun f =>
      match hd f.2 with
      | some .comma => (exprs L n f.2.tail).bind fun ts => (req .eq ts.2).bind fun q =>
          (exprs L n q).map fun es => (.assign (.cons f.1 ts.1) es.1, es.2)
      | some .eq => (exprs L n f.2.tail).map fun es => (.assign (.cons f.1 .nil) es.1, es.2)
      | some (.opeq o) => (expr L n none f.2.tail).map fun e => (.opassign o f.1 e.1, e.2)
      | _ => if isCall f.1 then some (.call f.1, f.2) else none

/-- `parse_block` (957-993). -/
def block (L : Lang) : Nat → Option Nat → List T → Option (Block × List T)
  | 0, _, _ => none
  | n + 1, v, toks =>
    if toks = [] ∨ later v toks ∨ isBlockEnd (hd toks) then some (.nil, toks)
    else if hd toks = some .semi then (block L n v toks.tail).map fun b => (.semi b.1, b.2)
    else (stmt L n v toks).bind fun s => (block L n v s.2).map fun b => (.cons s.1 b.1, b.2)
end

/-- `parse_root` (1004-1021): the whole program. -/
def root (L : Lang) (n : Nat) (toks : List T) : Option Block :=
  match block L n none toks with
  | some (b, []) => some b
  | _ => none

end Verif.Syntax
