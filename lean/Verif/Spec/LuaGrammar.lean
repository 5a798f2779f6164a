import Verif.Ast
/-
The grammar of Lua programs (Lua 5.2-5.4 reference manual, section 9, with the operator table of section 3.4.8) with the additions of
PICO-8 and Picotron (more operators, compound assignment, `if`/`while` shorthands, `?`), as a definite clause grammar: `X i r t` says that the
tokens `i` start with an `X` whose tree is `t`, and that the tokens `r` follow it.

Where the grammar of Lua is ambiguous, the longest reading is meant; the premises `Done`, `DoneList`, ... say so.

Deviations from the manual, all of which widen it: targets of assignments may be any expressions, `return` need not be the last
statement, `...` may be any parameter, `elseif` has a shorthand too.  The other way round, a `return` without values cannot be the last token
of the program (see `C61_return_counterexample`).
-/
namespace Verif.LuaGrammar
open Syntax (T K Nm nm Ex Exs Its St If Tail Block Param FnName)
open Paren (Op Lang)

/-- Left associative binary operators, from the weakest on; level 8 is `..`, level 11 unary operators, level 12 `^`. -/
def leftOps : Nat → List Op
  | 1 => [.or_]
  | 2 => [.and_]
  | 3 => [.lt, .gt, .le, .ge, .tildeEq, .eqEq, .bangEq]
  | 4 => [.bar]
  | 5 => [.tilde, .caret2]
  | 6 => [.amp]
  | 7 => [.shl, .shr, .lshr, .rotr, .rotl]
  | 9 => [.plus, .minus]
  | 10 => [.star, .slash, .slash2, .bslash, .percent]
  | _ => []

/-- Operators that only one of the languages has. -/
def inLang : Lang → Op → Bool
  | .pico8, .slash2 => false
  | .picotron, .lshr | .picotron, .rotr | .picotron, .rotl => false
  | _, _ => true

def unaryOps : Lang → List Op
  | .pico8 => [.not_, .hash, .minus, .tilde, .at_, .percent, .dollar]
  | .picotron => [.not_, .hash, .minus, .tilde, .at_, .percent, .dollar, .star]

/-- Is it a binary operator? -/
def Binary (L : Lang) (o : Op) : Prop := inLang L o = true ∧ (o = .concat ∨ o = .caret ∨ ∃ k, o ∈ leftOps k)

/-- Tokens that go on a name, call, member or parenthesised expression. -/
def Suffix (k : K) : Prop := k = .dot ∨ k = .lb ∨ k = .lp ∨ k = .lc ∨ k = .colon ∨ ∃ s, k = .str s

/-- Does the expression end with a name, call, member or parenthesised expression? -/
def openEnd : Ex → Bool
  | .var _ | .group _ | .member _ _ | .index _ _ | .call _ _ _ | .method _ _ _ _ => true
  | .un _ e => openEnd e
  | .bin _ _ r => openEnd r
  | _ => false

/-- The next token, if any, is of this kind. -/
def Next (P : K → Prop) (r : List T) : Prop := ∃ t r', r = t :: r' ∧ P t.k

/-- The expression does not go on with the next token. -/
def Done (L : Lang) (e : Ex) (r : List T) : Prop :=
  ¬ Next (fun k => ∃ o, k = .op o ∧ Binary L o) r ∧ (openEnd e = true → ¬ Next Suffix r)

/-- The list of expressions does not go on with the next token. -/
def DoneList (L : Lang) : Exs → List T → Prop
  | .nil, _ => True
  | .cons e .nil, r => Done L e r ∧ ¬ Next (· = .comma) r
  | .cons _ es, r => DoneList L es r

/-- The next token is on the line. -/
def OnLine (l : Nat) (r : List T) : Prop := ∃ t r', r = t :: r' ∧ t.line = l

/-- The next token is on a later line than the short block, if this is one; the end of the program is on a later line. -/
def Later (v : Option Nat) (r : List T) : Prop := ∃ l, v = some l ∧ ∀ t r', r = t :: r' → l < t.line

/-- Keywords that end blocks. -/
def Closes (k : K) : Prop := k = .kEnd ∨ k = .kElse ∨ k = .kElseif ∨ k = .kUntil

/-- The tokens up to `r` end with a closing parenthesis on the line. -/
def ClosedOn (l : Nat) (i r : List T) : Prop := ∃ p, i = p ++ ⟨.rp, l⟩ :: r

/-- `then`, in PICO-8 also `do`. -/
def Then (L : Lang) (k : K) : Prop := k = .kThen ∨ (L = .pico8 ∧ k = .kDo)

/-- Names separated by commas. -/
inductive Names : List T → List T → List Nm → Prop
  | one {x l r} : Names (⟨.id x, l⟩ :: r) r [x]
  | cons {x l l' i r xs} : Names i r xs → Names (⟨.id x, l⟩ :: ⟨.comma, l'⟩ :: i) r (x :: xs)

/-- Attributes of local variables, in Picotron. -/
inductive Attr (L : Lang) : List T → List T → Option Nm → Prop
  | none {r} : (L = .picotron → ¬ Next (· = .op .lt) r) → Attr L r r none
  | some {a l1 l2 l3 r} : L = .picotron → a = nm "const" ∨ a = nm "close" →
      Attr L (⟨.op .lt, l1⟩ :: ⟨.id a, l2⟩ :: ⟨.op .gt, l3⟩ :: r) r (some a)

inductive Locals (L : Lang) : List T → List T → List (Nm × Option Nm) → Prop
  | one {x l i r a} : Attr L i r a → ¬ Next (· = .comma) r → Locals L (⟨.id x, l⟩ :: i) r [(x, a)]
  | cons {x l i m r a l' xs} : Attr L i (⟨.comma, l'⟩ :: m) a → Locals L m r xs → Locals L (⟨.id x, l⟩ :: i) r ((x, a) :: xs)

/-- One parameter. -/
inductive Par : List T → List T → Param → Prop
  | dots {l r} : Par (⟨.dots, l⟩ :: r) r none
  | name {x l r} : Par (⟨.id x, l⟩ :: r) r (some x)

/-- Parameters separated by commas, and the closing parenthesis. -/
inductive Pars : List T → List T → List Param → Prop
  | one {i l r p} : Par i (⟨.rp, l⟩ :: r) p → Pars i r [p]
  | cons {i l m r p ps} : Par i (⟨.comma, l⟩ :: m) p → Pars m r ps → Pars i r (p :: ps)

inductive Params : List T → List T → List Param → Prop
  | nil {l r} : Params (⟨.rp, l⟩ :: r) r []
  | some {i r ps} : Pars i r ps → Params i r ps

inductive Keys : List T → List T → List Nm → Prop
  | nil {r} : ¬ Next (· = .dot) r → Keys r r []
  | cons {l x l' i r xs} : Keys i r xs → Keys (⟨.dot, l⟩ :: ⟨.id x, l'⟩ :: i) r (x :: xs)

inductive Name : List T → List T → FnName → Prop
  | func {x l i r ks} : Keys i r ks → ¬ Next (· = .colon) r → Name (⟨.id x, l⟩ :: i) r ⟨x, ks, none⟩
  | method {x l i l' m l'' r ks} : Keys i (⟨.colon, l'⟩ :: ⟨.id m, l''⟩ :: r) ks → Name (⟨.id x, l⟩ :: i) r ⟨x, ks, some m⟩

mutual
/-- Expressions of a level. -/
inductive E (L : Lang) : Nat → List T → List T → Ex → Prop
  | up {k i r e} : E L (k + 1) i r e → E L k i r e
  | left {k o l i m r e f} : o ∈ leftOps k → inLang L o = true → E L k i (⟨.op o, l⟩ :: m) e → E L (k + 1) m r f → E L k i r (.bin o e f)
  | concat {l i m r e f} : E L 9 i (⟨.op .concat, l⟩ :: m) e → E L 8 m r f → E L 8 i r (.bin .concat e f)
  | un {o l m r e} : o ∈ unaryOps L → E L 11 m r e → E L 11 (⟨.op o, l⟩ :: m) r (.un o e)
  | pow {l i m r e f} : E L 13 i (⟨.op .caret, l⟩ :: m) e → E L 11 m r f → E L 12 i r (.bin .caret e f)
  | cst {s l r} : E L 13 (⟨.cst s, l⟩ :: r) r (.cst s)
  | num {s l r} : E L 13 (⟨.num s, l⟩ :: r) r (.num s)
  | str {s l r} : E L 13 (⟨.str s, l⟩ :: r) r (.str s)
  | dots {l r} : E L 13 (⟨.dots, l⟩ :: r) r .vararg
  | table {l m r t} : Items L m r t → E L 13 (⟨.lc, l⟩ :: m) r (.table t)
  | func {l m r ps b} : Body L m r ps b → E L 13 (⟨.kFunction, l⟩ :: m) r (.func ps b)
  | pre {i r e} : P L i r e → E L 13 i r e

/-- Prefix expressions: what can be called or indexed. -/
inductive P (L : Lang) : List T → List T → Ex → Prop
  | var {x l r} : P L (⟨.id x, l⟩ :: r) r (.var x)
  | group {l m l' r e} : E L 1 m (⟨.rp, l'⟩ :: r) e → P L (⟨.lp, l⟩ :: m) r (.group e)
  | member {i l x l' r b} : P L i (⟨.dot, l⟩ :: ⟨.id x, l'⟩ :: r) b → P L i r (.member b x)
  | index {i l m l' r b e} : P L i (⟨.lb, l⟩ :: m) b → E L 1 m (⟨.rb, l'⟩ :: r) e → P L i r (.index b e)
  | call {i l m r b a} : P L i (⟨.lp, l⟩ :: m) b → Args L m r a → P L i r (.call b false a)
  | callBare {i m r b e} : P L i m b → Bare L m r e → P L i r (.call b true (.cons e .nil))
  | method {i l x l' l'' m r b a} : P L i (⟨.colon, l⟩ :: ⟨.id x, l'⟩ :: ⟨.lp, l''⟩ :: m) b → Args L m r a → P L i r (.method b x false a)
  | methodBare {i l x l' m r b e} : P L i (⟨.colon, l⟩ :: ⟨.id x, l'⟩ :: m) b → Bare L m r e → P L i r (.method b x true (.cons e .nil))

/-- An argument without parentheses. -/
inductive Bare (L : Lang) : List T → List T → Ex → Prop
  | str {s l r} : Bare L (⟨.str s, l⟩ :: r) r (.str s)
  | table {l m r t} : Items L m r t → Bare L (⟨.lc, l⟩ :: m) r (.table t)

/-- Arguments and the closing parenthesis. -/
inductive Args (L : Lang) : List T → List T → Exs → Prop
  | nil {l r} : Args L (⟨.rp, l⟩ :: r) r .nil
  | some {i l r es} : Es L i (⟨.rp, l⟩ :: r) es → Args L i r es

/-- Expressions separated by commas. -/
inductive Es (L : Lang) : List T → List T → Exs → Prop
  | one {i r e} : E L 1 i r e → Es L i r (.cons e .nil)
  | cons {i l m r e es} : E L 1 i (⟨.comma, l⟩ :: m) e → Es L m r es → Es L i r (.cons e es)

/-- Table items and the closing brace. -/
inductive Items (L : Lang) : List T → List T → Its → Prop
  | nil {l r} : Items L (⟨.rc, l⟩ :: r) r .nil
  | pos {i m r e t} : E L 1 i m e → After L m r t → Items L i r (.pos e t)
  | named {x l l' i m r e t} : E L 1 i m e → After L m r t → Items L (⟨.id x, l⟩ :: ⟨.eq, l'⟩ :: i) r (.named x e t)
  | keyed {l j l' l'' i m r k e t} : E L 1 j (⟨.rb, l'⟩ :: ⟨.eq, l''⟩ :: i) k → E L 1 i m e → After L m r t →
      Items L (⟨.lb, l⟩ :: j) r (.keyed k e t)

/-- What follows a table item: the closing brace, or a separator and perhaps more items. -/
inductive After (L : Lang) : List T → List T → Its → Prop
  | close {l r} : After L (⟨.rc, l⟩ :: r) r .nil
  | semi {l m r t} : Items L m r t → After L (⟨.semi, l⟩ :: m) r t
  | comma {l m r t} : Items L m r t → After L (⟨.comma, l⟩ :: m) r t

/-- Parameters and body of a function. -/
inductive Body (L : Lang) : List T → List T → List Param → Block → Prop
  | mk {l i m l' r ps b} : Params i m ps → B L none m (⟨.kEnd, l'⟩ :: r) b → Body L (⟨.lp, l⟩ :: i) r ps b

/-- Blocks; with a line, those of the shorthands, in which statements start on that line. -/
inductive B (L : Lang) : Option Nat → List T → List T → Block → Prop
  | nil {v r} : (r = [] ∨ Later v r ∨ Next Closes r) → B L v r r .nil
  | semi {v l m r b} : ¬ Later v (⟨.semi, l⟩ :: m) → B L v m r b → B L v (⟨.semi, l⟩ :: m) r (.semi b)
  | cons {v i m r s b} : ¬ Later v i → S L v i m s → B L v m r b → B L v i r (.cons s b)

/-- Statements. -/
inductive S (L : Lang) : Option Nat → List T → List T → St → Prop
  | do_ {v l m l' r b} : B L none m (⟨.kEnd, l'⟩ :: r) b → S L v (⟨.kDo, l⟩ :: m) r (.do_ b)
  | if_ {v l m r i} : I L m r i → S L v (⟨.kIf, l⟩ :: m) r (.if_ i)
  | while_ {v l m l' n l'' r c b} : E L 1 m (⟨.kDo, l'⟩ :: n) c → B L none n (⟨.kEnd, l''⟩ :: r) b →
      S L v (⟨.kWhile, l⟩ :: m) r (.while_ c b)
  | whileShort {v l m n l' r c b d} : E L 1 m n c → Done L c n → ¬ Next (· = .kDo) n → ClosedOn l' m n → B L (some l') n r b →
      (d = true ↔ OnLine l' r) → S L v (⟨.kWhile, l⟩ :: m) r (.whileShort c b d)
  | repeat_ {v l m l' n r b c} : B L none m (⟨.kUntil, l'⟩ :: n) b → E L 1 n r c → Done L c r → S L v (⟨.kRepeat, l⟩ :: m) r (.repeat_ b c)
  | fornum {v l x l1 l2 m l3 n l4 q l5 r a b d} : E L 1 m (⟨.comma, l3⟩ :: n) a → E L 1 n (⟨.kDo, l4⟩ :: q) b →
      B L none q (⟨.kEnd, l5⟩ :: r) d → S L v (⟨.kFor, l⟩ :: ⟨.id x, l1⟩ :: ⟨.eq, l2⟩ :: m) r (.fornum x a b .nil d)
  | forstep {v l x l1 l2 m l3 n l4 p l5 q l6 r a b c d} : E L 1 m (⟨.comma, l3⟩ :: n) a → E L 1 n (⟨.comma, l4⟩ :: p) b →
      E L 1 p (⟨.kDo, l5⟩ :: q) c → B L none q (⟨.kEnd, l6⟩ :: r) d →
      S L v (⟨.kFor, l⟩ :: ⟨.id x, l1⟩ :: ⟨.eq, l2⟩ :: m) r (.fornum x a b (.cons c .nil) d)
  | forin {v l i l1 m l2 q l3 r xs es d} : Names i (⟨.kIn, l1⟩ :: m) xs → Es L m (⟨.kDo, l2⟩ :: q) es → B L none q (⟨.kEnd, l3⟩ :: r) d →
      S L v (⟨.kFor, l⟩ :: i) r (.forin xs es d)
  | break_ {v l r} : S L v (⟨.kBreak, l⟩ :: r) r .break_
  | returnNone {v l r} : (Next Closes r ∨ Next (· = .semi) r ∨ Later v r) → S L v (⟨.kReturn, l⟩ :: r) r (.return_ .nil)
  | return_ {v l m r es} : ¬ Later v m → Es L m r es → DoneList L es r → S L v (⟨.kReturn, l⟩ :: m) r (.return_ es)
  | local_ {v l m r xs} : Locals L m r xs → ¬ Next (· = .eq) r → S L v (⟨.kLocal, l⟩ :: m) r (.local_ xs .nil)
  | localAssign {v l m l' n r xs es} : Locals L m (⟨.eq, l'⟩ :: n) xs → Es L n r es → DoneList L es r →
      S L v (⟨.kLocal, l⟩ :: m) r (.local_ xs es)
  | localfn {v l l' x l'' m r ps b} : Body L m r ps b → S L v (⟨.kLocal, l⟩ :: ⟨.kFunction, l'⟩ :: ⟨.id x, l''⟩ :: m) r (.localfn x ps b)
  | goto_ {v l x l' r} : S L v (⟨.kGoto, l⟩ :: ⟨.id x, l'⟩ :: r) r (.goto_ x)
  | label {v l x l' l'' r} : S L v (⟨.dcolon, l⟩ :: ⟨.id x, l'⟩ :: ⟨.dcolon, l''⟩ :: r) r (.label x)
  | func {v l i m r f ps b} : Name i m f → Body L m r ps b → S L v (⟨.kFunction, l⟩ :: i) r (.func f ps b)
  | assign {v i l m r ts es} : ¬ Next (· = .kFunction) i → Es L i (⟨.eq, l⟩ :: m) ts → Es L m r es → DoneList L es r →
      S L v i r (.assign ts es)
  | opassign {v i o l m r t e} : ¬ Next (· = .kFunction) i → E L 1 i (⟨.opeq o, l⟩ :: m) t → E L 1 m r e → Done L e r →
      S L v i r (.opassign o t e)
  | call {v i r b sh a} : P L i r (.call b sh a) → Done L (.call b sh a) r → ¬ Next (fun k => k = .comma ∨ k = .eq ∨ ∃ o, k = .opeq o) r →
      S L v i r (.call (.call b sh a))
  | method {v i r b x sh a} : P L i r (.method b x sh a) → Done L (.method b x sh a) r →
      ¬ Next (fun k => k = .comma ∨ k = .eq ∨ ∃ o, k = .opeq o) r → S L v i r (.call (.method b x sh a))
  | print {v l m r es} : Es L m r es → ¬ Next (fun k => Suffix k ∨ (∃ o, k = .op o ∧ Binary L o) ∨ k = .comma ∨ k = .eq ∨ ∃ o, k = .opeq o) r →
      S L v (⟨.quest, l⟩ :: m) r (.print es)

/-- What follows `if` or `elseif`. -/
inductive I (L : Lang) : List T → List T → If → Prop
  | long {m k l n p r c b t} : E L 1 m (⟨k, l⟩ :: n) c → Then L k → B L none n p b → Tl L p r t → I L m r (.long c b t)
  | short {m n l r c b d} : E L 1 m n c → Done L c n → ¬ Next (Then L) n → ClosedOn l m n → B L (some l) n r b →
      ¬ (OnLine l r ∧ Next (· = .kElse) r) → (d = true ↔ OnLine l r) → I L m r (.short c b d)
  | shortElse {m n l p r c b e d} : E L 1 m n c → Done L c n → ¬ Next (Then L) n → ClosedOn l m n → B L (some l) n (⟨.kElse, l⟩ :: p) b →
      B L (some l) p r e → (d = true ↔ OnLine l r) → I L m r (.shortElse c b e d)

/-- What follows the block after `then`. -/
inductive Tl (L : Lang) : List T → List T → Tail → Prop
  | end_ {l r} : Tl L (⟨.kEnd, l⟩ :: r) r .end_
  | else_ {l m l' r b} : B L none m (⟨.kEnd, l'⟩ :: r) b → Tl L (⟨.kElse, l⟩ :: m) r (.else_ b)
  | elseif_ {l m r i} : I L m r i → Tl L (⟨.kElseif, l⟩ :: m) r (.elseif_ i)
end

/-- Whole programs. -/
def Program (L : Lang) (i : List T) (b : Block) : Prop := B L none i [] b

end Verif.LuaGrammar
