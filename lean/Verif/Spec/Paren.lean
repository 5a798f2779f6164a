import Verif.Paren
/-!
What parentheses mean, independent of how the parser and the minifier work: the tree without its
parentheses, and the values of an expression for an arbitrary interpretation of its operators.
-/
namespace Verif.Paren

/-- Tokens that extend a prefix expression. -/
def isSuffix : Tok → Bool
  | .dot | .lb | .lp | .lc | .str _ | .colon => true
  | _ => false

/-- What follows cannot be read as a continuation of an expression: it is the end of the text, or
starts neither with an operator nor with a token that extends a prefix expression. -/
def EndsExpr (rest : List Tok) : Prop :=
  ∀ t r, rest = t :: r → isSuffix t = false ∧ ∀ o, t ≠ .op o

mutual
/-- The tree with all its parentheses dropped. -/
def bare : Ex → Ex
  | .group e => bare e
  | .un o e => .un o (bare e)
  | .bin o l r => .bin o (bare l) (bare r)
  | .member b n => .member (bare b) n
  | .index b k => .index (bare b) (bare k)
  | .call b _ args => .call (bare b) false (bareAll args)
  | .method b n _ args => .method (bare b) n false (bareAll args)
  | .table its => .table (bareItems its)
  | e => e
def bareAll : Exs → Exs
  | .nil => .nil
  | .cons e es => .cons (bare e) (bareAll es)
def bareItems : Its → Its
  | .nil => .nil
  | .pos e its => .pos (bare e) (bareItems its)
  | .named n e its => .named n (bare e) (bareItems its)
  | .keyed k e its => .keyed (bare k) (bare e) (bareItems its)
end

/-- Key of an evaluated table item. -/
inductive TKey (V : Type) where
  | pos | named (n : Nat) | keyed (v : V)

/-- An interpretation of the primitive operations.  `M` carries whatever effects evaluation has
(state, errors, non-termination); binary operators receive their operands unevaluated, so that
`and` and `or` may skip one. -/
structure Interp (M : Type → Type) (V : Type) where
  nil : V
  cst : Nat → V
  num : Int → V
  str : Nat → V
  fn : Nat → M V
  var : Nat → M V
  varargs : M (List V)
  un : Op → V → M V
  bin : Op → M V → M V → M V
  member : V → Nat → M V
  index : V → V → M V
  call : V → List V → M (List V)
  method : V → Nat → List V → M (List V)
  table : List (TKey V × V) → M V

section
variable {M : Type → Type} [Monad M] {V : Type}

/-- Adjusting a computation of several values to one value. -/
def first (I : Interp M V) (m : M (List V)) : M V := (fun vs => vs.headD I.nil) <$> m

/-- A computation of one value as one of several. -/
def one (m : M V) : M (List V) := (fun v => [v]) <$> m

mutual
/-- The values of an expression.  Only a call, a method call and `...` can give other than one
value; parentheses cut the values down to one. -/
def den (I : Interp M V) : Ex → M (List V)
  | .var n => one (I.var n)
  | .cst n => pure [I.cst n]
  | .num v => pure [I.num v]
  | .str n => pure [I.str n]
  | .fn n => one (I.fn n)
  | .vararg => I.varargs
  | .group e => one (first I (den I e))
  | .un o e => one (first I (den I e) >>= I.un o)
  | .bin o l r => one (I.bin o (first I (den I l)) (first I (den I r)))
  | .member b n => one (first I (den I b) >>= fun v => I.member v n)
  | .index b k => one (first I (den I b) >>= fun v => first I (den I k) >>= I.index v)
  | .call b _ args => first I (den I b) >>= fun v => denArgs I args >>= I.call v
  | .method b n _ args => first I (den I b) >>= fun v => denArgs I args >>= I.method v n
  | .table its => one (denItems I its >>= I.table)
/-- The values of an argument list: the last argument contributes all its values. -/
def denArgs (I : Interp M V) : Exs → M (List V)
  | .nil => pure []
  | .cons e .nil => den I e
  | .cons e es => first I (den I e) >>= fun v => (v :: ·) <$> denArgs I es
/-- The contents of a table: a positional last item contributes all its values. -/
def denItems (I : Interp M V) : Its → M (List (TKey V × V))
  | .nil => pure []
  | .pos e .nil => (fun vs => vs.map fun v => (.pos, v)) <$> den I e
  | .pos e its => first I (den I e) >>= fun v => ((.pos, v) :: ·) <$> denItems I its
  | .named n e its => first I (den I e) >>= fun v => ((.named n, v) :: ·) <$> denItems I its
  | .keyed k e its => first I (den I k) >>= fun kv => first I (den I e) >>= fun v =>
      ((.keyed kv, v) :: ·) <$> denItems I its
end
end

/-- A number formatter is right for an interpretation: a plain literal has the value, a sign is used
only where one is allowed (or in parentheses) and gives the value when applied. -/
structure FmtOk {M : Type → Type} [Monad M] {V : Type} (L : Lang) (I : Interp M V)
    (fmt : Bool → Int → NumOut) : Prop where
  plain : ∀ b v w, fmt b v = .plain w → I.num w = I.num v
  signed : ∀ b v o w, fmt b v = .signed o w → b = true ∧ isUn L o = true ∧
    I.un o (I.num w) = pure (I.num v)
  parens : ∀ b v o w, fmt b v = .parens o w → isUn L o = true ∧
    I.un o (I.num w) = pure (I.num v)

/-- `!=` is `~=`; from version 37 on `^^` is `~`; in Picotron `//` is `\`. -/
structure OpsOk {M : Type → Type} {V : Type} (L : Lang) (v37 : Bool) (I : Interp M V) : Prop where
  ne : I.bin .bangEq = I.bin .tildeEq
  xor : v37 = true → I.bin .caret2 = I.bin .tilde
  idiv : L = .picotron → I.bin .slash2 = I.bin .bslash

end Verif.Paren
