import Verif.Unminify
import Verif.Fine
import Verif.Spec.Long
import Verif.Spec.LuaNorm
import Verif.MinifyNorm
/-
The tree of an unminified program: without empty statements and shorthands.  It means the same, and can be printed and parsed again.
-/
set_option linter.unusedVariables false
set_option linter.unusedSimpArgs false
set_option linter.unusedSectionVars false
namespace Verif.Unmin
open Syntax Mini LuaNorm
open Paren (Op Lang)

/-- Without its parentheses. -/
def unG : Ex → Ex
  | .group e => e
  | e => e

mutual
def lE : Ex → Ex
  | .func ps b => .func ps (lB b)
  | .group e => .group (lE e)
  | .un o e => .un o (lE e)
  | .bin o l r => .bin o (lE l) (lE r)
  | .member b x => .member (lE b) x
  | .index b k => .index (lE b) (lE k)
  | .call b t as => .call (lE b) t (lEs as)
  | .method b x t as => .method (lE b) x t (lEs as)
  | .table its => .table (lIts its)
  | .var x => .var x
  | .num s => .num s
  | .str s => .str s
  | .cst s => .cst s
  | .vararg => .vararg
def lEs : Exs → Exs
  | .nil => .nil
  | .cons e es => .cons (lE e) (lEs es)
def lIts : Its → Its
  | .nil => .nil
  | .pos e its => .pos (lE e) (lIts its)
  | .named x e its => .named x (lE e) (lIts its)
  | .keyed k e its => .keyed (lE k) (lE e) (lIts its)
def lS : St → St
  | .do_ b => .do_ (lB b)
  | .if_ i => .if_ (lI i)
  | .while_ c b => .while_ (lE c) (lB b)
  | .whileShort c b _ => .while_ (unG (lE c)) (lB b)
  | .repeat_ b c => .repeat_ (lB b) (lE c)
  | .fornum x a b s d => .fornum x (lE a) (lE b) (lEs s) (lB d)
  | .forin xs es d => .forin xs (lEs es) (lB d)
  | .return_ es => .return_ (lEs es)
  | .local_ xs es => .local_ xs (lEs es)
  | .localfn x ps b => .localfn x ps (lB b)
  | .func f ps b => .func f ps (lB b)
  | .assign ts es => .assign (lEs ts) (lEs es)
  | .opassign o t e => .opassign o (lE t) (lE e)
  | .call e => .call (lE e)
  | .print es => .print (lEs es)
  | .break_ => .break_
  | .goto_ x => .goto_ x
  | .label x => .label x
def lI : If → If
  | .long c b t => .long (lE c) (lB b) (lT t)
  | .short c b _ => .long (unG (lE c)) (lB b) .end_
  | .shortElse c b e _ => .long (unG (lE c)) (lB b) (.else_ (lB e))
def lT : Syntax.Tail → Syntax.Tail
  | .end_ => .end_
  | .else_ b => .else_ (lB b)
  | .elseif_ i => .elseif_ (lI i)
def lB : Block → Block
  | .nil => .nil
  | .semi b => lB b
  | .cons s b => .cons (lS s) (lB b)
end

/-! ### No shorthands -/

theorem lg_unG {e : Ex} (h : Long.lgE e = true) : Long.lgE (unG e) = true := by
  cases e <;> simp_all [unG, Long.lgE]

mutual
theorem lg_lE : ∀ (x : Ex), Long.lgE (lE x) = true
  | .var x => by
    simp_all [lE, lEs, lIts, lS, lI, lT, lB, Long.lgE, Long.lgEs, Long.lgIts, Long.lgS, Long.lgI, Long.lgT, Long.lgB, lg_unG]
  | .num x => by
    simp_all [lE, lEs, lIts, lS, lI, lT, lB, Long.lgE, Long.lgEs, Long.lgIts, Long.lgS, Long.lgI, Long.lgT, Long.lgB, lg_unG]
  | .str x => by
    simp_all [lE, lEs, lIts, lS, lI, lT, lB, Long.lgE, Long.lgEs, Long.lgIts, Long.lgS, Long.lgI, Long.lgT, Long.lgB, lg_unG]
  | .cst x => by
    simp_all [lE, lEs, lIts, lS, lI, lT, lB, Long.lgE, Long.lgEs, Long.lgIts, Long.lgS, Long.lgI, Long.lgT, Long.lgB, lg_unG]
  | .vararg => by
    simp_all [lE, lEs, lIts, lS, lI, lT, lB, Long.lgE, Long.lgEs, Long.lgIts, Long.lgS, Long.lgI, Long.lgT, Long.lgB, lg_unG]
  | .func ps b => by
    have ih1 := lg_lB b
    simp_all [lE, lEs, lIts, lS, lI, lT, lB, Long.lgE, Long.lgEs, Long.lgIts, Long.lgS, Long.lgI, Long.lgT, Long.lgB, lg_unG]
  | .group e => by
    have ih1 := lg_lE e
    simp_all [lE, lEs, lIts, lS, lI, lT, lB, Long.lgE, Long.lgEs, Long.lgIts, Long.lgS, Long.lgI, Long.lgT, Long.lgB, lg_unG]
  | .un o e => by
    have ih1 := lg_lE e
    simp_all [lE, lEs, lIts, lS, lI, lT, lB, Long.lgE, Long.lgEs, Long.lgIts, Long.lgS, Long.lgI, Long.lgT, Long.lgB, lg_unG]
  | .bin o l r => by
    have ih1 := lg_lE l
    have ih2 := lg_lE r
    simp_all [lE, lEs, lIts, lS, lI, lT, lB, Long.lgE, Long.lgEs, Long.lgIts, Long.lgS, Long.lgI, Long.lgT, Long.lgB, lg_unG]
  | .member b x => by
    have ih1 := lg_lE b
    simp_all [lE, lEs, lIts, lS, lI, lT, lB, Long.lgE, Long.lgEs, Long.lgIts, Long.lgS, Long.lgI, Long.lgT, Long.lgB, lg_unG]
  | .index b k => by
    have ih1 := lg_lE b
    have ih2 := lg_lE k
    simp_all [lE, lEs, lIts, lS, lI, lT, lB, Long.lgE, Long.lgEs, Long.lgIts, Long.lgS, Long.lgI, Long.lgT, Long.lgB, lg_unG]
  | .call b t as => by
    have ih1 := lg_lE b
    have ih2 := lg_lEs as
    simp_all [lE, lEs, lIts, lS, lI, lT, lB, Long.lgE, Long.lgEs, Long.lgIts, Long.lgS, Long.lgI, Long.lgT, Long.lgB, lg_unG]
  | .method b x t as => by
    have ih1 := lg_lE b
    have ih2 := lg_lEs as
    simp_all [lE, lEs, lIts, lS, lI, lT, lB, Long.lgE, Long.lgEs, Long.lgIts, Long.lgS, Long.lgI, Long.lgT, Long.lgB, lg_unG]
  | .table its => by
    have ih1 := lg_lIts its
    simp_all [lE, lEs, lIts, lS, lI, lT, lB, Long.lgE, Long.lgEs, Long.lgIts, Long.lgS, Long.lgI, Long.lgT, Long.lgB, lg_unG]
theorem lg_lEs : ∀ (x : Exs), Long.lgEs (lEs x) = true
  | .nil => by
    simp_all [lE, lEs, lIts, lS, lI, lT, lB, Long.lgE, Long.lgEs, Long.lgIts, Long.lgS, Long.lgI, Long.lgT, Long.lgB, lg_unG]
  | .cons e es => by
    have ih1 := lg_lE e
    have ih2 := lg_lEs es
    simp_all [lE, lEs, lIts, lS, lI, lT, lB, Long.lgE, Long.lgEs, Long.lgIts, Long.lgS, Long.lgI, Long.lgT, Long.lgB, lg_unG]
theorem lg_lIts : ∀ (x : Its), Long.lgIts (lIts x) = true
  | .nil => by
    simp_all [lE, lEs, lIts, lS, lI, lT, lB, Long.lgE, Long.lgEs, Long.lgIts, Long.lgS, Long.lgI, Long.lgT, Long.lgB, lg_unG]
  | .pos e its => by
    have ih1 := lg_lE e
    have ih2 := lg_lIts its
    simp_all [lE, lEs, lIts, lS, lI, lT, lB, Long.lgE, Long.lgEs, Long.lgIts, Long.lgS, Long.lgI, Long.lgT, Long.lgB, lg_unG]
  | .named x e its => by
    have ih1 := lg_lE e
    have ih2 := lg_lIts its
    simp_all [lE, lEs, lIts, lS, lI, lT, lB, Long.lgE, Long.lgEs, Long.lgIts, Long.lgS, Long.lgI, Long.lgT, Long.lgB, lg_unG]
  | .keyed k e its => by
    have ih1 := lg_lE k
    have ih2 := lg_lE e
    have ih3 := lg_lIts its
    simp_all [lE, lEs, lIts, lS, lI, lT, lB, Long.lgE, Long.lgEs, Long.lgIts, Long.lgS, Long.lgI, Long.lgT, Long.lgB, lg_unG]
theorem lg_lS : ∀ (x : St), Long.lgS (lS x) = true
  | .do_ b => by
    have ih1 := lg_lB b
    simp_all [lE, lEs, lIts, lS, lI, lT, lB, Long.lgE, Long.lgEs, Long.lgIts, Long.lgS, Long.lgI, Long.lgT, Long.lgB, lg_unG]
  | .if_ i => by
    have ih1 := lg_lI i
    simp_all [lE, lEs, lIts, lS, lI, lT, lB, Long.lgE, Long.lgEs, Long.lgIts, Long.lgS, Long.lgI, Long.lgT, Long.lgB, lg_unG]
  | .while_ e b => by
    have ih1 := lg_lE e
    have ih2 := lg_lB b
    simp_all [lE, lEs, lIts, lS, lI, lT, lB, Long.lgE, Long.lgEs, Long.lgIts, Long.lgS, Long.lgI, Long.lgT, Long.lgB, lg_unG]
  | .whileShort e b d => by
    have ih1 := lg_lE e
    have ih2 := lg_lB b
    simp_all [lE, lEs, lIts, lS, lI, lT, lB, Long.lgE, Long.lgEs, Long.lgIts, Long.lgS, Long.lgI, Long.lgT, Long.lgB, lg_unG]
  | .repeat_ b e => by
    have ih1 := lg_lB b
    have ih2 := lg_lE e
    simp_all [lE, lEs, lIts, lS, lI, lT, lB, Long.lgE, Long.lgEs, Long.lgIts, Long.lgS, Long.lgI, Long.lgT, Long.lgB, lg_unG]
  | .fornum x a b s d => by
    have ih1 := lg_lE a
    have ih2 := lg_lE b
    have ih3 := lg_lEs s
    have ih4 := lg_lB d
    simp_all [lE, lEs, lIts, lS, lI, lT, lB, Long.lgE, Long.lgEs, Long.lgIts, Long.lgS, Long.lgI, Long.lgT, Long.lgB, lg_unG]
  | .forin xs es d => by
    have ih1 := lg_lEs es
    have ih2 := lg_lB d
    simp_all [lE, lEs, lIts, lS, lI, lT, lB, Long.lgE, Long.lgEs, Long.lgIts, Long.lgS, Long.lgI, Long.lgT, Long.lgB, lg_unG]
  | .break_ => by
    simp_all [lE, lEs, lIts, lS, lI, lT, lB, Long.lgE, Long.lgEs, Long.lgIts, Long.lgS, Long.lgI, Long.lgT, Long.lgB, lg_unG]
  | .return_ es => by
    have ih1 := lg_lEs es
    simp_all [lE, lEs, lIts, lS, lI, lT, lB, Long.lgE, Long.lgEs, Long.lgIts, Long.lgS, Long.lgI, Long.lgT, Long.lgB, lg_unG]
  | .local_ xs es => by
    have ih1 := lg_lEs es
    simp_all [lE, lEs, lIts, lS, lI, lT, lB, Long.lgE, Long.lgEs, Long.lgIts, Long.lgS, Long.lgI, Long.lgT, Long.lgB, lg_unG]
  | .localfn x ps b => by
    have ih1 := lg_lB b
    simp_all [lE, lEs, lIts, lS, lI, lT, lB, Long.lgE, Long.lgEs, Long.lgIts, Long.lgS, Long.lgI, Long.lgT, Long.lgB, lg_unG]
  | .goto_ x => by
    simp_all [lE, lEs, lIts, lS, lI, lT, lB, Long.lgE, Long.lgEs, Long.lgIts, Long.lgS, Long.lgI, Long.lgT, Long.lgB, lg_unG]
  | .label x => by
    simp_all [lE, lEs, lIts, lS, lI, lT, lB, Long.lgE, Long.lgEs, Long.lgIts, Long.lgS, Long.lgI, Long.lgT, Long.lgB, lg_unG]
  | .func f ps b => by
    have ih1 := lg_lB b
    simp_all [lE, lEs, lIts, lS, lI, lT, lB, Long.lgE, Long.lgEs, Long.lgIts, Long.lgS, Long.lgI, Long.lgT, Long.lgB, lg_unG]
  | .assign ts es => by
    have ih1 := lg_lEs ts
    have ih2 := lg_lEs es
    simp_all [lE, lEs, lIts, lS, lI, lT, lB, Long.lgE, Long.lgEs, Long.lgIts, Long.lgS, Long.lgI, Long.lgT, Long.lgB, lg_unG]
  | .opassign o t e => by
    have ih1 := lg_lE t
    have ih2 := lg_lE e
    simp_all [lE, lEs, lIts, lS, lI, lT, lB, Long.lgE, Long.lgEs, Long.lgIts, Long.lgS, Long.lgI, Long.lgT, Long.lgB, lg_unG]
  | .call e => by
    have ih1 := lg_lE e
    simp_all [lE, lEs, lIts, lS, lI, lT, lB, Long.lgE, Long.lgEs, Long.lgIts, Long.lgS, Long.lgI, Long.lgT, Long.lgB, lg_unG]
  | .print es => by
    have ih1 := lg_lEs es
    simp_all [lE, lEs, lIts, lS, lI, lT, lB, Long.lgE, Long.lgEs, Long.lgIts, Long.lgS, Long.lgI, Long.lgT, Long.lgB, lg_unG]
theorem lg_lI : ∀ (x : If), Long.lgI (lI x) = true
  | .long e b t => by
    have ih1 := lg_lE e
    have ih2 := lg_lB b
    have ih3 := lg_lT t
    simp_all [lE, lEs, lIts, lS, lI, lT, lB, Long.lgE, Long.lgEs, Long.lgIts, Long.lgS, Long.lgI, Long.lgT, Long.lgB, lg_unG]
  | .short e b d => by
    have ih1 := lg_lE e
    have ih2 := lg_lB b
    simp_all [lE, lEs, lIts, lS, lI, lT, lB, Long.lgE, Long.lgEs, Long.lgIts, Long.lgS, Long.lgI, Long.lgT, Long.lgB, lg_unG]
  | .shortElse e b b' d => by
    have ih1 := lg_lE e
    have ih2 := lg_lB b
    have ih3 := lg_lB b'
    simp_all [lE, lEs, lIts, lS, lI, lT, lB, Long.lgE, Long.lgEs, Long.lgIts, Long.lgS, Long.lgI, Long.lgT, Long.lgB, lg_unG]
theorem lg_lT : ∀ (x : Syntax.Tail), Long.lgT (lT x) = true
  | .end_ => by
    simp_all [lE, lEs, lIts, lS, lI, lT, lB, Long.lgE, Long.lgEs, Long.lgIts, Long.lgS, Long.lgI, Long.lgT, Long.lgB, lg_unG]
  | .else_ b => by
    have ih1 := lg_lB b
    simp_all [lE, lEs, lIts, lS, lI, lT, lB, Long.lgE, Long.lgEs, Long.lgIts, Long.lgS, Long.lgI, Long.lgT, Long.lgB, lg_unG]
  | .elseif_ i => by
    have ih1 := lg_lI i
    simp_all [lE, lEs, lIts, lS, lI, lT, lB, Long.lgE, Long.lgEs, Long.lgIts, Long.lgS, Long.lgI, Long.lgT, Long.lgB, lg_unG]
theorem lg_lB : ∀ (x : Block), Long.lgB (lB x) = true
  | .nil => by
    simp_all [lE, lEs, lIts, lS, lI, lT, lB, Long.lgE, Long.lgEs, Long.lgIts, Long.lgS, Long.lgI, Long.lgT, Long.lgB, lg_unG]
  | .semi b => by
    have ih1 := lg_lB b
    simp_all [lE, lEs, lIts, lS, lI, lT, lB, Long.lgE, Long.lgEs, Long.lgIts, Long.lgS, Long.lgI, Long.lgT, Long.lgB, lg_unG]
  | .cons s b => by
    have ih1 := lg_lS s
    have ih2 := lg_lB b
    simp_all [lE, lEs, lIts, lS, lI, lT, lB, Long.lgE, Long.lgEs, Long.lgIts, Long.lgS, Long.lgI, Long.lgT, Long.lgB, lg_unG]
end

/-! ### Meaning -/

theorem multi_l : ∀ e, multi (lE e) = multi e
  | .group e => by rw [lE, multi, multi, multi_l e]
  | .var _ | .num _ | .str _ | .cst _ | .vararg | .func _ _ | .un _ _ | .bin _ _ _ | .member _ _ | .index _ _ | .call _ _ _ | .method _ _ _ _ | .table _ => by
    simp [lE, multi]

theorem len_l : ∀ es, len (lEs es) = len es
  | .nil => rfl
  | .cons e es => by rw [lEs, len, len, len_l es]

variable (L : Lang) (V : Lit)

theorem nE_unG (e : Ex) : nE L V false (unG e) = nE L V false e := by
  cases e <;> simp [unG, nE]

mutual
theorem norm_lE : ∀ (x : Ex), ∀ a, nE L V a (lE x) = nE L V a x
  | .var x => by
    simp_all [lE, lEs, lIts, lS, lI, lT, lB, nE, nEs, nIts, nS, nI, nT, nB, multi_l, len_l, nE_unG]
  | .num x => by
    simp_all [lE, lEs, lIts, lS, lI, lT, lB, nE, nEs, nIts, nS, nI, nT, nB, multi_l, len_l, nE_unG]
  | .str x => by
    simp_all [lE, lEs, lIts, lS, lI, lT, lB, nE, nEs, nIts, nS, nI, nT, nB, multi_l, len_l, nE_unG]
  | .cst x => by
    simp_all [lE, lEs, lIts, lS, lI, lT, lB, nE, nEs, nIts, nS, nI, nT, nB, multi_l, len_l, nE_unG]
  | .vararg => by
    simp_all [lE, lEs, lIts, lS, lI, lT, lB, nE, nEs, nIts, nS, nI, nT, nB, multi_l, len_l, nE_unG]
  | .func ps b => by
    have ih1 := norm_lB b
    simp_all [lE, lEs, lIts, lS, lI, lT, lB, nE, nEs, nIts, nS, nI, nT, nB, multi_l, len_l, nE_unG]
  | .group e => by
    have ih1 := norm_lE e
    simp_all [lE, lEs, lIts, lS, lI, lT, lB, nE, nEs, nIts, nS, nI, nT, nB, multi_l, len_l, nE_unG]
  | .un o e => by
    have ih1 := norm_lE e
    simp_all [lE, lEs, lIts, lS, lI, lT, lB, nE, nEs, nIts, nS, nI, nT, nB, multi_l, len_l, nE_unG]
  | .bin o l r => by
    have ih1 := norm_lE l
    have ih2 := norm_lE r
    simp_all [lE, lEs, lIts, lS, lI, lT, lB, nE, nEs, nIts, nS, nI, nT, nB, multi_l, len_l, nE_unG]
  | .member b x => by
    have ih1 := norm_lE b
    simp_all [lE, lEs, lIts, lS, lI, lT, lB, nE, nEs, nIts, nS, nI, nT, nB, multi_l, len_l, nE_unG]
  | .index b k => by
    have ih1 := norm_lE b
    have ih2 := norm_lE k
    simp_all [lE, lEs, lIts, lS, lI, lT, lB, nE, nEs, nIts, nS, nI, nT, nB, multi_l, len_l, nE_unG]
  | .call b t as => by
    have ih1 := norm_lE b
    have ih2 := norm_lEs as
    simp_all [lE, lEs, lIts, lS, lI, lT, lB, nE, nEs, nIts, nS, nI, nT, nB, multi_l, len_l, nE_unG]
  | .method b x t as => by
    have ih1 := norm_lE b
    have ih2 := norm_lEs as
    simp_all [lE, lEs, lIts, lS, lI, lT, lB, nE, nEs, nIts, nS, nI, nT, nB, multi_l, len_l, nE_unG]
  | .table its => by
    have ih1 := norm_lIts its
    simp_all [lE, lEs, lIts, lS, lI, lT, lB, nE, nEs, nIts, nS, nI, nT, nB, multi_l, len_l, nE_unG]
theorem norm_lEs : ∀ (x : Exs), ∀ a, nEs L V a (lEs x) = nEs L V a x
  | .nil => by
    simp_all [lE, lEs, lIts, lS, lI, lT, lB, nE, nEs, nIts, nS, nI, nT, nB, multi_l, len_l, nE_unG]
  | .cons e .nil => by
    have ih1 := norm_lE e
    simp_all [lE, lEs, lIts, lS, lI, lT, lB, nE, nEs, nIts, nS, nI, nT, nB, multi_l, len_l, nE_unG]
  | .cons e (.cons f es) => by
    have ih1 := norm_lE e
    have ih2 := norm_lEs (.cons f es)
    simp_all [lE, lEs, lIts, lS, lI, lT, lB, nE, nEs, nIts, nS, nI, nT, nB, multi_l, len_l, nE_unG]
theorem norm_lIts : ∀ (x : Its), nIts L V (lIts x) = nIts L V x
  | .nil => by
    simp_all [lE, lEs, lIts, lS, lI, lT, lB, nE, nEs, nIts, nS, nI, nT, nB, multi_l, len_l, nE_unG]
  | .pos e .nil => by
    have ih1 := norm_lE e
    simp_all [lE, lEs, lIts, lS, lI, lT, lB, nE, nEs, nIts, nS, nI, nT, nB, multi_l, len_l, nE_unG]
  | .pos e (.pos f its) => by
    have ih1 := norm_lE e
    have ih2 := norm_lIts (.pos f its)
    simp_all [lE, lEs, lIts, lS, lI, lT, lB, nE, nEs, nIts, nS, nI, nT, nB, multi_l, len_l, nE_unG]
  | .pos e (.named y f its) => by
    have ih1 := norm_lE e
    have ih2 := norm_lIts (.named y f its)
    simp_all [lE, lEs, lIts, lS, lI, lT, lB, nE, nEs, nIts, nS, nI, nT, nB, multi_l, len_l, nE_unG]
  | .pos e (.keyed k f its) => by
    have ih1 := norm_lE e
    have ih2 := norm_lIts (.keyed k f its)
    simp_all [lE, lEs, lIts, lS, lI, lT, lB, nE, nEs, nIts, nS, nI, nT, nB, multi_l, len_l, nE_unG]
  | .named x e its => by
    have ih1 := norm_lE e
    have ih2 := norm_lIts its
    simp_all [lE, lEs, lIts, lS, lI, lT, lB, nE, nEs, nIts, nS, nI, nT, nB, multi_l, len_l, nE_unG]
  | .keyed k e its => by
    have ih1 := norm_lE k
    have ih2 := norm_lE e
    have ih3 := norm_lIts its
    simp_all [lE, lEs, lIts, lS, lI, lT, lB, nE, nEs, nIts, nS, nI, nT, nB, multi_l, len_l, nE_unG]
theorem norm_lS : ∀ (x : St), nS L V (lS x) = nS L V x
  | .do_ b => by
    have ih1 := norm_lB b
    simp_all [lE, lEs, lIts, lS, lI, lT, lB, nE, nEs, nIts, nS, nI, nT, nB, multi_l, len_l, nE_unG]
  | .if_ i => by
    have ih1 := norm_lI i
    simp_all [lE, lEs, lIts, lS, lI, lT, lB, nE, nEs, nIts, nS, nI, nT, nB, multi_l, len_l, nE_unG]
  | .while_ e b => by
    have ih1 := norm_lE e
    have ih2 := norm_lB b
    simp_all [lE, lEs, lIts, lS, lI, lT, lB, nE, nEs, nIts, nS, nI, nT, nB, multi_l, len_l, nE_unG]
  | .whileShort e b d => by
    have ih1 := norm_lE e
    have ih2 := norm_lB b
    simp_all [lE, lEs, lIts, lS, lI, lT, lB, nE, nEs, nIts, nS, nI, nT, nB, multi_l, len_l, nE_unG]
  | .repeat_ b e => by
    have ih1 := norm_lB b
    have ih2 := norm_lE e
    simp_all [lE, lEs, lIts, lS, lI, lT, lB, nE, nEs, nIts, nS, nI, nT, nB, multi_l, len_l, nE_unG]
  | .fornum x a b s d => by
    have ih1 := norm_lE a
    have ih2 := norm_lE b
    have ih3 := norm_lEs s
    have ih4 := norm_lB d
    simp_all [lE, lEs, lIts, lS, lI, lT, lB, nE, nEs, nIts, nS, nI, nT, nB, multi_l, len_l, nE_unG]
  | .forin xs es d => by
    have ih1 := norm_lEs es
    have ih2 := norm_lB d
    simp only [lS, nS, len_l, ih1, ih2]
  | .break_ => by
    simp_all [lE, lEs, lIts, lS, lI, lT, lB, nE, nEs, nIts, nS, nI, nT, nB, multi_l, len_l, nE_unG]
  | .return_ es => by
    have ih1 := norm_lEs es
    simp_all [lE, lEs, lIts, lS, lI, lT, lB, nE, nEs, nIts, nS, nI, nT, nB, multi_l, len_l, nE_unG]
  | .local_ xs es => by
    have ih1 := norm_lEs es
    simp only [lS, nS, len_l, ih1]
  | .localfn x ps b => by
    have ih1 := norm_lB b
    simp_all [lE, lEs, lIts, lS, lI, lT, lB, nE, nEs, nIts, nS, nI, nT, nB, multi_l, len_l, nE_unG]
  | .goto_ x => by
    simp_all [lE, lEs, lIts, lS, lI, lT, lB, nE, nEs, nIts, nS, nI, nT, nB, multi_l, len_l, nE_unG]
  | .label x => by
    simp_all [lE, lEs, lIts, lS, lI, lT, lB, nE, nEs, nIts, nS, nI, nT, nB, multi_l, len_l, nE_unG]
  | .func f ps b => by
    have ih1 := norm_lB b
    simp_all [lE, lEs, lIts, lS, lI, lT, lB, nE, nEs, nIts, nS, nI, nT, nB, multi_l, len_l, nE_unG]
  | .assign ts es => by
    have ih1 := norm_lEs ts
    have ih2 := norm_lEs es
    simp only [lS, nS, len_l, ih1, ih2]
  | .opassign o t e => by
    have ih1 := norm_lE t
    have ih2 := norm_lE e
    simp_all [lE, lEs, lIts, lS, lI, lT, lB, nE, nEs, nIts, nS, nI, nT, nB, multi_l, len_l, nE_unG]
  | .call e => by
    have ih1 := norm_lE e
    simp_all [lE, lEs, lIts, lS, lI, lT, lB, nE, nEs, nIts, nS, nI, nT, nB, multi_l, len_l, nE_unG]
  | .print es => by
    have ih1 := norm_lEs es
    simp_all [lE, lEs, lIts, lS, lI, lT, lB, nE, nEs, nIts, nS, nI, nT, nB, multi_l, len_l, nE_unG]
theorem norm_lI : ∀ (x : If), nI L V (lI x) = nI L V x
  | .long e b t => by
    have ih1 := norm_lE e
    have ih2 := norm_lB b
    have ih3 := norm_lT t
    simp_all [lE, lEs, lIts, lS, lI, lT, lB, nE, nEs, nIts, nS, nI, nT, nB, multi_l, len_l, nE_unG]
  | .short e b d => by
    have ih1 := norm_lE e
    have ih2 := norm_lB b
    simp_all [lE, lEs, lIts, lS, lI, lT, lB, nE, nEs, nIts, nS, nI, nT, nB, multi_l, len_l, nE_unG]
  | .shortElse e b b' d => by
    have ih1 := norm_lE e
    have ih2 := norm_lB b
    have ih3 := norm_lB b'
    simp_all [lE, lEs, lIts, lS, lI, lT, lB, nE, nEs, nIts, nS, nI, nT, nB, multi_l, len_l, nE_unG]
theorem norm_lT : ∀ (x : Syntax.Tail), nT L V (lT x) = nT L V x
  | .end_ => by
    simp_all [lE, lEs, lIts, lS, lI, lT, lB, nE, nEs, nIts, nS, nI, nT, nB, multi_l, len_l, nE_unG]
  | .else_ b => by
    have ih1 := norm_lB b
    simp_all [lE, lEs, lIts, lS, lI, lT, lB, nE, nEs, nIts, nS, nI, nT, nB, multi_l, len_l, nE_unG]
  | .elseif_ i => by
    have ih1 := norm_lI i
    simp_all [lE, lEs, lIts, lS, lI, lT, lB, nE, nEs, nIts, nS, nI, nT, nB, multi_l, len_l, nE_unG]
theorem norm_lB : ∀ (x : Block), nB L V (lB x) = nB L V x
  | .nil => by
    simp_all [lE, lEs, lIts, lS, lI, lT, lB, nE, nEs, nIts, nS, nI, nT, nB, multi_l, len_l, nE_unG]
  | .semi b => by
    have ih1 := norm_lB b
    simp_all [lE, lEs, lIts, lS, lI, lT, lB, nE, nEs, nIts, nS, nI, nT, nB, multi_l, len_l, nE_unG]
  | .cons s b => by
    have ih1 := norm_lS s
    have ih2 := norm_lB b
    simp_all [lE, lEs, lIts, lS, lI, lT, lB, nE, nEs, nIts, nS, nI, nT, nB, multi_l, len_l, nE_unG]
end

/-! ### It can be printed and parsed again -/

open Tidy (isGroup isTarget targets semis doB flag isRet0 endsRet condS condB dangleB dangleS isElse)
open LuaGrammar (openEnd)

theorem isPre_l (e : Ex) : isPre (lE e) = isPre e := by cases e <;> simp [lE, isPre]
theorem isCall_l (e : Ex) : isCall (lE e) = isCall e := by cases e <;> simp [lE, isCall]
theorem isTarget_l (e : Ex) : isTarget (lE e) = isTarget e := by cases e <;> simp [lE, isTarget]
theorem lvl_l (e : Ex) : Mini.lvl (lE e) = Mini.lvl e := by cases e <;> simp [lE, Mini.lvl]
theorem nil_l {es : Exs} : lEs es = .nil ↔ es = .nil := by cases es <;> simp [lEs]
theorem one_l {es : Exs} : (∃ e, lEs es = .cons e .nil) ↔ ∃ e, es = .cons e .nil := by
  cases es <;> simp [lEs, nil_l]
theorem bareArg_l (es : Exs) : bareArg (lEs es) = bareArg es := by
  match es with
  | .nil => rfl
  | .cons e .nil => cases e <;> simp [lE, lEs, bareArg]
  | .cons e (.cons f es) => cases e <;> simp [lE, lEs, bareArg]
theorem targets_l : ∀ es, targets (lEs es) = targets es
  | .nil => rfl
  | .cons e es => by simp [lEs, targets, isTarget_l, targets_l es]
theorem openEnd_l : ∀ e, openEnd (lE e) = openEnd e
  | .un o e => by simp [lE, openEnd, openEnd_l e]
  | .bin o l r => by simp [lE, openEnd, openEnd_l r]
  | .var _ | .num _ | .str _ | .cst _ | .vararg | .func _ _ | .group _ | .member _ _ | .index _ _ | .call _ _ _ | .method _ _ _ _ | .table _ => by
    simp [lE, openEnd]
theorem openEs_l : ∀ es, openEs (lEs es) = Long.openEs es
  | .nil => rfl
  | .cons e .nil => by simp [lEs, openEs, Long.openEs, openEnd_l]
  | .cons e (.cons f es) => by
    have := openEs_l (.cons f es)
    simp only [lEs] at this
    simp only [lEs, openEs, Long.openEs, this]
theorem openI_l (i : If) : openI (lI i) = false := by cases i <;> simp [lI, openI]
theorem openS_l (s : St) : openS (lS s) = Long.openS s := by
  cases s <;> simp [lS, openS, Long.openS, openEs_l, openEnd_l, openI_l]
theorem leadLp_l : ∀ e, leadLp (lE e) = Plain.parenE e
  | .bin o l r => by simp [lE, leadLp, Plain.parenE, leadLp_l l]
  | .member b _ => by simp [lE, leadLp, Plain.parenE, leadLp_l b]
  | .index b _ => by simp [lE, leadLp, Plain.parenE, leadLp_l b]
  | .call b _ _ => by simp [lE, leadLp, Plain.parenE, leadLp_l b]
  | .method b _ _ _ => by simp [lE, leadLp, Plain.parenE, leadLp_l b]
  | .var _ | .num _ | .str _ | .cst _ | .vararg | .func _ _ | .group _ | .un _ _ | .table _ => by simp [lE, leadLp, Plain.parenE]
theorem leadB_l : ∀ b, leadB (lB b) = Long.leadB b
  | .nil => rfl
  | .semi b => by simp only [lB, Long.leadB, leadB_l b]
  | .cons s b => by
    cases s
    case assign ts es => cases ts <;> simp [lB, lS, lEs, leadB, leadS, leadEs, Long.leadB, Plain.parenB, leadLp_l]
    all_goals simp [lB, lS, leadB, leadS, Long.leadB, Plain.parenB, leadLp_l]
theorem semis_l : ∀ b, semis (lB b) = semis b
  | .nil => rfl
  | .semi b => by simp only [lB, semis, semis_l b]
  | .cons s b => by simp only [lB, semis]
theorem isRet0_l (s : St) : isRet0 (lS s) = isRet0 s := by
  cases s
  case return_ es => cases es <;> simp [lS, lEs, isRet0]
  all_goals simp [lS, isRet0]
theorem endsRet_l : ∀ b, endsRet (lB b) = endsRet b
  | .nil => rfl
  | .semi b => by simp only [lB, endsRet, endsRet_l b]
  | .cons s b => by simp only [lB, endsRet, endsRet_l b, semis_l, isRet0_l]
theorem flag_l (s : St) : flag (lS s) = none := by
  cases s
  case if_ i => cases i <;> simp [lS, lI, flag, Tidy.flagI]
  all_goals simp [lS, flag]
theorem condS_l (s : St) : condS L (lS s) = false := by
  cases s
  case if_ i => cases i <;> simp [lS, lI, condS, Tidy.condI]
  all_goals simp [lS, condS]
theorem dangleS_l (sh : Bool) (s : St) : dangleS sh (lS s) = false := by
  cases s
  case if_ i => cases i <;> simp [lS, lI, dangleS, Tidy.dangleI]
  all_goals simp [lS, dangleS]
theorem dangleB_l (sh : Bool) : ∀ b, dangleB sh (lB b) = false
  | .nil => by simp [lB, dangleB]
  | .semi b => by simp only [lB, dangleB_l sh b]
  | .cons s b => by simp only [lB, dangleB, dangleB_l sh b, dangleS_l, ite_self]
theorem isLong_l (i : If) : Mini.isLong (lI i) = true := by cases i <;> rfl
theorem fE_unG {x sh : Bool} {e : Ex} (h : fE x L sh e) : fE x L sh (unG e) := by
  cases e <;> simp_all [unG, fE]

mutual
theorem fine_lE : ∀ (x : Ex), ∀ (sh : Bool), fE false L sh x → Long.sepE x = true → ∀ sh' : Bool, fE true L sh' (lE x)
  | .var x => by
    intro sh h hs sh'
    simp only [lE, lEs, lIts, lS, lI, lT, lB, fE, fEs, fIts, fS, fI, fT, fB, Long.sepE, Long.sepEs, Long.sepIts, Long.sepS, Long.sepI, Long.sepT, Long.sepB, Bool.and_eq_true, isPre_l, isCall_l, isTarget_l, lvl_l, bareArg_l, targets_l, isLong_l, ne_eq, nil_l, one_l, leadB_l, openS_l, flag_l, condS_l, dangleB_l, semis_l, isRet0_l] at *
    all_goals grind [fE_unG]
  | .num x => by
    intro sh h hs sh'
    simp only [lE, lEs, lIts, lS, lI, lT, lB, fE, fEs, fIts, fS, fI, fT, fB, Long.sepE, Long.sepEs, Long.sepIts, Long.sepS, Long.sepI, Long.sepT, Long.sepB, Bool.and_eq_true, isPre_l, isCall_l, isTarget_l, lvl_l, bareArg_l, targets_l, isLong_l, ne_eq, nil_l, one_l, leadB_l, openS_l, flag_l, condS_l, dangleB_l, semis_l, isRet0_l] at *
    all_goals grind [fE_unG]
  | .str x => by
    intro sh h hs sh'
    simp only [lE, lEs, lIts, lS, lI, lT, lB, fE, fEs, fIts, fS, fI, fT, fB, Long.sepE, Long.sepEs, Long.sepIts, Long.sepS, Long.sepI, Long.sepT, Long.sepB, Bool.and_eq_true, isPre_l, isCall_l, isTarget_l, lvl_l, bareArg_l, targets_l, isLong_l, ne_eq, nil_l, one_l, leadB_l, openS_l, flag_l, condS_l, dangleB_l, semis_l, isRet0_l] at *
    all_goals grind [fE_unG]
  | .cst x => by
    intro sh h hs sh'
    simp only [lE, lEs, lIts, lS, lI, lT, lB, fE, fEs, fIts, fS, fI, fT, fB, Long.sepE, Long.sepEs, Long.sepIts, Long.sepS, Long.sepI, Long.sepT, Long.sepB, Bool.and_eq_true, isPre_l, isCall_l, isTarget_l, lvl_l, bareArg_l, targets_l, isLong_l, ne_eq, nil_l, one_l, leadB_l, openS_l, flag_l, condS_l, dangleB_l, semis_l, isRet0_l] at *
    all_goals grind [fE_unG]
  | .vararg => by
    intro sh h hs sh'
    simp only [lE, lEs, lIts, lS, lI, lT, lB, fE, fEs, fIts, fS, fI, fT, fB, Long.sepE, Long.sepEs, Long.sepIts, Long.sepS, Long.sepI, Long.sepT, Long.sepB, Bool.and_eq_true, isPre_l, isCall_l, isTarget_l, lvl_l, bareArg_l, targets_l, isLong_l, ne_eq, nil_l, one_l, leadB_l, openS_l, flag_l, condS_l, dangleB_l, semis_l, isRet0_l] at *
    all_goals grind [fE_unG]
  | .func ps b => by
    have ih1 := fine_lB b
    intro sh h hs sh'
    simp only [lE, lEs, lIts, lS, lI, lT, lB, fE, fEs, fIts, fS, fI, fT, fB, Long.sepE, Long.sepEs, Long.sepIts, Long.sepS, Long.sepI, Long.sepT, Long.sepB, Bool.and_eq_true, isPre_l, isCall_l, isTarget_l, lvl_l, bareArg_l, targets_l, isLong_l, ne_eq, nil_l, one_l, leadB_l, openS_l, flag_l, condS_l, dangleB_l, semis_l, isRet0_l] at *
    all_goals grind [fE_unG]
  | .group e => by
    have ih1 := fine_lE e
    intro sh h hs sh'
    simp only [lE, lEs, lIts, lS, lI, lT, lB, fE, fEs, fIts, fS, fI, fT, fB, Long.sepE, Long.sepEs, Long.sepIts, Long.sepS, Long.sepI, Long.sepT, Long.sepB, Bool.and_eq_true, isPre_l, isCall_l, isTarget_l, lvl_l, bareArg_l, targets_l, isLong_l, ne_eq, nil_l, one_l, leadB_l, openS_l, flag_l, condS_l, dangleB_l, semis_l, isRet0_l] at *
    all_goals grind [fE_unG]
  | .un o e => by
    have ih1 := fine_lE e
    intro sh h hs sh'
    simp only [lE, lEs, lIts, lS, lI, lT, lB, fE, fEs, fIts, fS, fI, fT, fB, Long.sepE, Long.sepEs, Long.sepIts, Long.sepS, Long.sepI, Long.sepT, Long.sepB, Bool.and_eq_true, isPre_l, isCall_l, isTarget_l, lvl_l, bareArg_l, targets_l, isLong_l, ne_eq, nil_l, one_l, leadB_l, openS_l, flag_l, condS_l, dangleB_l, semis_l, isRet0_l] at *
    all_goals grind [fE_unG]
  | .bin o l r => by
    have ih1 := fine_lE l
    have ih2 := fine_lE r
    intro sh h hs sh'
    simp only [lE, lEs, lIts, lS, lI, lT, lB, fE, fEs, fIts, fS, fI, fT, fB, Long.sepE, Long.sepEs, Long.sepIts, Long.sepS, Long.sepI, Long.sepT, Long.sepB, Bool.and_eq_true, isPre_l, isCall_l, isTarget_l, lvl_l, bareArg_l, targets_l, isLong_l, ne_eq, nil_l, one_l, leadB_l, openS_l, flag_l, condS_l, dangleB_l, semis_l, isRet0_l] at *
    all_goals grind [fE_unG]
  | .member b x => by
    have ih1 := fine_lE b
    intro sh h hs sh'
    simp only [lE, lEs, lIts, lS, lI, lT, lB, fE, fEs, fIts, fS, fI, fT, fB, Long.sepE, Long.sepEs, Long.sepIts, Long.sepS, Long.sepI, Long.sepT, Long.sepB, Bool.and_eq_true, isPre_l, isCall_l, isTarget_l, lvl_l, bareArg_l, targets_l, isLong_l, ne_eq, nil_l, one_l, leadB_l, openS_l, flag_l, condS_l, dangleB_l, semis_l, isRet0_l] at *
    all_goals grind [fE_unG]
  | .index b k => by
    have ih1 := fine_lE b
    have ih2 := fine_lE k
    intro sh h hs sh'
    simp only [lE, lEs, lIts, lS, lI, lT, lB, fE, fEs, fIts, fS, fI, fT, fB, Long.sepE, Long.sepEs, Long.sepIts, Long.sepS, Long.sepI, Long.sepT, Long.sepB, Bool.and_eq_true, isPre_l, isCall_l, isTarget_l, lvl_l, bareArg_l, targets_l, isLong_l, ne_eq, nil_l, one_l, leadB_l, openS_l, flag_l, condS_l, dangleB_l, semis_l, isRet0_l] at *
    all_goals grind [fE_unG]
  | .call b t as => by
    have ih1 := fine_lE b
    have ih2 := fine_lEs as
    intro sh h hs sh'
    simp only [lE, lEs, lIts, lS, lI, lT, lB, fE, fEs, fIts, fS, fI, fT, fB, Long.sepE, Long.sepEs, Long.sepIts, Long.sepS, Long.sepI, Long.sepT, Long.sepB, Bool.and_eq_true, isPre_l, isCall_l, isTarget_l, lvl_l, bareArg_l, targets_l, isLong_l, ne_eq, nil_l, one_l, leadB_l, openS_l, flag_l, condS_l, dangleB_l, semis_l, isRet0_l] at *
    all_goals grind [fE_unG]
  | .method b x t as => by
    have ih1 := fine_lE b
    have ih2 := fine_lEs as
    intro sh h hs sh'
    simp only [lE, lEs, lIts, lS, lI, lT, lB, fE, fEs, fIts, fS, fI, fT, fB, Long.sepE, Long.sepEs, Long.sepIts, Long.sepS, Long.sepI, Long.sepT, Long.sepB, Bool.and_eq_true, isPre_l, isCall_l, isTarget_l, lvl_l, bareArg_l, targets_l, isLong_l, ne_eq, nil_l, one_l, leadB_l, openS_l, flag_l, condS_l, dangleB_l, semis_l, isRet0_l] at *
    all_goals grind [fE_unG]
  | .table its => by
    have ih1 := fine_lIts its
    intro sh h hs sh'
    simp only [lE, lEs, lIts, lS, lI, lT, lB, fE, fEs, fIts, fS, fI, fT, fB, Long.sepE, Long.sepEs, Long.sepIts, Long.sepS, Long.sepI, Long.sepT, Long.sepB, Bool.and_eq_true, isPre_l, isCall_l, isTarget_l, lvl_l, bareArg_l, targets_l, isLong_l, ne_eq, nil_l, one_l, leadB_l, openS_l, flag_l, condS_l, dangleB_l, semis_l, isRet0_l] at *
    all_goals grind [fE_unG]
theorem fine_lEs : ∀ (x : Exs), ∀ (sh : Bool), fEs false L sh x → Long.sepEs x = true → ∀ sh' : Bool, fEs true L sh' (lEs x)
  | .nil => by
    intro sh h hs sh'
    simp only [lE, lEs, lIts, lS, lI, lT, lB, fE, fEs, fIts, fS, fI, fT, fB, Long.sepE, Long.sepEs, Long.sepIts, Long.sepS, Long.sepI, Long.sepT, Long.sepB, Bool.and_eq_true, isPre_l, isCall_l, isTarget_l, lvl_l, bareArg_l, targets_l, isLong_l, ne_eq, nil_l, one_l, leadB_l, openS_l, flag_l, condS_l, dangleB_l, semis_l, isRet0_l] at *
    all_goals grind [fE_unG]
  | .cons e es => by
    have ih1 := fine_lE e
    have ih2 := fine_lEs es
    intro sh h hs sh'
    simp only [lE, lEs, lIts, lS, lI, lT, lB, fE, fEs, fIts, fS, fI, fT, fB, Long.sepE, Long.sepEs, Long.sepIts, Long.sepS, Long.sepI, Long.sepT, Long.sepB, Bool.and_eq_true, isPre_l, isCall_l, isTarget_l, lvl_l, bareArg_l, targets_l, isLong_l, ne_eq, nil_l, one_l, leadB_l, openS_l, flag_l, condS_l, dangleB_l, semis_l, isRet0_l] at *
    all_goals grind [fE_unG]
theorem fine_lIts : ∀ (x : Its), ∀ (sh : Bool), fIts false L sh x → Long.sepIts x = true → ∀ sh' : Bool, fIts true L sh' (lIts x)
  | .nil => by
    intro sh h hs sh'
    simp only [lE, lEs, lIts, lS, lI, lT, lB, fE, fEs, fIts, fS, fI, fT, fB, Long.sepE, Long.sepEs, Long.sepIts, Long.sepS, Long.sepI, Long.sepT, Long.sepB, Bool.and_eq_true, isPre_l, isCall_l, isTarget_l, lvl_l, bareArg_l, targets_l, isLong_l, ne_eq, nil_l, one_l, leadB_l, openS_l, flag_l, condS_l, dangleB_l, semis_l, isRet0_l] at *
    all_goals grind [fE_unG]
  | .pos e its => by
    have ih1 := fine_lE e
    have ih2 := fine_lIts its
    intro sh h hs sh'
    simp only [lE, lEs, lIts, lS, lI, lT, lB, fE, fEs, fIts, fS, fI, fT, fB, Long.sepE, Long.sepEs, Long.sepIts, Long.sepS, Long.sepI, Long.sepT, Long.sepB, Bool.and_eq_true, isPre_l, isCall_l, isTarget_l, lvl_l, bareArg_l, targets_l, isLong_l, ne_eq, nil_l, one_l, leadB_l, openS_l, flag_l, condS_l, dangleB_l, semis_l, isRet0_l] at *
    all_goals grind [fE_unG]
  | .named x e its => by
    have ih1 := fine_lE e
    have ih2 := fine_lIts its
    intro sh h hs sh'
    simp only [lE, lEs, lIts, lS, lI, lT, lB, fE, fEs, fIts, fS, fI, fT, fB, Long.sepE, Long.sepEs, Long.sepIts, Long.sepS, Long.sepI, Long.sepT, Long.sepB, Bool.and_eq_true, isPre_l, isCall_l, isTarget_l, lvl_l, bareArg_l, targets_l, isLong_l, ne_eq, nil_l, one_l, leadB_l, openS_l, flag_l, condS_l, dangleB_l, semis_l, isRet0_l] at *
    all_goals grind [fE_unG]
  | .keyed k e its => by
    have ih1 := fine_lE k
    have ih2 := fine_lE e
    have ih3 := fine_lIts its
    intro sh h hs sh'
    simp only [lE, lEs, lIts, lS, lI, lT, lB, fE, fEs, fIts, fS, fI, fT, fB, Long.sepE, Long.sepEs, Long.sepIts, Long.sepS, Long.sepI, Long.sepT, Long.sepB, Bool.and_eq_true, isPre_l, isCall_l, isTarget_l, lvl_l, bareArg_l, targets_l, isLong_l, ne_eq, nil_l, one_l, leadB_l, openS_l, flag_l, condS_l, dangleB_l, semis_l, isRet0_l] at *
    all_goals grind [fE_unG]
theorem fine_lS : ∀ (x : St), ∀ (sh c : Bool), fS false L sh c x → Long.sepS x = true → ∀ sh' c' : Bool, fS true L sh' c' (lS x)
  | .do_ b => by
    have ih1 := fine_lB b
    intro sh c h hs sh' c'
    simp only [lE, lEs, lIts, lS, lI, lT, lB, fE, fEs, fIts, fS, fI, fT, fB, Long.sepE, Long.sepEs, Long.sepIts, Long.sepS, Long.sepI, Long.sepT, Long.sepB, Bool.and_eq_true, isPre_l, isCall_l, isTarget_l, lvl_l, bareArg_l, targets_l, isLong_l, ne_eq, nil_l, one_l, leadB_l, openS_l, flag_l, condS_l, dangleB_l, semis_l, isRet0_l] at *
    all_goals grind [fE_unG]
  | .if_ i => by
    have ih1 := fine_lI i
    intro sh c h hs sh' c'
    simp only [lE, lEs, lIts, lS, lI, lT, lB, fE, fEs, fIts, fS, fI, fT, fB, Long.sepE, Long.sepEs, Long.sepIts, Long.sepS, Long.sepI, Long.sepT, Long.sepB, Bool.and_eq_true, isPre_l, isCall_l, isTarget_l, lvl_l, bareArg_l, targets_l, isLong_l, ne_eq, nil_l, one_l, leadB_l, openS_l, flag_l, condS_l, dangleB_l, semis_l, isRet0_l] at *
    all_goals grind [fE_unG]
  | .while_ e b => by
    have ih1 := fine_lE e
    have ih2 := fine_lB b
    intro sh c h hs sh' c'
    simp only [lE, lEs, lIts, lS, lI, lT, lB, fE, fEs, fIts, fS, fI, fT, fB, Long.sepE, Long.sepEs, Long.sepIts, Long.sepS, Long.sepI, Long.sepT, Long.sepB, Bool.and_eq_true, isPre_l, isCall_l, isTarget_l, lvl_l, bareArg_l, targets_l, isLong_l, ne_eq, nil_l, one_l, leadB_l, openS_l, flag_l, condS_l, dangleB_l, semis_l, isRet0_l] at *
    all_goals grind [fE_unG]
  | .whileShort e b d => by
    have ih1 := fine_lE e
    have ih2 := fine_lB b
    intro sh c h hs sh' c'
    simp only [lE, lEs, lIts, lS, lI, lT, lB, fE, fEs, fIts, fS, fI, fT, fB, Long.sepE, Long.sepEs, Long.sepIts, Long.sepS, Long.sepI, Long.sepT, Long.sepB, Bool.and_eq_true, isPre_l, isCall_l, isTarget_l, lvl_l, bareArg_l, targets_l, isLong_l, ne_eq, nil_l, one_l, leadB_l, openS_l, flag_l, condS_l, dangleB_l, semis_l, isRet0_l] at *
    all_goals grind [fE_unG]
  | .repeat_ b e => by
    have ih1 := fine_lB b
    have ih2 := fine_lE e
    intro sh c h hs sh' c'
    simp only [lE, lEs, lIts, lS, lI, lT, lB, fE, fEs, fIts, fS, fI, fT, fB, Long.sepE, Long.sepEs, Long.sepIts, Long.sepS, Long.sepI, Long.sepT, Long.sepB, Bool.and_eq_true, isPre_l, isCall_l, isTarget_l, lvl_l, bareArg_l, targets_l, isLong_l, ne_eq, nil_l, one_l, leadB_l, openS_l, flag_l, condS_l, dangleB_l, semis_l, isRet0_l] at *
    all_goals grind [fE_unG]
  | .fornum x a b s d => by
    have ih1 := fine_lE a
    have ih2 := fine_lE b
    have ih3 := fine_lEs s
    have ih4 := fine_lB d
    intro sh c h hs sh' c'
    simp only [lE, lEs, lIts, lS, lI, lT, lB, fE, fEs, fIts, fS, fI, fT, fB, Long.sepE, Long.sepEs, Long.sepIts, Long.sepS, Long.sepI, Long.sepT, Long.sepB, Bool.and_eq_true, isPre_l, isCall_l, isTarget_l, lvl_l, bareArg_l, targets_l, isLong_l, ne_eq, nil_l, one_l, leadB_l, openS_l, flag_l, condS_l, dangleB_l, semis_l, isRet0_l] at *
    all_goals grind [fE_unG]
  | .forin xs es d => by
    have ih1 := fine_lEs es
    have ih2 := fine_lB d
    intro sh c h hs sh' c'
    simp only [lE, lEs, lIts, lS, lI, lT, lB, fE, fEs, fIts, fS, fI, fT, fB, Long.sepE, Long.sepEs, Long.sepIts, Long.sepS, Long.sepI, Long.sepT, Long.sepB, Bool.and_eq_true, isPre_l, isCall_l, isTarget_l, lvl_l, bareArg_l, targets_l, isLong_l, ne_eq, nil_l, one_l, leadB_l, openS_l, flag_l, condS_l, dangleB_l, semis_l, isRet0_l] at *
    all_goals grind [fE_unG]
  | .break_ => by
    intro sh c h hs sh' c'
    simp only [lE, lEs, lIts, lS, lI, lT, lB, fE, fEs, fIts, fS, fI, fT, fB, Long.sepE, Long.sepEs, Long.sepIts, Long.sepS, Long.sepI, Long.sepT, Long.sepB, Bool.and_eq_true, isPre_l, isCall_l, isTarget_l, lvl_l, bareArg_l, targets_l, isLong_l, ne_eq, nil_l, one_l, leadB_l, openS_l, flag_l, condS_l, dangleB_l, semis_l, isRet0_l] at *
    all_goals grind [fE_unG]
  | .return_ es => by
    have ih1 := fine_lEs es
    intro sh c h hs sh' c'
    simp only [lE, lEs, lIts, lS, lI, lT, lB, fE, fEs, fIts, fS, fI, fT, fB, Long.sepE, Long.sepEs, Long.sepIts, Long.sepS, Long.sepI, Long.sepT, Long.sepB, Bool.and_eq_true, isPre_l, isCall_l, isTarget_l, lvl_l, bareArg_l, targets_l, isLong_l, ne_eq, nil_l, one_l, leadB_l, openS_l, flag_l, condS_l, dangleB_l, semis_l, isRet0_l] at *
    all_goals grind [fE_unG]
  | .local_ xs es => by
    have ih1 := fine_lEs es
    intro sh c h hs sh' c'
    simp only [lE, lEs, lIts, lS, lI, lT, lB, fE, fEs, fIts, fS, fI, fT, fB, Long.sepE, Long.sepEs, Long.sepIts, Long.sepS, Long.sepI, Long.sepT, Long.sepB, Bool.and_eq_true, isPre_l, isCall_l, isTarget_l, lvl_l, bareArg_l, targets_l, isLong_l, ne_eq, nil_l, one_l, leadB_l, openS_l, flag_l, condS_l, dangleB_l, semis_l, isRet0_l] at *
    all_goals grind [fE_unG]
  | .localfn x ps b => by
    have ih1 := fine_lB b
    intro sh c h hs sh' c'
    simp only [lE, lEs, lIts, lS, lI, lT, lB, fE, fEs, fIts, fS, fI, fT, fB, Long.sepE, Long.sepEs, Long.sepIts, Long.sepS, Long.sepI, Long.sepT, Long.sepB, Bool.and_eq_true, isPre_l, isCall_l, isTarget_l, lvl_l, bareArg_l, targets_l, isLong_l, ne_eq, nil_l, one_l, leadB_l, openS_l, flag_l, condS_l, dangleB_l, semis_l, isRet0_l] at *
    all_goals grind [fE_unG]
  | .goto_ x => by
    intro sh c h hs sh' c'
    simp only [lE, lEs, lIts, lS, lI, lT, lB, fE, fEs, fIts, fS, fI, fT, fB, Long.sepE, Long.sepEs, Long.sepIts, Long.sepS, Long.sepI, Long.sepT, Long.sepB, Bool.and_eq_true, isPre_l, isCall_l, isTarget_l, lvl_l, bareArg_l, targets_l, isLong_l, ne_eq, nil_l, one_l, leadB_l, openS_l, flag_l, condS_l, dangleB_l, semis_l, isRet0_l] at *
    all_goals grind [fE_unG]
  | .label x => by
    intro sh c h hs sh' c'
    simp only [lE, lEs, lIts, lS, lI, lT, lB, fE, fEs, fIts, fS, fI, fT, fB, Long.sepE, Long.sepEs, Long.sepIts, Long.sepS, Long.sepI, Long.sepT, Long.sepB, Bool.and_eq_true, isPre_l, isCall_l, isTarget_l, lvl_l, bareArg_l, targets_l, isLong_l, ne_eq, nil_l, one_l, leadB_l, openS_l, flag_l, condS_l, dangleB_l, semis_l, isRet0_l] at *
    all_goals grind [fE_unG]
  | .func f ps b => by
    have ih1 := fine_lB b
    intro sh c h hs sh' c'
    simp only [lE, lEs, lIts, lS, lI, lT, lB, fE, fEs, fIts, fS, fI, fT, fB, Long.sepE, Long.sepEs, Long.sepIts, Long.sepS, Long.sepI, Long.sepT, Long.sepB, Bool.and_eq_true, isPre_l, isCall_l, isTarget_l, lvl_l, bareArg_l, targets_l, isLong_l, ne_eq, nil_l, one_l, leadB_l, openS_l, flag_l, condS_l, dangleB_l, semis_l, isRet0_l] at *
    all_goals grind [fE_unG]
  | .assign ts es => by
    have ih1 := fine_lEs ts
    have ih2 := fine_lEs es
    intro sh c h hs sh' c'
    simp only [lE, lEs, lIts, lS, lI, lT, lB, fE, fEs, fIts, fS, fI, fT, fB, Long.sepE, Long.sepEs, Long.sepIts, Long.sepS, Long.sepI, Long.sepT, Long.sepB, Bool.and_eq_true, isPre_l, isCall_l, isTarget_l, lvl_l, bareArg_l, targets_l, isLong_l, ne_eq, nil_l, one_l, leadB_l, openS_l, flag_l, condS_l, dangleB_l, semis_l, isRet0_l] at *
    all_goals grind [fE_unG]
  | .opassign o t e => by
    have ih1 := fine_lE t
    have ih2 := fine_lE e
    intro sh c h hs sh' c'
    simp only [lE, lEs, lIts, lS, lI, lT, lB, fE, fEs, fIts, fS, fI, fT, fB, Long.sepE, Long.sepEs, Long.sepIts, Long.sepS, Long.sepI, Long.sepT, Long.sepB, Bool.and_eq_true, isPre_l, isCall_l, isTarget_l, lvl_l, bareArg_l, targets_l, isLong_l, ne_eq, nil_l, one_l, leadB_l, openS_l, flag_l, condS_l, dangleB_l, semis_l, isRet0_l] at *
    all_goals grind [fE_unG]
  | .call e => by
    have ih1 := fine_lE e
    intro sh c h hs sh' c'
    simp only [lE, lEs, lIts, lS, lI, lT, lB, fE, fEs, fIts, fS, fI, fT, fB, Long.sepE, Long.sepEs, Long.sepIts, Long.sepS, Long.sepI, Long.sepT, Long.sepB, Bool.and_eq_true, isPre_l, isCall_l, isTarget_l, lvl_l, bareArg_l, targets_l, isLong_l, ne_eq, nil_l, one_l, leadB_l, openS_l, flag_l, condS_l, dangleB_l, semis_l, isRet0_l] at *
    all_goals grind [fE_unG]
  | .print es => by
    have ih1 := fine_lEs es
    intro sh c h hs sh' c'
    simp only [lE, lEs, lIts, lS, lI, lT, lB, fE, fEs, fIts, fS, fI, fT, fB, Long.sepE, Long.sepEs, Long.sepIts, Long.sepS, Long.sepI, Long.sepT, Long.sepB, Bool.and_eq_true, isPre_l, isCall_l, isTarget_l, lvl_l, bareArg_l, targets_l, isLong_l, ne_eq, nil_l, one_l, leadB_l, openS_l, flag_l, condS_l, dangleB_l, semis_l, isRet0_l] at *
    all_goals grind [fE_unG]
theorem fine_lI : ∀ (x : If), ∀ (sh c : Bool), fI false L sh c x → Long.sepI x = true → ∀ sh' c' : Bool, fI true L sh' c' (lI x)
  | .long e b t => by
    have ih1 := fine_lE e
    have ih2 := fine_lB b
    have ih3 := fine_lT t
    intro sh c h hs sh' c'
    simp only [lE, lEs, lIts, lS, lI, lT, lB, fE, fEs, fIts, fS, fI, fT, fB, Long.sepE, Long.sepEs, Long.sepIts, Long.sepS, Long.sepI, Long.sepT, Long.sepB, Bool.and_eq_true, isPre_l, isCall_l, isTarget_l, lvl_l, bareArg_l, targets_l, isLong_l, ne_eq, nil_l, one_l, leadB_l, openS_l, flag_l, condS_l, dangleB_l, semis_l, isRet0_l] at *
    all_goals grind [fE_unG]
  | .short e b d => by
    have ih1 := fine_lE e
    have ih2 := fine_lB b
    intro sh c h hs sh' c'
    simp only [lE, lEs, lIts, lS, lI, lT, lB, fE, fEs, fIts, fS, fI, fT, fB, Long.sepE, Long.sepEs, Long.sepIts, Long.sepS, Long.sepI, Long.sepT, Long.sepB, Bool.and_eq_true, isPre_l, isCall_l, isTarget_l, lvl_l, bareArg_l, targets_l, isLong_l, ne_eq, nil_l, one_l, leadB_l, openS_l, flag_l, condS_l, dangleB_l, semis_l, isRet0_l] at *
    all_goals grind [fE_unG]
  | .shortElse e b b' d => by
    have ih1 := fine_lE e
    have ih2 := fine_lB b
    have ih3 := fine_lB b'
    intro sh c h hs sh' c'
    simp only [lE, lEs, lIts, lS, lI, lT, lB, fE, fEs, fIts, fS, fI, fT, fB, Long.sepE, Long.sepEs, Long.sepIts, Long.sepS, Long.sepI, Long.sepT, Long.sepB, Bool.and_eq_true, isPre_l, isCall_l, isTarget_l, lvl_l, bareArg_l, targets_l, isLong_l, ne_eq, nil_l, one_l, leadB_l, openS_l, flag_l, condS_l, dangleB_l, semis_l, isRet0_l] at *
    all_goals grind [fE_unG]
theorem fine_lT : ∀ (x : Syntax.Tail), ∀ (sh : Bool), fT false L sh x → Long.sepT x = true → ∀ sh' : Bool, fT true L sh' (lT x)
  | .end_ => by
    intro sh h hs sh'
    simp only [lE, lEs, lIts, lS, lI, lT, lB, fE, fEs, fIts, fS, fI, fT, fB, Long.sepE, Long.sepEs, Long.sepIts, Long.sepS, Long.sepI, Long.sepT, Long.sepB, Bool.and_eq_true, isPre_l, isCall_l, isTarget_l, lvl_l, bareArg_l, targets_l, isLong_l, ne_eq, nil_l, one_l, leadB_l, openS_l, flag_l, condS_l, dangleB_l, semis_l, isRet0_l] at *
    all_goals grind [fE_unG]
  | .else_ b => by
    have ih1 := fine_lB b
    intro sh h hs sh'
    simp only [lE, lEs, lIts, lS, lI, lT, lB, fE, fEs, fIts, fS, fI, fT, fB, Long.sepE, Long.sepEs, Long.sepIts, Long.sepS, Long.sepI, Long.sepT, Long.sepB, Bool.and_eq_true, isPre_l, isCall_l, isTarget_l, lvl_l, bareArg_l, targets_l, isLong_l, ne_eq, nil_l, one_l, leadB_l, openS_l, flag_l, condS_l, dangleB_l, semis_l, isRet0_l] at *
    all_goals grind [fE_unG]
  | .elseif_ i => by
    have ih1 := fine_lI i
    intro sh h hs sh'
    simp only [lE, lEs, lIts, lS, lI, lT, lB, fE, fEs, fIts, fS, fI, fT, fB, Long.sepE, Long.sepEs, Long.sepIts, Long.sepS, Long.sepI, Long.sepT, Long.sepB, Bool.and_eq_true, isPre_l, isCall_l, isTarget_l, lvl_l, bareArg_l, targets_l, isLong_l, ne_eq, nil_l, one_l, leadB_l, openS_l, flag_l, condS_l, dangleB_l, semis_l, isRet0_l] at *
    all_goals grind [fE_unG]
theorem fine_lB : ∀ (x : Block), ∀ (sh c : Bool), fB false L sh c x → Long.sepB x = true → ∀ sh' c' : Bool, fB true L sh' c' (lB x)
  | .nil => by
    intro sh c h hs sh' c'
    simp only [lE, lEs, lIts, lS, lI, lT, lB, fE, fEs, fIts, fS, fI, fT, fB, Long.sepE, Long.sepEs, Long.sepIts, Long.sepS, Long.sepI, Long.sepT, Long.sepB, Bool.and_eq_true, isPre_l, isCall_l, isTarget_l, lvl_l, bareArg_l, targets_l, isLong_l, ne_eq, nil_l, one_l, leadB_l, openS_l, flag_l, condS_l, dangleB_l, semis_l, isRet0_l] at *
    all_goals grind [fE_unG]
  | .semi b => by
    have ih1 := fine_lB b
    intro sh c h hs sh' c'
    simp only [lE, lEs, lIts, lS, lI, lT, lB, fE, fEs, fIts, fS, fI, fT, fB, Long.sepE, Long.sepEs, Long.sepIts, Long.sepS, Long.sepI, Long.sepT, Long.sepB, Bool.and_eq_true, isPre_l, isCall_l, isTarget_l, lvl_l, bareArg_l, targets_l, isLong_l, ne_eq, nil_l, one_l, leadB_l, openS_l, flag_l, condS_l, dangleB_l, semis_l, isRet0_l] at *
    all_goals grind [fE_unG]
  | .cons s b => by
    have ih1 := fine_lS s
    have ih2 := fine_lB b
    intro sh c h hs sh' c'
    simp only [lE, lEs, lIts, lS, lI, lT, lB, fE, fEs, fIts, fS, fI, fT, fB, Long.sepE, Long.sepEs, Long.sepIts, Long.sepS, Long.sepI, Long.sepT, Long.sepB, Bool.and_eq_true, isPre_l, isCall_l, isTarget_l, lvl_l, bareArg_l, targets_l, isLong_l, ne_eq, nil_l, one_l, leadB_l, openS_l, flag_l, condS_l, dangleB_l, semis_l, isRet0_l] at *
    all_goals grind [fE_unG]
end

end Verif.Unmin
