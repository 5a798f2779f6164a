import Verif.CoreSame
import Verif.Spec.LuaElab
import Verif.Spec.LuaNorm
import Verif.Spec.LuaPrint
/-
Helpers for C76: a tree and its normal form stand for programs that differ in parentheses and signs only.
-/
namespace Verif.Elab
open Syntax Core.Eqv
open Spec (rtUn)
open LuaScope (Env look bind named methodParams after atEnd)
open Paren (Op)

section
variable (L : Paren.Lang) (V : LuaNorm.Lit)

theorem ns_sign (o : Op) (e : Ex) : LuaScope.nE (LuaNorm.sign V o e) = LuaScope.nE e := by
  cases e <;> simp only [LuaNorm.sign, LuaScope.nE]
  split <;> rfl

mutual
theorem nsE (a : Bool) : ∀ e : Ex, LuaScope.nE (LuaNorm.nE L V a e) = LuaScope.nE e
  | .var _ | .num _ | .str _ | .cst _ | .vararg => rfl
  | .func ps b => by simp only [LuaNorm.nE, LuaScope.nE, nsB b]
  | .group e => by
    simp only [LuaNorm.nE]
    split <;> simp only [LuaScope.nE, nsE _ e]
  | .un o e => by simp only [LuaNorm.nE, ns_sign, LuaScope.nE, nsE _ e]
  | .bin o l r => by simp only [LuaNorm.nE, LuaScope.nE, nsE _ l, nsE _ r]
  | .member b x => by simp only [LuaNorm.nE, LuaScope.nE, nsE _ b]
  | .index b k => by simp only [LuaNorm.nE, LuaScope.nE, nsE _ b, nsE _ k]
  | .call b _ as => by simp only [LuaNorm.nE, LuaScope.nE, nsE _ b, nsEs _ as]
  | .method b x _ as => by simp only [LuaNorm.nE, LuaScope.nE, nsE _ b, nsEs _ as]
  | .table its => by simp only [LuaNorm.nE, LuaScope.nE, nsIts its]
theorem nsEs (a : Bool) : ∀ es : Exs, LuaScope.nEs (LuaNorm.nEs L V a es) = LuaScope.nEs es
  | .nil => rfl
  | .cons e .nil => by simp only [LuaNorm.nEs, LuaScope.nEs, nsE _ e]
  | .cons e (.cons d es) => by
    have := nsEs a (.cons d es)
    simp only [LuaNorm.nEs, LuaScope.nEs, nsE _ e] at this ⊢
    rw [this]
theorem nsIts : ∀ its : Its, LuaScope.nIts (LuaNorm.nIts L V its) = LuaScope.nIts its
  | .nil => rfl
  | .pos e .nil => by simp only [LuaNorm.nIts, LuaScope.nIts, nsE _ e]
  | .pos e (.pos d its) => by have := nsIts (.pos d its); simp only [LuaNorm.nIts, LuaScope.nIts, nsE _ e] at this ⊢; rw [this]
  | .pos e (.named x d its) => by have := nsIts (.named x d its); simp only [LuaNorm.nIts, LuaScope.nIts, nsE _ e] at this ⊢; rw [this]
  | .pos e (.keyed k d its) => by have := nsIts (.keyed k d its); simp only [LuaNorm.nIts, LuaScope.nIts, nsE _ e] at this ⊢; rw [this]
  | .named x e its => by simp only [LuaNorm.nIts, LuaScope.nIts, nsE _ e, nsIts its]
  | .keyed k e its => by simp only [LuaNorm.nIts, LuaScope.nIts, nsE _ k, nsE _ e, nsIts its]
theorem nsS : ∀ s : St, LuaScope.nS (LuaNorm.nS L V s) = LuaScope.nS s
  | .do_ b => by simp only [LuaNorm.nS, LuaScope.nS, nsB b]
  | .if_ i => by simp only [LuaNorm.nS, LuaScope.nS, nsI i]
  | .while_ c b => by simp only [LuaNorm.nS, LuaScope.nS, nsE _ c, nsB b]
  | .whileShort c b _ => by simp only [LuaNorm.nS, LuaScope.nS, nsE _ c, nsB b]
  | .repeat_ b c => by simp only [LuaNorm.nS, LuaScope.nS, nsE _ c, nsB b]
  | .fornum x a b c d => by simp only [LuaNorm.nS, LuaScope.nS, nsE _ a, nsE _ b, nsEs _ c, nsB d]
  | .forin xs es d => by simp only [LuaNorm.nS, LuaScope.nS, nsEs _ es, nsB d]
  | .break_ => rfl
  | .return_ es => by simp only [LuaNorm.nS, LuaScope.nS, nsEs _ es]
  | .local_ xs es => by simp only [LuaNorm.nS, LuaScope.nS, nsEs _ es]
  | .localfn _ ps b => by simp only [LuaNorm.nS, LuaScope.nS, nsB b]
  | .goto_ _ => rfl
  | .label _ => rfl
  | .func f ps b => by simp only [LuaNorm.nS, LuaScope.nS, nsB b]
  | .assign ts es => by simp only [LuaNorm.nS, LuaScope.nS, nsEs _ ts, nsEs _ es]
  | .opassign _ t e => by simp only [LuaNorm.nS, LuaScope.nS, nsE _ t, nsE _ e]
  | .call e => by simp only [LuaNorm.nS, LuaScope.nS, nsE _ e]
  | .print es => by simp only [LuaNorm.nS, LuaScope.nS, nsEs _ es]
theorem nsI : ∀ i : If, LuaScope.nI (LuaNorm.nI L V i) = LuaScope.nI i
  | .long c b t => by simp only [LuaNorm.nI, LuaScope.nI, nsE _ c, nsB b, nsT t]
  | .short c b _ => by simp only [LuaNorm.nI, LuaScope.nI, LuaScope.nT, nsE _ c, nsB b, Nat.add_zero]
  | .shortElse c b d _ => by simp only [LuaNorm.nI, LuaScope.nI, LuaScope.nT, nsE _ c, nsB b, nsB d]
theorem nsT : ∀ t : Tail, LuaScope.nT (LuaNorm.nT L V t) = LuaScope.nT t
  | .end_ => rfl
  | .else_ b => by simp only [LuaNorm.nT, LuaScope.nT, nsB b]
  | .elseif_ i => by simp only [LuaNorm.nT, LuaScope.nT, nsI i]
theorem nsB : ∀ b : Block, LuaScope.nB (LuaNorm.nB L V b) = LuaScope.nB b
  | .nil => rfl
  | .semi b => by simp only [LuaNorm.nB, LuaScope.nB, nsB b]
  | .cons s b => by simp only [LuaNorm.nB, LuaScope.nB, nsS s, nsB b]
end

theorem after_norm (env : Env) (n : Nat) (s : St) : after env n (LuaNorm.nS L V s) = after env n s := by
  cases s <;> rfl

theorem atEnd_norm : ∀ (b : Block) (env : Env) (n : Nat), atEnd env n (LuaNorm.nB L V b) = atEnd env n b
  | .nil, _, _ => rfl
  | .semi b, _, _ => by simp only [LuaNorm.nB, atEnd, atEnd_norm b]
  | .cons s b, _, _ => by simp only [LuaNorm.nB, atEnd, after_norm, nsS, atEnd_norm b]

theorem shape_norm : ∀ its : Its, shape (LuaNorm.nIts L V its) = shape its
  | .nil => rfl
  | .pos e .nil => rfl
  | .pos e (.pos d its) => by have := shape_norm (.pos d its); simp only [LuaNorm.nIts, shape] at this ⊢; rw [this]
  | .pos e (.named x d its) => by have := shape_norm (.named x d its); simp only [LuaNorm.nIts, shape] at this ⊢; rw [this]
  | .pos e (.keyed k d its) => by have := shape_norm (.keyed k d its); simp only [LuaNorm.nIts, shape] at this ⊢; rw [this]
  | .named x e its => by simp only [LuaNorm.nIts, shape, shape_norm its]
  | .keyed k e its => by simp only [LuaNorm.nIts, shape, shape_norm its]

end

/-- The meaning `N` of numbers in normal form, and that of strings. -/
structure Reads (lang : Verif.Lang) (V : LuaNorm.Lit) (S : Sem) (N : String → Num) (M : String → LV) : Prop where
  num : ∀ s, S.num s = N (V.num s)
  str : ∀ s, S.str s = M (V.str s)
  sgn : ∀ o u v, o = .minus ∨ o = .tilde → unOp o = some u → N (V.sgn o v) = .sgn u (N v) ∨
    ∃ c c' x r, N v = .lit c ∧ N (V.sgn o v) = .lit c' ∧ LV.repr lang c = some x ∧ rtUn lang u x = some r ∧ LV.repr lang c' = some r

section
variable {L : Paren.Lang} {V : LuaNorm.Lit} {lang : Verif.Lang} {S : Sem} {N : String → Num} {M : String → LV}

/-- The reading of normal forms. -/
def Sem.normal (S : Sem) (N : String → Num) (M : String → LV) : Sem := { S with num := N, str := M }

theorem name_normal (env : Env) (x : Nm) : name (S.normal N M) env x = name S env x := rfl
theorem target_normal (env : Env) (x : Nm) : target (S.normal N M) env x = target S env x := rfl
theorem opBin_normal (o : Op) (l r : Core.Ex) : opBin (S.normal N M) o l r = opBin S o l r := rfl
theorem numeral_normal : ∀ n, numeral (S.normal N M) n = numeral S n
  | .lit _ => rfl
  | .prim _ => rfl
  | .sgn u n => by simp only [numeral, numeral_normal n]
theorem chain_normal : ∀ (xs : List Nm) (e : Core.Ex), chain (S.normal N M) e xs = chain S e xs
  | [], _ => rfl
  | x :: xs, e => by simp only [chain]; rw [chain_normal xs]; rfl
theorem fnTarget_normal (env : Env) (f : FnName) : fnTarget (S.normal N M) env f = fnTarget S env f := by
  simp only [fnTarget]
  split
  · rfl
  · rw [chain_normal]; rfl

theorem builtin_sign (env : Env) (o : Op) (e : Ex) : builtinOf S env (LuaNorm.sign V o e) = none := by
  cases e <;> simp only [LuaNorm.sign]
  case num => split <;> rfl
  all_goals rfl

theorem builtin_norm (env : Env) : ∀ e : Ex, builtinOf (S.normal N M) env (LuaNorm.nE L V false e) = builtinOf S env e
  | .group e => by
    simp only [LuaNorm.nE, Bool.false_and, Bool.false_eq_true, if_false, builtinOf]
    exact builtin_norm env e
  | .un o e => by simp only [LuaNorm.nE, builtin_sign, builtinOf]
  | .var _ | .num _ | .str _ | .cst _ | .vararg | .func _ _ | .bin _ _ _ | .member _ _ | .index _ _ | .call _ _ _ | .method _ _ _ _ | .table _ => rfl

theorem binOp_norm (o : Op) : binOp (LuaNorm.oneName o) = binOp o := by cases o <;> rfl
theorem opBin_norm (o : Op) (l r : Core.Ex) : opBin S (LuaNorm.oneName o) l r = opBin S o l r := by cases o <;> rfl

theorem numeral_multi (n : Num) : (numeral S n).multi = false := by cases n <;> rfl

theorem name_multi (env : Env) (x : Nm) : (name S env x).multi = false := by
  simp only [name, ref, global]
  split
  · split <;> rfl
  · split
    · split <;> rfl
    · rfl

theorem multi_norm {e : Ex} (h : LuaNorm.multi e = false) (env : Env) (n : Nat) : (eE S env n e).multi = false := by
  cases e <;> simp only [LuaNorm.multi, Bool.true_eq_false] at h <;> simp only [eE]
  case var => exact name_multi ..
  case num => exact numeral_multi _
  case un => split <;> rfl
  case bin => simp only [opBin]; split <;> rfl
  all_goals rfl

theorem qNumeral (a : Bool) : ∀ n, QEx lang a (numeral S n) (numeral S n)
  | .lit v => .const a v
  | .prim _ => .op _ _ (.nil _)
  | .sgn u n => .un u (qNumeral false n)

theorem qName (a : Bool) (env : Env) (x : Nm) : QEx lang a (name S env x) (name S env x) := by
  simp only [name, ref, global]
  split
  · split
    · exact .op _ _ (.nil _)
    · exact .var _ _
  · split
    · split
      · exact .op _ _ (.nil _)
      · exact .op _ _ (.last (.var _ _))
    · exact .op _ _ (.nil _)

theorem qTarget (env : Env) (x : Nm) : QTg lang (target S env x) (target S env x) := by
  simp only [target]
  split
  · split
    · exact .put _ (.nil _)
    · exact .loc _
  · split
    · split
      · exact .put _ (.nil _)
      · exact .put _ (.last (.var _ _))
    · exact .put _ (.nil _)

theorem qChain : ∀ (xs : List Nm) {e : Core.Ex} {a : Bool}, (∀ a, QEx lang a e e) → QEx lang a (chain S e xs) (chain S e xs)
  | [], _, a, h => h a
  | x :: xs, e, a, h => by
    simp only [chain]
    exact qChain xs fun a => .op _ _ (.last (.group (h false)))

theorem qFnTarget (env : Env) (f : FnName) : QTg lang (fnTarget S env f) (fnTarget S env f) := by
  simp only [fnTarget]
  split
  · exact qTarget ..
  · exact .put _ (.last (.group (qChain _ fun a => qName a ..)))

theorem qOpBin {a : Bool} (o : Op) {l l' r r' : Core.Ex} (hl : QEx lang false l l') (hr : QEx lang false r r') :
    QEx lang a (opBin S o l r) (opBin S o l' r') := by
  simp only [opBin]
  split
  · exact .bin _ hl hr
  · exact .op _ _ (.cons hl (.last (.group hr)))

theorem qCallOf {a : Bool} (f : Option Builtin) {e e' : Core.Ex} {es es' : List Core.Ex} (h : QEx lang false e e') (hs : QEs lang true es es') :
    QEx lang a (callOf f e es) (callOf f e' es') := by
  cases f with
  | none => exact .call h hs
  | some f => exact .builtin f hs

theorem len_es : ∀ (es : Exs) (env : Env) (n : Nat), (eEs S env n es).length = LuaNorm.len es
  | .nil, _, _ => rfl
  | .cons e es, _, _ => by simp only [eEs, List.length_cons, LuaNorm.len, len_es es]

theorem len_ts : ∀ (es : Exs) (env : Env) (n : Nat), (eTs S env n es).length = LuaNorm.len es
  | .nil, _, _ => rfl
  | .cons e es, _, _ => by simp only [eTs, List.length_cons, LuaNorm.len, len_ts es]

theorem qCons {e e' : Core.Ex} {es es' : List Core.Ex} (h1 : QEx lang true e e') (h2 : QEx lang false e e') (h : QEs lang true es es') :
    QEs lang true (e :: es) (e' :: es') := by
  cases h with
  | nil => exact .last h1
  | last h => exact .cons h2 (.last h)
  | cons h h' => exact .cons h2 (.cons h h')

set_option linter.unusedSectionVars false
variable (hr : Reads lang V S N M)
include hr

theorem qSign {a : Bool} (o : Op) {e : Core.Ex} {env : Env} {n : Nat} : ∀ {e' : Ex}, QEx lang false e (eE (S.normal N M) env n e') →
    QEx lang a (match unOp o with | some u => .un u e | none => .op (S.enc (.un o)) false [.group e])
      (eE (S.normal N M) env n (LuaNorm.sign V o e')) := by
  have key : ∀ e' : Ex, QEx lang false e (eE (S.normal N M) env n e') →
      QEx lang a (match unOp o with | some u => .un u e | none => .op (S.enc (.un o)) false [.group e]) (eE (S.normal N M) env n (.un o e')) := by
    intro e' h
    simp only [eE]
    cases unOp o with
    | some u => exact .un u h
    | none => exact .op _ _ (.last (.group h))
  intro e' h
  cases e' <;> simp only [LuaNorm.sign] <;> try exact key _ h
  case num v =>
    by_cases ho : o = .minus ∨ o = .tilde
    · rw [if_pos ho]
      obtain ⟨u, hu⟩ : ∃ u, unOp o = some u := by rcases ho with rfl | rfl <;> exact ⟨_, rfl⟩
      simp only [hu, eE, numeral_normal] at h ⊢
      rcases hr.sgn o u v ho hu with h1 | ⟨c, c', x, r, h1, h2, h3, h4, h5⟩
      · rw [show (S.normal N M).num _ = _ from h1]
        exact .un _ h
      · rw [show (S.normal N M).num _ = _ from h2]
        rw [show (S.normal N M).num _ = _ from h1] at h
        exact .sign u h h3 h4 h5
    · rw [if_neg ho]
      exact key _ h

mutual
theorem qE : ∀ (e : Ex) (a : Bool) (env : Env) (n : Nat), QEx lang a (eE S env n e) (eE (S.normal N M) env n (LuaNorm.nE L V a e))
  | .var x, a, env, n => qName a env x
  | .num s, a, env, n => by
    simp only [LuaNorm.nE, eE, numeral_normal]
    rw [hr.num]
    exact qNumeral a _
  | .str s, a, env, n => by
    simp only [LuaNorm.nE, eE]
    rw [hr.str]
    exact .const a _
  | .cst s, a, env, n => .const a _
  | .vararg, a, env, n => .dots a
  | .func ps b, a, env, n => .func _ _ (qB b _ _)
  | .group e, a, env, n => by
    simp only [LuaNorm.nE, eE]
    split
    · exact .group (qE e _ _ _)
    · rename_i h
      refine .drop (fun ha => ?_) (qE e _ _ _)
      exact multi_norm (by simpa [ha] using h) _ _
  | .un o e, a, env, n => by
    simp only [LuaNorm.nE]
    exact qSign hr o (qE e false env n)
  | .bin o l r, a, env, n => by
    simp only [LuaNorm.nE, eE, opBin_norm, opBin_normal, nsE]
    exact qOpBin o (qE l _ _ _) (qE r _ _ _)
  | .member b x, a, env, n => .op _ _ (.last (.group (qE b _ _ _)))
  | .index b k, a, env, n => by
    simp only [LuaNorm.nE, eE, nsE]
    exact .index (qE b _ _ _) (qE k _ _ _)
  | .call b _ as, a, env, n => by
    simp only [LuaNorm.nE, eE, nsE, builtin_norm]
    exact qCallOf _ (qE b _ _ _) (qEs as _ _ _)
  | .method b x _ as, a, env, n => by
    simp only [LuaNorm.nE, eE, nsE]
    refine .op _ _ ?_
    have h1 := qE b false env n
    have h2 := qEs as true env (n + LuaScope.nE b)
    generalize eEs S env (n + LuaScope.nE b) as = x at h2
    generalize eEs (S.normal N M) env (n + LuaScope.nE b) (LuaNorm.nEs L V true as) = y at h2
    cases x with
    | nil => cases h2; exact .last (.group h1)
    | cons d ds => cases y with
      | nil => cases h2
      | cons d' ds' => exact .cons (.group h1) h2
  | .table its, a, env, n => by
    simp only [LuaNorm.nE, eE, shape_norm]
    exact .op _ _ (qIts its _ _)
theorem qEs : ∀ (es : Exs) (a : Bool) (env : Env) (n : Nat), QEs lang a (eEs S env n es) (eEs (S.normal N M) env n (LuaNorm.nEs L V a es))
  | .nil, a, _, _ => .nil a
  | .cons e .nil, a, env, n => .last (qE e a env n)
  | .cons e (.cons d es), a, env, n => by
    have h := qEs (.cons d es) a env (n + LuaScope.nE e)
    have h1 := qE e false env n
    simp only [LuaNorm.nEs, eEs, nsE] at h ⊢
    cases es <;> simp only [LuaNorm.nEs, eEs] at h ⊢ <;> exact .cons h1 h
theorem qOnes : ∀ (es : Exs) (env : Env) (n : Nat), QEs lang true (eOnes S env n es) (eOnes (S.normal N M) env n (LuaNorm.nEs L V false es))
  | .nil, _, _ => .nil _
  | .cons e .nil, env, n => .last (.group (qE e _ env n))
  | .cons e (.cons d es), env, n => by
    have h := qOnes (.cons d es) env (n + LuaScope.nE e)
    have h1 := qE e false env n
    simp only [LuaNorm.nEs, eOnes, nsE] at h ⊢
    cases es <;> simp only [LuaNorm.nEs, eOnes] at h ⊢ <;> exact .cons (.group h1) h
theorem qIts : ∀ (its : Its) (env : Env) (n : Nat), QEs lang true (eIts S env n its) (eIts (S.normal N M) env n (LuaNorm.nIts L V its))
  | .nil, _, _ => .nil _
  | .pos e .nil, env, n => .last (qE e _ env n)
  | .pos e (.pos d its), env, n => by
    have h := qIts (.pos d its) env (n + LuaScope.nE e)
    have h1 := qE e false env n
    simp only [LuaNorm.nIts, eIts, nsE] at h ⊢
    cases its <;> simp only [LuaNorm.nIts, eIts] at h ⊢ <;> exact .cons h1 h
  | .pos e (.named x d its), env, n => by
    have h := qIts (.named x d its) env (n + LuaScope.nE e)
    have h1 := qE e false env n
    simp only [LuaNorm.nIts, eIts, nsE] at h ⊢
    exact .cons h1 h
  | .pos e (.keyed k d its), env, n => by
    have h := qIts (.keyed k d its) env (n + LuaScope.nE e)
    have h1 := qE e false env n
    simp only [LuaNorm.nIts, eIts, nsE] at h ⊢
    exact .cons h1 h
  | .named x e its, env, n => by
    have h := qIts its env (n + LuaScope.nE e)
    have h1 := qE e false env n
    simp only [LuaNorm.nIts, eIts, nsE]
    exact qCons (.group h1) (.group h1) h
  | .keyed k e its, env, n => by
    have h := qIts its env (n + LuaScope.nE k + LuaScope.nE e)
    have h1 := qE e false env (n + LuaScope.nE k)
    have h2 := qE k false env n
    simp only [LuaNorm.nIts, eIts, nsE]
    have := qCons (.group h1) (.group h1) h
    exact .cons h2 this
theorem qT : ∀ (t : Ex) (env : Env) (n : Nat), QTg lang (eT S env n t) (eT (S.normal N M) env n (LuaNorm.nE L V false t))
  | .var x, env, n => qTarget env x
  | .member b x, env, n => .put _ (.last (.group (qE b _ _ _)))
  | .index b k, env, n => by
    simp only [LuaNorm.nE, eT, nsE]
    exact .put _ (.cons (qE b _ _ _) (.last (.group (qE k _ _ _))))
  | .group e, env, n => by
    simp only [LuaNorm.nE, Bool.false_and, Bool.false_eq_true, if_false, eT]
    exact qT e env n
  | .un o e, env, n => by
    simp only [LuaNorm.nE, eT]
    rw [show eT (S.normal N M) env n (LuaNorm.sign V o (LuaNorm.nE L V false e)) = .put (S.enc .invalid) [] by
      generalize LuaNorm.nE L V false e = e'
      cases e' <;> simp only [LuaNorm.sign]
      case num => split <;> rfl
      all_goals rfl]
    exact .put _ (.nil _)
  | .num _, _, _ | .str _, _, _ | .cst _, _, _ | .vararg, _, _ | .func _ _, _, _ | .bin _ _ _, _, _ | .call _ _ _, _, _ | .method _ _ _ _, _, _
  | .table _, _, _ => .put _ (.nil _)
theorem qTs : ∀ (ts : Exs) (env : Env) (n : Nat), QTs lang (eTs S env n ts) (eTs (S.normal N M) env n (LuaNorm.nEs L V false ts))
  | .nil, _, _ => .nil
  | .cons e .nil, env, n => .cons (qT e env n) .nil
  | .cons e (.cons d es), env, n => by
    have h := qTs (.cons d es) env (n + LuaScope.nE e)
    have h1 := qT e env n
    simp only [LuaNorm.nEs, eTs, nsE] at h ⊢
    exact .cons h1 h
theorem qOp (o : Op) {r r' : Core.Ex} (h : QEx lang false r r') : ∀ (t : Ex) (env : Env) (n : Nat),
    QSt lang (eOp S env n o r t) (eOp (S.normal N M) env n (LuaNorm.oneName o) r' (LuaNorm.nE L V false t))
  | .var x, env, n => by
    simp only [LuaNorm.nE, eOp, opBin_norm, opBin_normal]
    exact .assign (a := false) (fun _ => Nat.le_refl _) (.cons (qTarget env x) .nil) (.last (qOpBin o (qName _ env x) h))
  | .member b x, env, n => by
    simp only [LuaNorm.nE, eOp, binOp_norm]
    exact .assign (a := false) (fun _ => Nat.le_refl _) (.cons (.put _ (.last (.group (qE b _ _ _)))) .nil) (.last h)
  | .index b k, env, n => by
    simp only [LuaNorm.nE, eOp, binOp_norm, nsE]
    exact .assign (a := false) (fun _ => Nat.le_refl _) (.cons (.put _ (.cons (qE b _ _ _) (.last (.group (qE k _ _ _))))) .nil) (.last h)
  | .group e, env, n => by
    simp only [LuaNorm.nE, Bool.false_and, Bool.false_eq_true, if_false, eOp]
    exact qOp o h e env n
  | .un u e, env, n => by
    simp only [LuaNorm.nE, eOp]
    rw [show eOp (S.normal N M) env n (LuaNorm.oneName o) r' (LuaNorm.sign V u (LuaNorm.nE L V false e)) = .assign [.put (S.enc .invalid) []] [r'] by
      generalize LuaNorm.nE L V false e = e'
      cases e' <;> simp only [LuaNorm.sign]
      case num => split <;> rfl
      all_goals rfl]
    exact .assign (a := false) (fun _ => Nat.le_refl _) (.cons (.put _ (.nil _)) .nil) (.last h)
  | .num _, _, _ | .str _, _, _ | .cst _, _, _ | .vararg, _, _ | .func _ _, _, _ | .bin _ _ _, _, _ | .call _ _ _, _, _ | .method _ _ _ _, _, _
  | .table _, _, _ => .assign (a := false) (fun _ => Nat.le_refl _) (.cons (.put _ (.nil _)) .nil) (.last h)
theorem qS : ∀ (s : St) (env : Env) (n : Nat), QSt lang (eS S env n s) (eS (S.normal N M) env n (LuaNorm.nS L V s))
  | .do_ b, env, n => .doB (qB b env n)
  | .if_ (.long c b t), env, n => by
    simp only [LuaNorm.nS, LuaNorm.nI, eS, nsE, nsB]
    exact .ifS (qE c _ _ _) (qB b _ _) (qTail t _ _)
  | .if_ (.short c b _), env, n => by
    simp only [LuaNorm.nS, LuaNorm.nI, eS, eTail, nsE]
    exact .ifS (qE c _ _ _) (qB b _ _) .none
  | .if_ (.shortElse c b d _), env, n => by
    simp only [LuaNorm.nS, LuaNorm.nI, eS, eTail, nsE, nsB]
    exact .ifS (qE c _ _ _) (qB b _ _) (.else_ (qB d _ _))
  | .while_ c b, env, n => by
    simp only [LuaNorm.nS, eS, nsE]
    exact .whileS (qE c _ _ _) (qB b _ _)
  | .whileShort c b _, env, n => by
    simp only [LuaNorm.nS, eS, nsE]
    exact .whileS (qE c _ _ _) (qB b _ _)
  | .repeat_ b c, env, n => by
    simp only [LuaNorm.nS, eS, nsB, atEnd_norm]
    exact .repeatS (qB b _ _) (qE c _ _ _)
  | .fornum x a b c d, env, n => by
    simp only [LuaNorm.nS, eS, nsE, nsEs]
    have h := qOnes c env (n + 1 + LuaScope.nE a + LuaScope.nE b)
    exact .forNum _ (.cons (.group (qE a _ _ _)) (qCons (.group (qE b false _ _)) (.group (qE b false _ _)) h)) (qB d _ _)
  | .forin xs es d, env, n => by
    simp only [LuaNorm.nS, eS, nsEs]
    refine .forIn (a := decide (LuaNorm.len es < LuaNorm.forValues L)) _ (fun ha => ?_) (qEs es _ _ _) (qB d _ _)
    rw [len_es]
    simp only [decide_eq_false_iff_not] at ha
    cases L <;> simp only [LuaNorm.forValues] at ha <;> omega
  | .break_, _, _ => .brk
  | .return_ es, env, n => .ret (qEs es _ _ _)
  | .local_ xs es, env, n => by
    simp only [LuaNorm.nS, eS]
    refine .locals (a := decide (LuaNorm.len es < xs.length)) (fun ha => ?_) (qEs es _ _ _)
    simpa [len_es] using ha
  | .localfn x ps b, env, n => .localFn _ _ _ (qB b _ _)
  | .goto_ _, _, _ => .eval (.op _ _ (.nil _))
  | .label _, _, _ => .eval (.op _ _ (.nil _))
  | .func f ps b, env, n => by
    simp only [LuaNorm.nS, eS, fnTarget_normal]
    exact .assign (a := false) (fun _ => Nat.le_refl _) (.cons (qFnTarget env f) .nil) (.last (.func _ _ (qB b _ _)))
  | .assign ts es, env, n => by
    simp only [LuaNorm.nS, eS, nsEs]
    refine .assign (a := decide (LuaNorm.len es < LuaNorm.len ts)) (fun ha => ?_) (qTs ts _ _) (qEs es _ _ _)
    simpa [len_es, len_ts] using ha
  | .opassign o t e, env, n => by
    simp only [LuaNorm.nS, eS, nsE]
    exact qOp o (qE e _ _ _) t env n
  | .call e, env, n => .eval (qE e _ _ _)
  | .print es, env, n => .eval (qCallOf _ (qName _ env _) (qEs es _ _ _))
theorem qTail : ∀ (t : Tail) (env : Env) (n : Nat), QEl lang (eTail S env n t) (eTail (S.normal N M) env n (LuaNorm.nT L V t))
  | .end_, _, _ => .none
  | .else_ b, env, n => .else_ (qB b env n)
  | .elseif_ (.long c b t), env, n => by
    simp only [LuaNorm.nT, LuaNorm.nI, eTail, nsE, nsB]
    exact .elseif (qE c _ _ _) (qB b _ _) (qTail t _ _)
  | .elseif_ (.short c b _), env, n => by
    simp only [LuaNorm.nT, LuaNorm.nI, eTail, nsE]
    exact .elseif (qE c _ _ _) (qB b _ _) .none
  | .elseif_ (.shortElse c b d _), env, n => by
    simp only [LuaNorm.nT, LuaNorm.nI, eTail, nsE, nsB]
    exact .elseif (qE c _ _ _) (qB b _ _) (.else_ (qB d _ _))
theorem qB : ∀ (b : Block) (env : Env) (n : Nat), QBl lang (eB S env n b) (eB (S.normal N M) env n (LuaNorm.nB L V b))
  | .nil, _, _ => .nil
  | .semi b, env, n => qB b env n
  | .cons s b, env, n => by
    simp only [LuaNorm.nB, eB, nsS, after_norm]
    exact .cons (qS s _ _) (qB b _ _)
end

end

end Verif.Elab
