import Verif.Spec.LuaElab
import Verif.RenameTree
import Mathlib.Data.List.Forall2
/-
Helpers for C76: renaming does not change the program a tree stands for.
-/
namespace Verif.Elab
open Syntax
open LuaScope (Env Occ look occ bind binds named methodParams after atEnd isEnv envs keys oE oEs oSrc oIts oS oI oT oB)
open Resolve (sE sEs sIts sS sI sT sB sNs sPs sXs sFn)
open Paren (Op)

/-! ### What stays -/

theorem named_s : ∀ (ps : List Param) (ns : List Nm), (named (sPs ns ps)).length = (named ps).length
  | [], _ => rfl
  | none :: ps, ns => by simpa [sPs, named] using named_s ps ns
  | some x :: ps, ns => by simpa [sPs, named] using named_s ps ns.tail

theorem isVar_s : ∀ (ps : List Param) (ns : List Nm), isVar (sPs ns ps) = isVar ps
  | [], _ => rfl
  | none :: ps, ns => by simp [sPs, isVar]
  | some x :: ps, ns => by simpa [sPs, isVar] using isVar_s ps ns.tail

theorem length_sNs : ∀ (xs : List Nm) (ns : List Nm), (sNs ns xs).length = xs.length
  | [], _ => rfl
  | x :: xs, ns => by simp [sNs, length_sNs xs]

theorem length_sXs : ∀ (xs : List (Nm × Option Nm)) (ns : List Nm), (sXs ns xs).length = xs.length
  | [], _ => rfl
  | x :: xs, ns => by simp [sXs, length_sXs xs]

theorem params_s (f : FnName) (ps : List Param) (ns ms : List Nm) : (methodParams (sFn ns f) (sPs ms ps)).length = (methodParams f ps).length := by
  simp only [methodParams, sFn, List.length_append, named_s]
  cases f.meth <;> rfl

theorem length_binds : ∀ (xs : List Nm) (n : Nat), (binds n xs).length = xs.length
  | [], _ => rfl
  | x :: xs, n => by simp [binds, length_binds xs]

theorem length_keys (f : Bool) : ∀ xs : List Nm, (keys f xs).length = xs.length
  | [] => rfl
  | x :: xs => by simp [keys]

mutual
theorem mE : ∀ (e : Ex) (ns : List Nm), LuaScope.nE (sE ns e) = LuaScope.nE e
  | .var _, _ | .num _, _ | .str _, _ | .cst _, _ | .vararg, _ => rfl
  | .func ps b, ns => by simp only [sE, LuaScope.nE, named_s, mB b]
  | .group e, ns => by simp only [sE, LuaScope.nE, mE e]
  | .un o e, ns => by simp only [sE, LuaScope.nE, mE e]
  | .bin o l r, ns => by simp only [sE, LuaScope.nE, mE l, mE r]
  | .member b x, ns => by simp only [sE, LuaScope.nE, mE b]
  | .index b k, ns => by simp only [sE, LuaScope.nE, mE b, mE k]
  | .call b _ as, ns => by simp only [sE, LuaScope.nE, mE b, mEs as]
  | .method b x _ as, ns => by simp only [sE, LuaScope.nE, mE b, mEs as]
  | .table its, ns => by simp only [sE, LuaScope.nE, mIts its]
theorem mEs : ∀ (es : Exs) (ns : List Nm), LuaScope.nEs (sEs ns es) = LuaScope.nEs es
  | .nil, _ => rfl
  | .cons e es, ns => by simp only [sEs, LuaScope.nEs, mE e, mEs es]
theorem mIts : ∀ (its : Its) (ns : List Nm), LuaScope.nIts (sIts ns its) = LuaScope.nIts its
  | .nil, _ => rfl
  | .pos e its, ns => by simp only [sIts, LuaScope.nIts, mE e, mIts its]
  | .named x e its, ns => by simp only [sIts, LuaScope.nIts, mE e, mIts its]
  | .keyed k e its, ns => by simp only [sIts, LuaScope.nIts, mE k, mE e, mIts its]
theorem mS : ∀ (s : St) (ns : List Nm), LuaScope.nS (sS ns s) = LuaScope.nS s
  | .do_ b, ns => by simp only [sS, LuaScope.nS, mB b]
  | .if_ i, ns => by simp only [sS, LuaScope.nS, mI i]
  | .while_ c b, ns => by simp only [sS, LuaScope.nS, mE c, mB b]
  | .whileShort c b _, ns => by simp only [sS, LuaScope.nS, mE c, mB b]
  | .repeat_ b c, ns => by simp only [sS, LuaScope.nS, mE c, mB b]
  | .fornum x a b c d, ns => by simp only [sS, LuaScope.nS, mE a, mE b, mEs c, mB d]
  | .forin xs es d, ns => by simp only [sS, LuaScope.nS, length_sNs, mEs es, mB d]
  | .break_, _ => rfl
  | .return_ es, ns => by simp only [sS, LuaScope.nS, mEs es]
  | .local_ xs es, ns => by simp only [sS, LuaScope.nS, length_sXs, mEs es]
  | .localfn _ ps b, ns => by simp only [sS, LuaScope.nS, named_s, mB b]
  | .goto_ _, _ => rfl
  | .label _, _ => rfl
  | .func f ps b, ns => by simp only [sS, LuaScope.nS, params_s, mB b]
  | .assign ts es, ns => by simp only [sS, LuaScope.nS, mEs ts, mEs es]
  | .opassign _ t e, ns => by simp only [sS, LuaScope.nS, mE t, mE e]
  | .call e, ns => by simp only [sS, LuaScope.nS, mE e]
  | .print es, ns => by simp only [sS, LuaScope.nS, mEs es]
theorem mI : ∀ (i : If) (ns : List Nm), LuaScope.nI (sI ns i) = LuaScope.nI i
  | .long c b t, ns => by simp only [sI, LuaScope.nI, mE c, mB b, mT t]
  | .short c b _, ns => by simp only [sI, LuaScope.nI, mE c, mB b]
  | .shortElse c b d _, ns => by simp only [sI, LuaScope.nI, mE c, mB b, mB d]
theorem mT : ∀ (t : Tail) (ns : List Nm), LuaScope.nT (sT ns t) = LuaScope.nT t
  | .end_, _ => rfl
  | .else_ b, ns => by simp only [sT, LuaScope.nT, mB b]
  | .elseif_ i, ns => by simp only [sT, LuaScope.nT, mI i]
theorem mB : ∀ (b : Block) (ns : List Nm), LuaScope.nB (sB ns b) = LuaScope.nB b
  | .nil, _ => rfl
  | .semi b, ns => by simp only [sB, LuaScope.nB, mB b]
  | .cons s b, ns => by simp only [sB, LuaScope.nB, mS s, mB b]
end

/-! ### The number of occurrences -/

/-- The occurrences of names in an expression that is assigned to `_ENV`, or not. -/
def oF (env : Env) (n : Nat) (f : Bool) : Ex → List Occ
  | .table its => oIts env n f its
  | e => oE env n e

theorem oF_false (env : Env) (n : Nat) (e : Ex) : oF env n false e = oE env n e := by cases e <;> rfl
theorem oSrc_cons (env : Env) (n : Nat) (fs : List Bool) (e : Ex) (es : Exs) :
    oSrc env n fs (.cons e es) = oF env n (fs.headD false) e ++ oSrc env (n + LuaScope.nE e) fs.tail es := by cases e <;> rfl

theorem add2 {a a' b b' : Nat} (h1 : a = a') (h2 : b = b') : a + b = a' + b' := by rw [h1, h2]

/-- The number of occurrences. -/
abbrev Len (l l' : List Occ) : Prop := l.length = l'.length

theorem Len.app {a a' b b' : List Occ} (h1 : Len a a') (h2 : Len b b') : Len (a ++ b) (a' ++ b') := by
  simp only [Len, List.length_append] at *; rw [h1, h2]
theorem Len.cons {a a' : List Occ} {o o' : Occ} (h : Len a a') : Len (o :: a) (o' :: a') := by
  simp only [Len, List.length_cons] at *; rw [h]
theorem Len.binds {xs ys : List Nm} {n m : Nat} (h : xs.length = ys.length) : Len (LuaScope.binds n xs) (LuaScope.binds m ys) := by
  simp only [Len, length_binds, h]

mutual
theorem lE : ∀ (e : Ex) (env env' : Env) (n m : Nat) (f g : Bool) (ns : List Nm), Len (oF env n f e) (oF env' m g (sE ns e))
  | .var _, _, _, _, _, _, _, _ | .num _, _, _, _, _, _, _, _ | .str _, _, _, _, _, _, _, _ | .cst _, _, _, _, _, _, _, _
  | .vararg, _, _, _, _, _, _, _ => rfl
  | .func ps b, _, _, _, _, _, _, _ => (Len.binds (named_s ..).symm).app (lB b ..)
  | .group e, _, _, _, _, _, _, _ => lP e ..
  | .un _ e, _, _, _, _, _, _, _ => lP e ..
  | .bin _ l r, _, _, _, _, _, _, _ => (lP l ..).app (lP r ..)
  | .member b x, _, _, _, _, _, _, _ => (lP b ..).app rfl
  | .index b k, _, _, _, _, _, _, _ => (lP b ..).app (lP k ..)
  | .call b _ as, _, _, _, _, _, _, _ => (lP b ..).app (lEs as ..)
  | .method b x _ as, _, _, _, _, _, _, _ => (lP b ..).app (lEs as ..).cons
  | .table its, _, _, _, _, _, _, _ => lIts its ..
theorem lP (e : Ex) (env env' : Env) (n m : Nat) (ns : List Nm) : Len (oE env n e) (oE env' m (sE ns e)) := by
  rw [← oF_false, ← oF_false]
  exact lE e ..
theorem lEs : ∀ (es : Exs) (env env' : Env) (n m : Nat) (ns : List Nm), Len (oEs env n es) (oEs env' m (sEs ns es))
  | .nil, _, _, _, _, _ => rfl
  | .cons e es, _, _, _, _, _ => (lP e ..).app (lEs es ..)
theorem lSrc : ∀ (es : Exs) (env env' : Env) (n m : Nat) (fs gs : List Bool) (ns : List Nm), Len (oSrc env n fs es) (oSrc env' m gs (sEs ns es))
  | .nil, _, _, _, _, _, _, _ => rfl
  | .cons e es, _, _, _, _, _, _, _ => by
    rw [sEs, oSrc_cons, oSrc_cons]
    exact (lE e ..).app (lSrc es ..)
theorem lIts : ∀ (its : Its) (env env' : Env) (n m : Nat) (f g : Bool) (ns : List Nm), Len (oIts env n f its) (oIts env' m g (sIts ns its))
  | .nil, _, _, _, _, _, _, _ => rfl
  | .pos e its, _, _, _, _, _, _, _ => (lP e ..).app (lIts its ..)
  | .named x e its, _, _, _, _, _, _, _ => ((lP e ..).app (lIts its ..)).cons
  | .keyed k e its, _, _, _, _, _, _, _ => (lP k ..).app ((lP e ..).app (lIts its ..))
theorem lS : ∀ (s : St) (env env' : Env) (n m : Nat) (ns : List Nm), Len (oS env n s) (oS env' m (sS ns s))
  | .do_ b, _, _, _, _, _ => lB b ..
  | .if_ i, _, _, _, _, _ => lI i ..
  | .while_ c b, _, _, _, _, _ => (lP c ..).app (lB b ..)
  | .whileShort c b _, _, _, _, _, _ => (lP c ..).app (lB b ..)
  | .repeat_ b c, _, _, _, _, _ => (lB b ..).app (lP c ..)
  | .fornum x a b c d, _, _, _, _, _ => ((lP a ..).app ((lP b ..).app ((lEs c ..).app (lB d ..)))).cons
  | .forin xs es d, _, _, _, _, _ => (Len.binds (length_sNs ..).symm).app ((lEs es ..).app (lB d ..))
  | .break_, _, _, _, _, _ => rfl
  | .return_ es, _, _, _, _, _ => lEs es ..
  | .local_ xs es, _, _, _, _, _ => (Len.binds (by simp only [List.length_map, length_sXs])).app (lSrc es ..)
  | .localfn _ ps b, _, _, _, _, _ => ((Len.binds (named_s ..).symm).app (lB b ..)).cons
  | .goto_ _, _, _, _, _, _ => rfl
  | .label _, _, _, _, _, _ => rfl
  | .func f ps b, _, _, _, _, _ => by
    refine Len.cons (Len.app ?_ ((Len.binds (params_s ..).symm).app (lB b ..)))
    simp only [Len, length_keys, sFn, List.length_append, length_sNs]
    cases f.meth <;> rfl
  | .assign ts es, _, _, _, _, _ => (lEs ts ..).app (lSrc es ..)
  | .opassign _ t e, _, _, _, _, _ => (lP t ..).app (lP e ..)
  | .call e, _, _, _, _, _ => lP e ..
  | .print es, _, _, _, _, _ => (lEs es ..).app rfl
theorem lI : ∀ (i : If) (env env' : Env) (n m : Nat) (ns : List Nm), Len (oI env n i) (oI env' m (sI ns i))
  | .long c b t, _, _, _, _, _ => (lP c ..).app ((lB b ..).app (lT t ..))
  | .short c b _, _, _, _, _, _ => (lP c ..).app (lB b ..)
  | .shortElse c b d _, _, _, _, _, _ => (lP c ..).app ((lB b ..).app (lB d ..))
theorem lT : ∀ (t : Tail) (env env' : Env) (n m : Nat) (ns : List Nm), Len (oT env n t) (oT env' m (sT ns t))
  | .end_, _, _, _, _, _ => rfl
  | .else_ b, _, _, _, _, _ => lB b ..
  | .elseif_ i, _, _, _, _, _ => lI i ..
theorem lB : ∀ (b : Block) (env env' : Env) (n m : Nat) (ns : List Nm), Len (oB env n b) (oB env' m (sB ns b))
  | .nil, _, _, _, _, _ => rfl
  | .semi b, _, _, _, _, _ => lB b ..
  | .cons s b, _, _, _, _, _ => (lS s ..).app (lB b ..)
end

/-! ### The same program -/

/-- A world as before, except that globals and keys have the names that `ρ` and `μ` say.  `G` and `K` are the globals and keys that occur. -/
structure Carries (G K : Nm → Prop) (ρ μ : Nm → Nm) (S S' : Sem) : Prop where
  num : S'.num = S.num
  str : S'.str = S.str
  given : S'.given = S.given
  builtin : ∀ x, G x → S'.builtin (ρ x) = S.builtin x
  glob : ∀ x, G x → S'.enc (.global (ρ x)) = S.enc (.global x)
  member : ∀ x, K x → S'.enc (.member (μ x)) = S.enc (.member x)
  method : ∀ x, K x → S'.enc (.method (μ x)) = S.enc (.method x)
  opMember : ∀ o x, K x → S'.enc (.opMember o (μ x)) = S.enc (.opMember o x)
  table : ∀ its, (∀ x, some (some x) ∈ its → K x) → S'.enc (.table (its.map (Option.map (Option.map μ)))) = S.enc (.table its)
  gvn : ∀ n, S'.enc (.given n) = S.enc (.given n)
  elem : S'.enc .elem = S.enc .elem
  un : ∀ o, S'.enc (.un o) = S.enc (.un o)
  bin : ∀ o, S'.enc (.bin o) = S.enc (.bin o)
  opElem : ∀ o, S'.enc (.opElem o) = S.enc (.opElem o)
  number : ∀ s, S'.enc (.number s) = S.enc (.number s)
  invalid : S'.enc .invalid = S.enc .invalid

/-- The same occurrence in a program without `_ENV` and labels. -/
inductive PSame (G K : Nm → Prop) (ρ μ : Nm → Nm) : Occ → Occ → Prop
  | bind {n} : PSame G K ρ μ (.bind n) (.bind n)
  | loc {n} : PSame G K ρ μ (.loc n) (.loc n)
  | glob {x} : G x → PSame G K ρ μ (.glob x (some 0)) (.glob (ρ x) (some 0))
  | key {x} : K x → PSame G K ρ μ (.key x false) (.key (μ x) false)

theorem split2 {R : Occ → Occ → Prop} : ∀ {a a' b b' : List Occ}, Len a a' → List.Forall₂ R (a ++ b) (a' ++ b') → List.Forall₂ R a a' ∧ List.Forall₂ R b b'
  | [], [], _, _, _, h => ⟨.nil, h⟩
  | [], _ :: _, _, _, hl, _ => by cases hl
  | _ :: _, [], _, _, hl, _ => by cases hl
  | x :: a, x' :: a', b, b', hl, h => by
    cases h with
    | cons h1 h2 =>
      have := split2 (a := a) (a' := a') (Nat.succ.inj hl) h2
      exact ⟨.cons h1 this.1, this.2⟩

section
variable {G K : Nm → Prop} {ρ μ : Nm → Nm} {S S' : Sem} (hc : Carries G K ρ μ S S') (hg : 0 < S.given)
include hc hg

/-- The occurrences are the same. -/
local notation "PS" => List.Forall₂ (PSame G K ρ μ)

omit hg in
theorem rNumeral : ∀ n, numeral S' n = numeral S n
  | .lit _ => rfl
  | .prim s => by simp only [numeral, hc.number]
  | .sgn u n => by simp only [numeral, rNumeral n]

theorem rName {env env' : Env} {x x' : Nm} (h : PSame G K ρ μ (occ env x) (occ env' x')) : name S' env' x' = name S env x := by
  simp only [occ] at h
  generalize h3 : look env (nm "_ENV") = a at h
  generalize h4 : look env' (nm "_ENV") = a' at h
  cases h1 : look env x with
  | some n =>
    rw [h1] at h
    cases h2 : look env' x' with
    | some m => rw [h2] at h; cases h; simp only [name, h1, h2, ref, hc.given, hc.gvn]
    | none => rw [h2] at h; cases h
  | none =>
    rw [h1] at h
    cases h2 : look env' x' with
    | some m => rw [h2] at h; cases h
    | none =>
      rw [h2] at h
      cases h with
      | glob hx => simp only [name, h1, h2, global, h3, h4, hc.given, if_pos hg, hc.glob x hx]

theorem rTarget {env env' : Env} {x x' : Nm} (h : PSame G K ρ μ (occ env x) (occ env' x')) : target S' env' x' = target S env x := by
  simp only [occ] at h
  generalize h3 : look env (nm "_ENV") = a at h
  generalize h4 : look env' (nm "_ENV") = a' at h
  cases h1 : look env x with
  | some n =>
    rw [h1] at h
    cases h2 : look env' x' with
    | some m => rw [h2] at h; cases h; simp only [target, h1, h2, hc.given, hc.gvn]
    | none => rw [h2] at h; cases h
  | none =>
    rw [h1] at h
    cases h2 : look env' x' with
    | some m => rw [h2] at h; cases h
    | none =>
      rw [h2] at h
      cases h with
      | glob hx => simp only [target, h1, h2, h3, h4, hc.given, if_pos hg, hc.glob x hx]

theorem rBuiltinVar {env env' : Env} {x x' : Nm} (h : PSame G K ρ μ (occ env x) (occ env' x')) :
    builtinOf S' env' (.var x') = builtinOf S env (.var x) := by
  simp only [occ] at h
  generalize h3 : look env (nm "_ENV") = a at h
  generalize h4 : look env' (nm "_ENV") = a' at h
  cases h1 : look env x with
  | some n =>
    rw [h1] at h
    cases h2 : look env' x' with
    | some m => simp only [builtinOf, h1, h2, reduceCtorEq, false_and, if_false]
    | none => rw [h2] at h; cases h
  | none =>
    rw [h1] at h
    cases h2 : look env' x' with
    | some m => rw [h2] at h; cases h
    | none =>
      rw [h2] at h
      cases h with
      | glob hx => simp only [builtinOf, h1, h2, ownEnv, h3, h4, hc.given, decide_eq_true hg, and_self, if_true, hc.builtin x hx]

theorem rBuiltin {env env' : Env} (n : Nat) : ∀ (e : Ex) (ns : List Nm), PS (oE env n e) (oE env' n (sE ns e)) →
    builtinOf S' env' (sE ns e) = builtinOf S env e
  | .var x, ns, h => by cases h with | cons h _ => exact rBuiltinVar hc hg h
  | .group e, ns, h => rBuiltin n e ns h
  | .un _ _, _, _ | .num _, _, _ | .str _, _, _ | .cst _, _, _ | .vararg, _, _ | .func _ _, _, _ | .bin _ _ _, _, _ | .member _ _, _, _
  | .index _ _, _, _ | .call _ _ _, _, _ | .method _ _ _ _, _, _ | .table _, _, _ => rfl

omit hg in
theorem rOpBin (o : Op) (l r : Core.Ex) : opBin S' o l r = opBin S o l r := by
  simp only [opBin]
  split
  · rfl
  · rw [hc.bin]

omit hg in
theorem rChain : ∀ (xs : List Nm) (e : Core.Ex), (∀ x ∈ xs, K x) → chain S' e (xs.map μ) = chain S e xs
  | [], _, _ => rfl
  | x :: xs, e, h => by
    simp only [List.map_cons, chain]
    rw [hc.member x (h x (by simp)), rChain xs _ fun y hy => h y (by simp [hy])]

omit hc hg in
theorem keys_map (f g : Bool) : ∀ {xs ys : List Nm}, PS (keys f xs) (keys g ys) → ys = xs.map μ ∧ ∀ x ∈ xs, K x
  | [], [], _ => ⟨rfl, by simp⟩
  | [], _ :: _, h => by cases h
  | _ :: _, [], h => by cases h
  | x :: xs, y :: ys, h => by
    cases h with
    | cons h1 h2 =>
      have : ys = xs.map μ ∧ ∀ x ∈ xs, K x := by
        clear h1
        induction xs generalizing ys with
        | nil => cases ys with
          | nil => exact ⟨rfl, by simp⟩
          | cons => cases h2
        | cons a xs ih => cases ys with
          | nil => cases h2
          | cons b ys =>
            cases h2 with
            | cons h3 h4 =>
              obtain ⟨h5, h6⟩ := ih _ h4
              cases h3 with
              | key hk => exact ⟨by rw [h5]; rfl, by simpa using ⟨hk, h6⟩⟩
      cases h1 with
      | key hk => exact ⟨by rw [this.1]; rfl, by simpa using ⟨hk, this.2⟩⟩

theorem rFnTarget {env env' : Env} {f f' : FnName} {i j : Bool} (h : PSame G K ρ μ (occ env f.base) (occ env' f'.base))
    (hk : PS (keys i (f.keys ++ f.meth.toList)) (keys j (f'.keys ++ f'.meth.toList))) : fnTarget S' env' f' = fnTarget S env f := by
  obtain ⟨e, hk⟩ := keys_map _ _ hk
  simp only [fnTarget, e, ← List.map_reverse]
  have hk' : ∀ x ∈ (f.keys ++ f.meth.toList).reverse, K x := fun x hx => hk x (List.mem_reverse.mp hx)
  generalize (f.keys ++ f.meth.toList).reverse = l at hk'
  cases l with
  | nil => exact rTarget hc hg h
  | cons x xs =>
    simp only [List.map_cons]
    rw [hc.member x (hk' x (by simp)), rName hc hg h, ← List.map_reverse, rChain hc _ _ fun y hy => hk' y (by simp at hy; simp [hy])]

omit hc hg in
theorem shape_s : ∀ (its : Its) {env env' : Env} {n : Nat} {f g : Bool} (ns : List Nm), PS (oIts env n f its) (oIts env' n g (sIts ns its)) →
    shape (sIts ns its) = (shape its).map (Option.map (Option.map μ)) ∧ ∀ x, some (some x) ∈ shape its → K x
  | .nil, _, _, _, _, _, _, _ => ⟨rfl, by simp [shape]⟩
  | .pos e its, env, env', n, f, g, ns, h => by
    have h2 := (split2 (lP e ..) h).2
    rw [mE] at h2
    obtain ⟨h3, h4⟩ := shape_s its _ h2
    exact ⟨by simp [sIts, shape, h3], fun x hx => h4 x (by simpa [shape] using hx)⟩
  | .named x e its, env, env', n, f, g, ns, h => by
    cases h with
    | cons h1 h2 =>
      have h2 := (split2 (lP e ..) h2).2
      rw [mE] at h2
      obtain ⟨h3, h4⟩ := shape_s its _ h2
      generalize hn : ns.headD x = y at h1
      cases h1 with
      | key hk =>
        refine ⟨by simp only [sIts, shape, h3, hn, List.map_cons, Option.map_some], fun z hz => ?_⟩
        simp only [shape, List.mem_cons, Option.some.injEq] at hz
        rcases hz with rfl | hz
        · exact hk
        · exact h4 z hz
  | .keyed k e its, env, env', n, f, g, ns, h => by
    have h2 := (split2 (lP e ..) (split2 (lP k ..) h).2).2
    rw [mE, mE] at h2
    obtain ⟨h3, h4⟩ := shape_s its _ h2
    exact ⟨by simp only [sIts, shape, h3, List.map_cons, Option.map_some, Option.map_none], fun x hx => h4 x (by simpa [shape] using hx)⟩

omit hc hg in
theorem toF {e e' : Ex} {env env' : Env} {n : Nat} (h : PS (oE env n e) (oE env' n e')) : PS (oF env n false e) (oF env' n false e') := by
  rw [oF_false, oF_false]
  exact h

mutual
theorem rE : ∀ (e : Ex) {env env' : Env} {n : Nat} {f g : Bool} (ns : List Nm), PS (oF env n f e) (oF env' n g (sE ns e)) →
    eE S' env' n (sE ns e) = eE S env n e
  | .var x, _, _, _, _, _, _, h => by cases h with | cons h _ => exact rName hc hg h
  | .num s, _, _, _, _, _, _, h => by simp only [sE, eE, hc.num, rNumeral hc]
  | .str s, _, _, _, _, _, _, h => by simp only [sE, eE, hc.str]
  | .cst _, _, _, _, _, _, _, h | .vararg, _, _, _, _, _, _, h => rfl
  | .func ps b, env, env', n, _, _, ns, h => by
    have h2 := (split2 (Len.binds (named_s ..).symm) h).2
    simp only [sE, eE, named_s, isVar_s] at h2 ⊢
    rw [rB b _ h2]
  | .group e, _, _, _, _, _, ns, h => congrArg Core.Ex.group (rE e ns (toF h))
  | .un o e, _, _, _, _, _, ns, h => by
    have := rE e ns (toF h)
    simp only [sE, eE, this, hc.un]
  | .bin o l r, _, _, _, _, _, ns, h => by
    obtain ⟨h1, h2⟩ := split2 (lP l ..) h
    rw [mE] at h2
    simp only [sE, eE, mE, rE l _ (toF h1), rE r _ (toF h2), rOpBin hc]
  | .member b x, _, _, _, _, _, ns, h => by
    obtain ⟨h1, h2⟩ := split2 (lP b ..) h
    cases h2 with
    | cons h2 _ =>
      simp only [sE, eE, rE b _ (toF h1)]
      generalize (ns.drop (Resolve.takes (Resolve.evE b))).headD x = y at h2 ⊢
      generalize isEnv b = i at h2
      generalize isEnv (sE ns b) = j at h2
      cases h2 with
      | key hk => rw [hc.member x hk]
  | .index b k, _, _, _, _, _, ns, h => by
    obtain ⟨h1, h2⟩ := split2 (lP b ..) h
    rw [mE] at h2
    simp only [sE, eE, mE, rE b _ (toF h1), rE k _ (toF h2)]
  | .call b _ as, _, _, _, _, _, ns, h => by
    obtain ⟨h1, h2⟩ := split2 (lP b ..) h
    rw [mE] at h2
    simp only [sE, eE, mE, rE b _ (toF h1), rEs as _ h2, rBuiltin hc hg _ b _ h1]
  | .method b x _ as, _, _, _, _, _, ns, h => by
    obtain ⟨h1, h2⟩ := split2 (lP b ..) h
    cases h2 with
    | cons h2 h3 =>
      rw [mE] at h3
      simp only [sE, eE, mE, rE b _ (toF h1), rEs as _ h3]
      generalize (ns.drop (Resolve.takes (Resolve.evE b))).headD x = y at h2 ⊢
      generalize isEnv b = i at h2
      generalize isEnv (sE ns b) = j at h2
      cases h2 with
      | key hk => rw [hc.method x hk]
  | .table its, _, _, _, _, _, ns, h => by
    have hs := shape_s its _ h
    simp only [sE, eE, hs.1, hc.table _ hs.2, rIts its _ h]
theorem rEs : ∀ (es : Exs) {env env' : Env} {n : Nat} (ns : List Nm), PS (oEs env n es) (oEs env' n (sEs ns es)) →
    eEs S' env' n (sEs ns es) = eEs S env n es
  | .nil, _, _, _, _, _ => rfl
  | .cons e es, _, _, _, _, h => by
    obtain ⟨h1, h2⟩ := split2 (lP e ..) h
    rw [mE] at h2
    simp only [sEs, eEs, mE, rE e _ (toF h1), rEs es _ h2]
theorem rSrc : ∀ (es : Exs) {env env' : Env} {n : Nat} {fs gs : List Bool} (ns : List Nm), PS (oSrc env n fs es) (oSrc env' n gs (sEs ns es)) →
    eEs S' env' n (sEs ns es) = eEs S env n es
  | .nil, _, _, _, _, _, _, _ => rfl
  | .cons e es, _, _, _, _, _, _, h => by
    rw [sEs, oSrc_cons, oSrc_cons] at h
    obtain ⟨h1, h2⟩ := split2 (lE e ..) h
    rw [mE] at h2
    simp only [sEs, eEs, mE, rE e _ h1, rSrc es _ h2]
theorem rOnes : ∀ (es : Exs) {env env' : Env} {n : Nat} (ns : List Nm), PS (oEs env n es) (oEs env' n (sEs ns es)) →
    eOnes S' env' n (sEs ns es) = eOnes S env n es
  | .nil, _, _, _, _, _ => rfl
  | .cons e es, _, _, _, _, h => by
    obtain ⟨h1, h2⟩ := split2 (lP e ..) h
    rw [mE] at h2
    simp only [sEs, eOnes, mE, rE e _ (toF h1), rOnes es _ h2]
theorem rIts : ∀ (its : Its) {env env' : Env} {n : Nat} {f g : Bool} (ns : List Nm), PS (oIts env n f its) (oIts env' n g (sIts ns its)) →
    eIts S' env' n (sIts ns its) = eIts S env n its
  | .nil, _, _, _, _, _, _, _ => rfl
  | .pos e its, _, _, _, _, _, _, h => by
    obtain ⟨h1, h2⟩ := split2 (lP e ..) h
    rw [mE] at h2
    simp only [sIts, eIts, mE, rE e _ (toF h1), rIts its _ h2]
  | .named x e its, _, _, _, _, _, _, h => by
    cases h with
    | cons _ h =>
      obtain ⟨h1, h2⟩ := split2 (lP e ..) h
      rw [mE] at h2
      simp only [sIts, eIts, mE, rE e _ (toF h1), rIts its _ h2]
  | .keyed k e its, _, _, _, _, _, _, h => by
    obtain ⟨h1, h2⟩ := split2 (lP k ..) h
    obtain ⟨h2, h3⟩ := split2 (lP e ..) h2
    rw [mE] at h2
    rw [mE, mE] at h3
    simp only [sIts, eIts, mE, rE k _ (toF h1), rE e _ (toF h2), rIts its _ h3]
theorem rT : ∀ (t : Ex) {env env' : Env} {n : Nat} (ns : List Nm), PS (oE env n t) (oE env' n (sE ns t)) →
    eT S' env' n (sE ns t) = eT S env n t
  | .var x, _, _, _, _, h => by cases h with | cons h _ => exact rTarget hc hg h
  | .member b x, _, _, _, ns, h => by
    obtain ⟨h1, h2⟩ := split2 (lP b ..) h
    cases h2 with
    | cons h2 _ =>
      simp only [sE, eT, rE b _ (toF h1)]
      generalize (ns.drop (Resolve.takes (Resolve.evE b))).headD x = y at h2 ⊢
      generalize isEnv b = i at h2
      generalize isEnv (sE ns b) = j at h2
      cases h2 with
      | key hk => rw [hc.member x hk]
  | .index b k, _, _, _, ns, h => by
    obtain ⟨h1, h2⟩ := split2 (lP b ..) h
    rw [mE] at h2
    simp only [sE, eT, mE, rE b _ (toF h1), rE k _ (toF h2), hc.elem]
  | .group e, _, _, _, ns, h => rT e ns h
  | .un _ _, _, _, _, _, _ | .num _, _, _, _, _, _ | .str _, _, _, _, _, _ | .cst _, _, _, _, _, _ | .vararg, _, _, _, _, _ | .func _ _, _, _, _, _, _
  | .bin _ _ _, _, _, _, _, _ | .call _ _ _, _, _, _, _, _ | .method _ _ _ _, _, _, _, _, _ | .table _, _, _, _, _, _ => by simp only [sE, eT, hc.invalid]
theorem rTs : ∀ (ts : Exs) {env env' : Env} {n : Nat} (ns : List Nm), PS (oEs env n ts) (oEs env' n (sEs ns ts)) →
    eTs S' env' n (sEs ns ts) = eTs S env n ts
  | .nil, _, _, _, _, _ => rfl
  | .cons e es, _, _, _, _, h => by
    obtain ⟨h1, h2⟩ := split2 (lP e ..) h
    rw [mE] at h2
    simp only [sEs, eTs, mE, rT e _ h1, rTs es _ h2]
theorem rOp (o : Op) (r : Core.Ex) : ∀ (t : Ex) {env env' : Env} {n : Nat} (ns : List Nm), PS (oE env n t) (oE env' n (sE ns t)) →
    eOp S' env' n o r (sE ns t) = eOp S env n o r t
  | .var x, _, _, _, _, h => by cases h with | cons h _ => simp only [sE, eOp, rTarget hc hg h, rName hc hg h, rOpBin hc]
  | .member b x, _, _, _, ns, h => by
    obtain ⟨h1, h2⟩ := split2 (lP b ..) h
    cases h2 with
    | cons h2 _ =>
      simp only [sE, eOp, rE b _ (toF h1)]
      generalize (ns.drop (Resolve.takes (Resolve.evE b))).headD x = y at h2 ⊢
      generalize isEnv b = i at h2
      generalize isEnv (sE ns b) = j at h2
      cases h2 with
      | key hk => rw [hc.opMember _ x hk]
  | .index b k, _, _, _, ns, h => by
    obtain ⟨h1, h2⟩ := split2 (lP b ..) h
    rw [mE] at h2
    simp only [sE, eOp, mE, rE b _ (toF h1), rE k _ (toF h2), hc.opElem]
  | .group e, _, _, _, ns, h => rOp o r e ns h
  | .un _ _, _, _, _, _, _ | .num _, _, _, _, _, _ | .str _, _, _, _, _, _ | .cst _, _, _, _, _, _ | .vararg, _, _, _, _, _ | .func _ _, _, _, _, _, _
  | .bin _ _ _, _, _, _, _, _ | .call _ _ _, _, _, _, _, _ | .method _ _ _ _, _, _, _, _, _ | .table _, _, _, _, _, _ => by simp only [sE, eOp, hc.invalid]
theorem rS : ∀ (s : St) {env env' : Env} {n : Nat} (ns : List Nm), PS (oS env n s) (oS env' n (sS ns s)) →
    eS S' env' n (sS ns s) = eS S env n s
  | .do_ b, _, _, _, ns, h => congrArg Core.St.doB (rB b ns h)
  | .if_ (.long c b t), _, _, _, _, h => by
    obtain ⟨h1, h2⟩ := split2 (lP c ..) h
    obtain ⟨h2, h3⟩ := split2 (lB b ..) h2
    rw [mE] at h2
    rw [mE, mB] at h3
    simp only [sS, sI, eS, mE, mB, rE c _ (toF h1), rB b _ h2, rTail t _ h3]
  | .if_ (.short c b _), _, _, _, _, h => by
    obtain ⟨h1, h2⟩ := split2 (lP c ..) h
    rw [mE] at h2
    simp only [sS, sI, eS, mE, rE c _ (toF h1), rB b _ h2]
  | .if_ (.shortElse c b d _), _, _, _, _, h => by
    obtain ⟨h1, h2⟩ := split2 (lP c ..) h
    obtain ⟨h2, h3⟩ := split2 (lB b ..) h2
    rw [mE] at h2
    rw [mE, mB] at h3
    simp only [sS, sI, eS, mE, mB, rE c _ (toF h1), rB b _ h2, rB d _ h3]
  | .while_ c b, _, _, _, _, h => by
    obtain ⟨h1, h2⟩ := split2 (lP c ..) h
    rw [mE] at h2
    simp only [sS, eS, mE, rE c _ (toF h1), rB b _ h2]
  | .whileShort c b _, _, _, _, _, h => by
    obtain ⟨h1, h2⟩ := split2 (lP c ..) h
    rw [mE] at h2
    simp only [sS, eS, mE, rE c _ (toF h1), rB b _ h2]
  | .repeat_ b c, _, _, _, _, h => by
    obtain ⟨h1, h2⟩ := split2 (lB b ..) h
    rw [mB] at h2
    simp only [sS, eS, mB, rB b _ h1, rE c _ (toF h2)]
  | .fornum x a b c d, _, _, _, _, h => by
    cases h with
    | cons _ h =>
      obtain ⟨h1, h2⟩ := split2 (lP a ..) h
      obtain ⟨h2, h3⟩ := split2 (lP b ..) h2
      obtain ⟨h3, h4⟩ := split2 (lEs c ..) h3
      rw [mE] at h2
      rw [mE, mE] at h3
      rw [mE, mE, mEs] at h4
      simp only [sS, eS, mE, mEs, rE a _ (toF h1), rE b _ (toF h2), rOnes c _ h3, rB d _ h4]
  | .forin xs es d, _, _, _, _, h => by
    obtain ⟨-, h1⟩ := split2 (Len.binds (length_sNs ..).symm) h
    obtain ⟨h1, h2⟩ := split2 (lEs es ..) h1
    rw [length_sNs] at h1
    rw [length_sNs, mEs] at h2
    simp only [sS, eS, length_sNs, mEs, rEs es _ h1, rB d _ h2]
  | .break_, _, _, _, _, _ => rfl
  | .return_ es, _, _, _, ns, h => congrArg Core.St.ret (rEs es ns h)
  | .local_ xs es, _, _, _, _, h => by
    obtain ⟨-, h1⟩ := split2 (Len.binds (by simp only [List.length_map, length_sXs])) h
    rw [length_sXs] at h1
    simp only [sS, eS, length_sXs, rSrc es _ h1]
  | .localfn x ps b, _, _, _, _, h => by
    cases h with
    | cons _ h =>
      obtain ⟨-, h1⟩ := split2 (Len.binds (named_s ..).symm) h
      rw [named_s] at h1
      simp only [sS, eS, named_s, isVar_s, rB b _ h1]
  | .goto_ _, _, _, _, _, h => by cases h with | cons h _ => cases h
  | .label _, _, _, _, _, h => by cases h with | cons h _ => cases h
  | .func f ps b, _, _, _, ns, h => by
    cases h with
    | cons h0 h =>
      have hl : ∀ i j, Len (keys i (f.keys ++ f.meth.toList)) (keys j ((sFn ns f).keys ++ (sFn ns f).meth.toList)) := by
        intro i j
        simp only [Len, length_keys, sFn, List.length_append, length_sNs]
        cases f.meth <;> rfl
      obtain ⟨h1, h2⟩ := split2 (hl _ _) h
      obtain ⟨-, h2⟩ := split2 (Len.binds (params_s ..).symm) h2
      rw [params_s] at h2
      simp only [sS, eS, params_s, isVar_s, rB b _ h2, rFnTarget hc hg h0 h1]
  | .assign ts es, _, _, _, _, h => by
    obtain ⟨h1, h2⟩ := split2 (lEs ts ..) h
    rw [mEs] at h2
    simp only [sS, eS, mEs, rTs ts _ h1, rSrc es _ h2]
  | .opassign o t e, _, _, _, _, h => by
    obtain ⟨h1, h2⟩ := split2 (lP t ..) h
    rw [mE] at h2
    simp only [sS, eS, mE, rE e _ (toF h2), rOp o _ t _ h1]
  | .call e, _, _, _, ns, h => congrArg Core.St.eval (rE e ns (toF h))
  | .print es, _, _, _, _, h => by
    obtain ⟨h1, h2⟩ := split2 (lEs es ..) h
    cases h2 with
    | cons h2 _ => simp only [sS, eS, rEs es _ h1, rBuiltinVar hc hg h2, rName hc hg h2]
theorem rTail : ∀ (t : Tail) {env env' : Env} {n : Nat} (ns : List Nm), PS (oT env n t) (oT env' n (sT ns t)) →
    eTail S' env' n (sT ns t) = eTail S env n t
  | .end_, _, _, _, _, _ => rfl
  | .else_ b, _, _, _, ns, h => congrArg Core.El.else_ (rB b ns h)
  | .elseif_ (.long c b t), _, _, _, _, h => by
    obtain ⟨h1, h2⟩ := split2 (lP c ..) h
    obtain ⟨h2, h3⟩ := split2 (lB b ..) h2
    rw [mE] at h2
    rw [mE, mB] at h3
    simp only [sT, sI, eTail, mE, mB, rE c _ (toF h1), rB b _ h2, rTail t _ h3]
  | .elseif_ (.short c b _), _, _, _, _, h => by
    obtain ⟨h1, h2⟩ := split2 (lP c ..) h
    rw [mE] at h2
    simp only [sT, sI, eTail, mE, rE c _ (toF h1), rB b _ h2]
  | .elseif_ (.shortElse c b d _), _, _, _, _, h => by
    obtain ⟨h1, h2⟩ := split2 (lP c ..) h
    obtain ⟨h2, h3⟩ := split2 (lB b ..) h2
    rw [mE] at h2
    rw [mE, mB] at h3
    simp only [sT, sI, eTail, mE, mB, rE c _ (toF h1), rB b _ h2, rB d _ h3]
theorem rB : ∀ (b : Block) {env env' : Env} {n : Nat} (ns : List Nm), PS (oB env n b) (oB env' n (sB ns b)) →
    eB S' env' n (sB ns b) = eB S env n b
  | .nil, _, _, _, _, _ => rfl
  | .semi b, _, _, _, ns, h => rB b ns h
  | .cons s b, _, _, _, _, h => by
    obtain ⟨h1, h2⟩ := split2 (lS s ..) h
    rw [mS] at h2
    simp only [sB, eB, mS, rS s _ h1, rB b _ h2]
end

end

end Verif.Elab
