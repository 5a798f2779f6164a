import Verif.Spec.LuaElab
import Verif.Spec.LuaStatic
import Mathlib.Data.List.Nodup
/-
Helpers for C76: in the program a tree stands for, every declaration is a variable of its own and used in its scope only.
-/
namespace Verif.Elab
open Syntax
open LuaScope (Env look bind named methodParams after atEnd)
open Paren (Op)
open Core (ScopedEs ScopedBl ScopedTs declaredEs declaredBl declaredTs scope)

/-! ### Declarations -/

/-- Different numbers from `a` on, below `b`. -/
structure Wi (l : List Nat) (a b : Nat) : Prop where
  nodup : l.Nodup
  mem : ∀ x ∈ l, a ≤ x ∧ x < b

theorem Wi.nil (a b : Nat) : Wi [] a b := ⟨List.nodup_nil, fun x h => by cases h⟩
theorem Wi.mono {l : List Nat} {a b c d : Nat} (h : Wi l a b) (h1 : c ≤ a) (h2 : b ≤ d) : Wi l c d :=
  ⟨h.nodup, fun x hx => by have := h.mem x hx; omega⟩
theorem Wi.range (n k : Nat) : Wi (List.range' n k) n (n + k) :=
  ⟨List.nodup_range', fun x hx => by rw [List.mem_range'_1] at hx; exact hx⟩
theorem Wi.append {l l' : List Nat} {a b c d p q : Nat} (h : Wi l a b) (h' : Wi l' c d) (h1 : b ≤ c ∨ d ≤ a) (h2 : p ≤ a) (h3 : p ≤ c) (h4 : b ≤ q)
    (h5 : d ≤ q) : Wi (l ++ l') p q := by
  refine ⟨List.nodup_append.mpr ⟨h.nodup, h'.nodup, fun x hx y hy e => ?_⟩, fun x hx => ?_⟩
  · have := h.mem x hx
    have := h'.mem y hy
    omega
  · rcases List.mem_append.mp hx with hx | hx
    · have := h.mem x hx; omega
    · have := h'.mem x hx; omega
theorem Wi.one (n : Nat) : Wi [n] n (n + 1) := Wi.range n 1

variable (S : Sem)

theorem numeral_declared : ∀ n, (numeral S n).declared = []
  | .lit _ => rfl
  | .prim _ => rfl
  | .sgn _ n => numeral_declared n

theorem name_declared (env : Env) (x : Nm) : (name S env x).declared = [] := by
  simp only [name, ref, global]
  split
  · split <;> rfl
  · split
    · split <;> rfl
    · rfl

theorem target_declared (env : Env) (x : Nm) : (target S env x).declared = [] := by
  simp only [target]
  split
  · split <;> rfl
  · split
    · split <;> rfl
    · rfl

theorem chain_declared : ∀ (xs : List Nm) {e : Core.Ex}, e.declared = [] → (chain S e xs).declared = []
  | [], _, h => h
  | x :: xs, e, h => chain_declared xs (by simp [Core.Ex.declared, declaredEs, h])

theorem fnTarget_declared (env : Env) (f : FnName) : (fnTarget S env f).declared = [] := by
  simp only [fnTarget]
  split
  · exact target_declared ..
  · simp [Core.Tg.declared, declaredEs, Core.Ex.declared, chain_declared S _ (name_declared S env f.base)]

theorem opBin_declared (o : Op) (l r : Core.Ex) : (opBin S o l r).declared = l.declared ++ r.declared := by
  simp only [opBin]
  split <;> simp [Core.Ex.declared, declaredEs]

mutual
theorem wE : ∀ (e : Ex) (env : Env) (n : Nat), Wi (eE S env n e).declared n (n + LuaScope.nE e)
  | .var x, env, n => by simp only [eE, name_declared]; exact .nil _ _
  | .num s, env, n => by simp only [eE, numeral_declared]; exact .nil _ _
  | .str _, _, _ | .cst _, _, _ | .vararg, _, _ => .nil _ _
  | .func ps b, env, n => by
    simp only [eE, Core.Ex.declared, LuaScope.nE]
    exact (Wi.range n _).append (wB b _ _) (by omega) (by omega) (by omega) (by omega) (by omega)
  | .group e, env, n => wE e env n
  | .un o e, env, n => by
    have h := wE e env n
    simp only [eE, LuaScope.nE]
    split
    · exact h
    · simpa [Core.Ex.declared, declaredEs] using h
  | .bin o l r, env, n => by
    simp only [eE, opBin_declared, LuaScope.nE]
    exact (wE l env n).append (wE r _ _) (by omega) (by omega) (by omega) (by omega) (by omega)
  | .member b x, env, n => by simpa [eE, Core.Ex.declared, declaredEs, LuaScope.nE] using wE b env n
  | .index b k, env, n => by
    simp only [eE, Core.Ex.declared, LuaScope.nE]
    exact (wE b env n).append (wE k _ _) (by omega) (by omega) (by omega) (by omega) (by omega)
  | .call b _ as, env, n => by
    have h1 := wE b env n
    have h2 := wEs as env (n + LuaScope.nE b)
    simp only [eE, callOf, LuaScope.nE]
    split
    · exact h2.mono (by omega) (by omega)
    · exact h1.append h2 (by omega) (by omega) (by omega) (by omega) (by omega)
  | .method b x _ as, env, n => by
    simp only [eE, Core.Ex.declared, declaredEs, LuaScope.nE]
    exact (wE b env n).append (wEs as _ _) (by omega) (by omega) (by omega) (by omega) (by omega)
  | .table its, env, n => wIts its env n
theorem wEs : ∀ (es : Exs) (env : Env) (n : Nat), Wi (declaredEs (eEs S env n es)) n (n + LuaScope.nEs es)
  | .nil, _, _ => .nil _ _
  | .cons e es, env, n => by
    simp only [eEs, declaredEs, LuaScope.nEs]
    exact (wE e env n).append (wEs es _ _) (by omega) (by omega) (by omega) (by omega) (by omega)
theorem wOnes : ∀ (es : Exs) (env : Env) (n : Nat), Wi (declaredEs (eOnes S env n es)) n (n + LuaScope.nEs es)
  | .nil, _, _ => .nil _ _
  | .cons e es, env, n => by
    simp only [eOnes, declaredEs, Core.Ex.declared, LuaScope.nEs]
    exact (wE e env n).append (wOnes es _ _) (by omega) (by omega) (by omega) (by omega) (by omega)
theorem wIts : ∀ (its : Its) (env : Env) (n : Nat), Wi (declaredEs (eIts S env n its)) n (n + LuaScope.nIts its)
  | .nil, _, _ => .nil _ _
  | .pos e its, env, n => by
    simp only [eIts, declaredEs, LuaScope.nIts]
    exact (wE e env n).append (wIts its _ _) (by omega) (by omega) (by omega) (by omega) (by omega)
  | .named x e its, env, n => by
    simp only [eIts, declaredEs, Core.Ex.declared, LuaScope.nIts]
    exact (wE e env n).append (wIts its _ _) (by omega) (by omega) (by omega) (by omega) (by omega)
  | .keyed k e its, env, n => by
    simp only [eIts, declaredEs, Core.Ex.declared, LuaScope.nIts]
    exact (wE k env n).append ((wE e _ _).append (wIts its _ _) (p := n + LuaScope.nE k) (q := n + (LuaScope.nE k + LuaScope.nE e + LuaScope.nIts its))
      (by omega) (by omega) (by omega) (by omega) (by omega)) (by omega) (by omega) (by omega) (by omega) (by omega)
theorem wT : ∀ (t : Ex) (env : Env) (n : Nat), Wi (eT S env n t).declared n (n + LuaScope.nE t)
  | .var x, env, n => by simp only [eT, target_declared]; exact .nil _ _
  | .member b x, env, n => by simpa [eT, Core.Tg.declared, Core.Ex.declared, declaredEs, LuaScope.nE] using wE b env n
  | .index b k, env, n => by
    simp only [eT, Core.Tg.declared, declaredEs, Core.Ex.declared, LuaScope.nE, List.append_nil]
    exact (wE b env n).append (wE k _ _) (by omega) (by omega) (by omega) (by omega) (by omega)
  | .group e, env, n => wT e env n
  | .un _ _, _, _ | .num _, _, _ | .str _, _, _ | .cst _, _, _ | .vararg, _, _ | .func _ _, _, _ | .bin _ _ _, _, _ | .call _ _ _, _, _
  | .method _ _ _ _, _, _ | .table _, _, _ => .nil _ _
theorem wTs : ∀ (ts : Exs) (env : Env) (n : Nat), Wi (declaredTs (eTs S env n ts)) n (n + LuaScope.nEs ts)
  | .nil, _, _ => .nil _ _
  | .cons e es, env, n => by
    simp only [eTs, declaredTs, LuaScope.nEs]
    exact (wT e env n).append (wTs es _ _) (by omega) (by omega) (by omega) (by omega) (by omega)
theorem wOp (o : Op) {r : Core.Ex} {m k : Nat} (h : Wi r.declared m k) (hk : m ≤ k) : ∀ (t : Ex) (env : Env) (n : Nat), n + LuaScope.nE t ≤ m →
    Wi (eOp S env n o r t).declared n k
  | .var x, env, n, hm => by
    have : (eOp S env n o r (.var x)).declared = r.declared := by
      simp [eOp, Core.St.declared, declaredTs, declaredEs, target_declared, opBin_declared, name_declared]
    rw [this]
    exact h.mono (by omega) (by omega)
  | .member b x, env, n, hm => by
    simp only [eOp, Core.St.declared, declaredTs, declaredEs, Core.Tg.declared, Core.Ex.declared, List.append_nil]
    simp only [LuaScope.nE] at hm
    exact (wE b env n).append h (by omega) (by omega) (by omega) (by omega) (by omega)
  | .index b j, env, n, hm => by
    simp only [eOp, Core.St.declared, declaredTs, declaredEs, Core.Tg.declared, Core.Ex.declared, List.append_nil]
    simp only [LuaScope.nE] at hm
    exact ((wE b env n).append (wE j _ _) (p := n) (q := m) (by omega) (by omega) (by omega) (by omega) (by omega)).append h
      (by omega) (by omega) (by omega) (by omega) (by omega)
  | .group e, env, n, hm => by
    simp only [LuaScope.nE] at hm
    exact wOp o h hk e env n hm
  | .un _ _, _, _, hm | .num _, _, _, hm | .str _, _, _, hm | .cst _, _, _, hm | .vararg, _, _, hm | .func _ _, _, _, hm | .bin _ _ _, _, _, hm
  | .call _ _ _, _, _, hm | .method _ _ _ _, _, _, hm | .table _, _, _, hm => by
    simp only [eOp, Core.St.declared, declaredTs, declaredEs, Core.Tg.declared, List.append_nil, List.nil_append]
    exact h.mono (by omega) (by omega)
theorem wS : ∀ (s : St) (env : Env) (n : Nat), Wi (eS S env n s).declared n (n + LuaScope.nS s)
  | .do_ b, env, n => wB b env n
  | .if_ (.long c b t), env, n => by
    simp only [eS, Core.St.declared, LuaScope.nS, LuaScope.nI]
    exact ((wE c env n).append (wB b _ _) (p := n) (q := n + LuaScope.nE c + LuaScope.nB b) (by omega) (by omega) (by omega) (by omega) (by omega)).append
      (wTail t _ _) (by omega) (by omega) (by omega) (by omega) (by omega)
  | .if_ (.short c b _), env, n => by
    simp only [eS, Core.St.declared, Core.El.declared, List.append_nil, LuaScope.nS, LuaScope.nI]
    exact (wE c env n).append (wB b _ _) (by omega) (by omega) (by omega) (by omega) (by omega)
  | .if_ (.shortElse c b d _), env, n => by
    simp only [eS, Core.St.declared, Core.El.declared, LuaScope.nS, LuaScope.nI]
    exact ((wE c env n).append (wB b _ _) (p := n) (q := n + LuaScope.nE c + LuaScope.nB b) (by omega) (by omega) (by omega) (by omega) (by omega)).append
      (wB d _ _) (by omega) (by omega) (by omega) (by omega) (by omega)
  | .while_ c b, env, n => by
    simp only [eS, Core.St.declared, LuaScope.nS]
    exact (wE c env n).append (wB b _ _) (by omega) (by omega) (by omega) (by omega) (by omega)
  | .whileShort c b _, env, n => by
    simp only [eS, Core.St.declared, LuaScope.nS]
    exact (wE c env n).append (wB b _ _) (by omega) (by omega) (by omega) (by omega) (by omega)
  | .repeat_ b c, env, n => by
    simp only [eS, Core.St.declared, LuaScope.nS]
    exact (wB b env n).append (wE c _ _) (by omega) (by omega) (by omega) (by omega) (by omega)
  | .fornum x a b c d, env, n => by
    simp only [eS, Core.St.declared, declaredEs, Core.Ex.declared, LuaScope.nS]
    have h1 := (wE a env (n + 1)).append ((wE b env (n + 1 + LuaScope.nE a)).append (wOnes c env (n + 1 + LuaScope.nE a + LuaScope.nE b))
      (p := n + 1 + LuaScope.nE a) (q := n + 1 + LuaScope.nE a + LuaScope.nE b + LuaScope.nEs c) (by omega) (by omega) (by omega) (by omega) (by omega))
      (p := n + 1) (q := n + 1 + LuaScope.nE a + LuaScope.nE b + LuaScope.nEs c) (by omega) (by omega) (by omega) (by omega) (by omega)
    have h2 := wB d (bind env n [x]) (n + 1 + LuaScope.nE a + LuaScope.nE b + LuaScope.nEs c)
    have h3 := (h1.append (Wi.one n) (p := n) (q := n + 1 + LuaScope.nE a + LuaScope.nE b + LuaScope.nEs c) (by omega) (by omega) (by omega) (by omega)
      (by omega)).append h2 (p := n) (q := n + (1 + LuaScope.nE a + LuaScope.nE b + LuaScope.nEs c + LuaScope.nB d))
      (by omega) (by omega) (by omega) (by omega) (by omega)
    simpa only [List.append_assoc, List.singleton_append] using h3
  | .forin xs es d, env, n => by
    simp only [eS, Core.St.declared, LuaScope.nS]
    exact ((wEs es env (n + xs.length)).append (Wi.range n xs.length) (p := n) (q := n + xs.length + LuaScope.nEs es) (by omega) (by omega) (by omega)
      (by omega) (by omega)).append (wB d _ _) (by omega) (by omega) (by omega) (by omega) (by omega)
  | .break_, _, _ => .nil _ _
  | .return_ es, env, n => wEs es env n
  | .local_ xs es, env, n => by
    simp only [eS, Core.St.declared, LuaScope.nS]
    exact (wEs es env (n + xs.length)).append (Wi.range n xs.length) (by omega) (by omega) (by omega) (by omega) (by omega)
  | .localfn x ps b, env, n => by
    simp only [eS, Core.St.declared, LuaScope.nS]
    have h := ((Wi.one n).append (Wi.range (n + 1) (named ps).length) (p := n) (q := n + 1 + (named ps).length) (by omega) (by omega) (by omega) (by omega)
      (by omega)).append (wB b (bind (bind env n [x]) (n + 1) (named ps)) (n + 1 + (named ps).length))
      (p := n) (q := n + (1 + (named ps).length + LuaScope.nB b)) (by omega) (by omega) (by omega) (by omega) (by omega)
    simpa using h
  | .goto_ _, _, _ => .nil _ _
  | .label _, _, _ => .nil _ _
  | .func f ps b, env, n => by
    simp only [eS, Core.St.declared, declaredTs, declaredEs, fnTarget_declared, Core.Ex.declared, List.append_nil, List.nil_append, LuaScope.nS]
    exact (Wi.range n _).append (wB b _ _) (by omega) (by omega) (by omega) (by omega) (by omega)
  | .assign ts es, env, n => by
    simp only [eS, Core.St.declared, LuaScope.nS]
    exact (wTs ts env n).append (wEs es _ _) (by omega) (by omega) (by omega) (by omega) (by omega)
  | .opassign o t e, env, n => by
    simp only [eS, LuaScope.nS]
    exact (wOp o (wE e env (n + LuaScope.nE t)) (by omega) t env n (by omega)).mono (by omega) (by omega)
  | .call e, env, n => wE e env n
  | .print es, env, n => by
    have h := wEs es env n
    simp only [eS, Core.St.declared, callOf, LuaScope.nS]
    split
    · exact h
    · simpa only [Core.Ex.declared, name_declared, List.nil_append] using h
theorem wTail : ∀ (t : Tail) (env : Env) (n : Nat), Wi (eTail S env n t).declared n (n + LuaScope.nT t)
  | .end_, _, _ => .nil _ _
  | .else_ b, env, n => wB b env n
  | .elseif_ (.long c b t), env, n => by
    simp only [eTail, Core.El.declared, LuaScope.nT, LuaScope.nI]
    exact ((wE c env n).append (wB b _ _) (p := n) (q := n + LuaScope.nE c + LuaScope.nB b) (by omega) (by omega) (by omega) (by omega) (by omega)).append
      (wTail t _ _) (by omega) (by omega) (by omega) (by omega) (by omega)
  | .elseif_ (.short c b _), env, n => by
    simp only [eTail, Core.El.declared, List.append_nil, LuaScope.nT, LuaScope.nI]
    exact (wE c env n).append (wB b _ _) (by omega) (by omega) (by omega) (by omega) (by omega)
  | .elseif_ (.shortElse c b d _), env, n => by
    simp only [eTail, Core.El.declared, LuaScope.nT, LuaScope.nI]
    exact ((wE c env n).append (wB b _ _) (p := n) (q := n + LuaScope.nE c + LuaScope.nB b) (by omega) (by omega) (by omega) (by omega) (by omega)).append
      (wB d _ _) (by omega) (by omega) (by omega) (by omega) (by omega)
theorem wB : ∀ (b : Block) (env : Env) (n : Nat), Wi (declaredBl (eB S env n b)) n (n + LuaScope.nB b)
  | .nil, _, _ => .nil _ _
  | .semi b, env, n => wB b env n
  | .cons s b, env, n => by
    simp only [eB, declaredBl, LuaScope.nB]
    exact (wS s env n).append (wB b _ _) (by omega) (by omega) (by omega) (by omega) (by omega)
end

/-! ### Scopes -/

/-- Every declaration visible is one of those given or of `D`. -/
def Sees (env : Env) (D : List Nat) : Prop := ∀ p ∈ env, p.2 < S.given ∨ p.2 ∈ D

variable {S}

theorem Sees.look {env : Env} {D : List Nat} (h : Sees S env D) {x : Nm} {n : Nat} (hl : look env x = some n) : n < S.given ∨ n ∈ D := by
  simp only [LuaScope.look, Option.map_eq_some_iff] at hl
  obtain ⟨p, hp, rfl⟩ := hl
  exact h p (List.mem_of_find?_eq_some hp)

theorem Sees.mono {env : Env} {D D' : List Nat} (h : Sees S env D) (hd : ∀ x ∈ D, x ∈ D') : Sees S env D' :=
  fun p hp => (h p hp).imp id (hd _)

theorem Sees.bind : ∀ (xs : List Nm) {env : Env} {D : List Nat} {n : Nat}, Sees S env D → Sees S (bind env n xs) (List.range' n xs.length ++ D)
  | [], env, D, n, h => by simpa [LuaScope.bind] using h
  | x :: xs, env, D, n, h => by
    simp only [LuaScope.bind]
    have : Sees S ((x, n) :: env) (n :: D) := by
      intro p hp
      rcases List.mem_cons.mp hp with rfl | hp
      · exact .inr (by simp)
      · exact (h p hp).imp id (List.mem_cons_of_mem _)
    refine (Sees.bind xs this).mono fun y hy => ?_
    simp only [List.mem_append, List.mem_range'_1, List.mem_cons, List.length_cons] at hy ⊢
    rcases hy with hy | hy | hy
    · exact .inl (by omega)
    · exact .inl (by omega)
    · exact .inr hy

theorem name_scoped {env : Env} {D : List Nat} (h : Sees S env D) (x : Nm) : (name S env x).Scoped D := by
  simp only [name, ref, global]
  split
  · rename_i n hn
    split
    · trivial
    · exact (h.look hn).resolve_left ‹_›
  · split
    · rename_i n hn
      split
      · trivial
      · exact ⟨(h.look hn).resolve_left ‹_›, trivial⟩
    · trivial

theorem target_scoped {env : Env} {D : List Nat} (h : Sees S env D) (x : Nm) : (target S env x).Scoped D := by
  simp only [target]
  split
  · rename_i n hn
    split
    · trivial
    · exact (h.look hn).resolve_left ‹_›
  · split
    · rename_i n hn
      split
      · trivial
      · exact ⟨(h.look hn).resolve_left ‹_›, trivial⟩
    · trivial

theorem numeral_scoped (D : List Nat) : ∀ n, (numeral S n).Scoped D
  | .lit _ => trivial
  | .prim _ => trivial
  | .sgn _ n => numeral_scoped D n

theorem chain_scoped {D : List Nat} : ∀ (xs : List Nm) {e : Core.Ex}, e.Scoped D → (chain S e xs).Scoped D
  | [], _, h => h
  | x :: xs, e, h => chain_scoped xs ⟨h, trivial⟩

theorem fnTarget_scoped {env : Env} {D : List Nat} (h : Sees S env D) (f : FnName) : (fnTarget S env f).Scoped D := by
  simp only [fnTarget]
  split
  · exact target_scoped h _
  · exact ⟨chain_scoped _ (name_scoped h _), trivial⟩

theorem opBin_scoped {D : List Nat} (o : Op) {l r : Core.Ex} (hl : l.Scoped D) (hr : r.Scoped D) : (opBin S o l r).Scoped D := by
  simp only [opBin]
  split
  · exact ⟨hl, hr⟩
  · exact ⟨hl, hr, trivial⟩

theorem op_decls (env : Env) (n : Nat) (o : Op) (r : Core.Ex) : ∀ t : Ex, (eOp S env n o r t).decls = []
  | .group e => op_decls env n o r e
  | .un _ _ | .var _ | .num _ | .str _ | .cst _ | .vararg | .func _ _ | .bin _ _ _ | .member _ _ | .index _ _ | .call _ _ _ | .method _ _ _ _
  | .table _ => rfl

theorem Sees.after {env : Env} {D : List Nat} (h : Sees S env D) (n : Nat) (s : St) : Sees S (after env n s) ((eS S env n s).decls ++ D) := by
  cases s <;> simp only [LuaScope.after]
  case local_ xs es =>
    have := h.bind (n := n) (xs.map (·.1))
    simpa [eS, Core.St.decls] using this
  case localfn x ps b => exact h.bind (n := n) [x]
  case if_ i => cases i <;> exact h
  case opassign o t e => simpa [eS, op_decls] using h
  all_goals exact h

theorem Sees.atEnd : ∀ (b : Block) {env : Env} {D : List Nat} (n : Nat), Sees S env D → Sees S (atEnd env n b) (scope D (eB S env n b))
  | .nil, _, _, _, h => h
  | .semi b, _, _, n, h => Sees.atEnd b n h
  | .cons s b, _, _, n, h => Sees.atEnd b _ (h.after n s)

mutual
theorem sE : ∀ (e : Ex) {env : Env} {D : List Nat} (n : Nat), Sees S env D → (eE S env n e).Scoped D
  | .var x, _, _, n, h => name_scoped h x
  | .num s, _, _, n, h => numeral_scoped _ _
  | .str _, _, _, _, _ | .cst _, _, _, _, _ | .vararg, _, _, _, _ => trivial
  | .func ps b, _, _, n, h => sB b _ (h.bind _)
  | .group e, _, _, n, h => sE e n h
  | .un o e, _, _, n, h => by
    have := sE e n h
    simp only [eE]
    split
    · exact this
    · exact ⟨this, trivial⟩
  | .bin o l r, _, _, n, h => opBin_scoped o (sE l n h) (sE r _ h)
  | .member b x, _, _, n, h => ⟨sE b n h, trivial⟩
  | .index b k, _, _, n, h => ⟨sE b n h, sE k _ h⟩
  | .call b _ as, _, _, n, h => by
    have h1 := sE b n h
    have h2 := sEs as (n + LuaScope.nE b) h
    simp only [eE, callOf]
    split
    · exact h2
    · exact ⟨h1, h2⟩
  | .method b x _ as, _, _, n, h => ⟨sE b n h, sEs as _ h⟩
  | .table its, _, _, n, h => sIts its n h
theorem sEs : ∀ (es : Exs) {env : Env} {D : List Nat} (n : Nat), Sees S env D → ScopedEs D (eEs S env n es)
  | .nil, _, _, _, _ => trivial
  | .cons e es, _, _, n, h => ⟨sE e n h, sEs es _ h⟩
theorem sOnes : ∀ (es : Exs) {env : Env} {D : List Nat} (n : Nat), Sees S env D → ScopedEs D (eOnes S env n es)
  | .nil, _, _, _, _ => trivial
  | .cons e es, _, _, n, h => ⟨sE e n h, sOnes es _ h⟩
theorem sIts : ∀ (its : Its) {env : Env} {D : List Nat} (n : Nat), Sees S env D → ScopedEs D (eIts S env n its)
  | .nil, _, _, _, _ => trivial
  | .pos e its, _, _, n, h => ⟨sE e n h, sIts its _ h⟩
  | .named x e its, _, _, n, h => ⟨sE e n h, sIts its _ h⟩
  | .keyed k e its, _, _, n, h => ⟨sE k n h, sE e _ h, sIts its _ h⟩
theorem sT : ∀ (t : Ex) {env : Env} {D : List Nat} (n : Nat), Sees S env D → (eT S env n t).Scoped D
  | .var x, _, _, n, h => target_scoped h x
  | .member b x, _, _, n, h => ⟨sE b n h, trivial⟩
  | .index b k, _, _, n, h => ⟨sE b n h, sE k _ h, trivial⟩
  | .group e, _, _, n, h => sT e n h
  | .un _ _, _, _, _, _ | .num _, _, _, _, _ | .str _, _, _, _, _ | .cst _, _, _, _, _ | .vararg, _, _, _, _ | .func _ _, _, _, _, _
  | .bin _ _ _, _, _, _, _ | .call _ _ _, _, _, _, _ | .method _ _ _ _, _, _, _, _ | .table _, _, _, _, _ => trivial
theorem sTs : ∀ (ts : Exs) {env : Env} {D : List Nat} (n : Nat), Sees S env D → ScopedTs D (eTs S env n ts)
  | .nil, _, _, _, _ => trivial
  | .cons e es, _, _, n, h => ⟨sT e n h, sTs es _ h⟩
theorem sOp (o : Op) {r : Core.Ex} {D : List Nat} (hr : r.Scoped D) : ∀ (t : Ex) {env : Env} (n : Nat), Sees S env D → (eOp S env n o r t).Scoped D
  | .var x, _, n, h => ⟨⟨target_scoped h x, trivial⟩, opBin_scoped o (name_scoped h x) hr, trivial⟩
  | .member b x, _, n, h => ⟨⟨⟨sE b n h, trivial⟩, trivial⟩, hr, trivial⟩
  | .index b k, _, n, h => ⟨⟨⟨sE b n h, sE k _ h, trivial⟩, trivial⟩, hr, trivial⟩
  | .group e, _, n, h => sOp o hr e n h
  | .un _ _, _, _, _ | .num _, _, _, _ | .str _, _, _, _ | .cst _, _, _, _ | .vararg, _, _, _ | .func _ _, _, _, _
  | .bin _ _ _, _, _, _ | .call _ _ _, _, _, _ | .method _ _ _ _, _, _, _ | .table _, _, _, _ => ⟨⟨trivial, trivial⟩, hr, trivial⟩
theorem sS : ∀ (s : St) {env : Env} {D : List Nat} (n : Nat), Sees S env D → (eS S env n s).Scoped D
  | .do_ b, _, _, n, h => sB b n h
  | .if_ (.long c b t), _, _, n, h => ⟨sE c n h, sB b _ h, sTail t _ h⟩
  | .if_ (.short c b _), _, _, n, h => ⟨sE c n h, sB b _ h, trivial⟩
  | .if_ (.shortElse c b d _), _, _, n, h => ⟨sE c n h, sB b _ h, sB d _ h⟩
  | .while_ c b, _, _, n, h => ⟨sE c n h, sB b _ h⟩
  | .whileShort c b _, _, _, n, h => ⟨sE c n h, sB b _ h⟩
  | .repeat_ b c, _, _, n, h => ⟨sB b n h, sE c _ (h.atEnd b n)⟩
  | .fornum x a b c d, _, _, n, h => ⟨⟨sE a _ h, sE b _ h, sOnes c _ h⟩, sB d _ (h.bind [x])⟩
  | .forin xs es d, _, _, n, h => ⟨sEs es _ h, sB d _ (h.bind xs)⟩
  | .break_, _, _, _, _ => trivial
  | .return_ es, _, _, n, h => sEs es n h
  | .local_ xs es, _, _, n, h => sEs es _ h
  | .localfn x ps b, _, _, n, h => sB b _ ((h.bind [x]).bind _)
  | .goto_ _, _, _, _, _ => trivial
  | .label _, _, _, _, _ => trivial
  | .func f ps b, _, _, n, h => ⟨⟨fnTarget_scoped h f, trivial⟩, sB b _ (h.bind _), trivial⟩
  | .assign ts es, _, _, n, h => ⟨sTs ts n h, sEs es _ h⟩
  | .opassign o t e, _, _, n, h => sOp o (sE e _ h) t n h
  | .call e, _, _, n, h => sE e n h
  | .print es, _, _, n, h => by
    have h1 := sEs es n h
    have h2 := name_scoped h (nm "print")
    simp only [eS, callOf]
    split
    · exact h1
    · exact ⟨h2, h1⟩
theorem sTail : ∀ (t : Tail) {env : Env} {D : List Nat} (n : Nat), Sees S env D → (eTail S env n t).Scoped D
  | .end_, _, _, _, _ => trivial
  | .else_ b, _, _, n, h => sB b n h
  | .elseif_ (.long c b t), _, _, n, h => ⟨sE c n h, sB b _ h, sTail t _ h⟩
  | .elseif_ (.short c b _), _, _, n, h => ⟨sE c n h, sB b _ h, trivial⟩
  | .elseif_ (.shortElse c b d _), _, _, n, h => ⟨sE c n h, sB b _ h, sB d _ h⟩
theorem sB : ∀ (b : Block) {env : Env} {D : List Nat} (n : Nat), Sees S env D → ScopedBl D (eB S env n b)
  | .nil, _, _, _, _ => trivial
  | .semi b, _, _, n, h => sB b n h
  | .cons s b, _, _, n, h => ⟨sS s n h, sB b _ (h.after n s)⟩
end

end Verif.Elab
