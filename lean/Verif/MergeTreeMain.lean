import Verif.MergeTreeLemmas
/-
Helpers for C80: the induction over the tree.
-/
namespace Verif.Elab.Mt
open Syntax LuaScope
open Paren (Op)
open Core (Merge usesEs usesBl usesTs renEs renBl renTs mergedEs mergedBl mergedTs)

variable {S : Sem} {o : Merge} {f : Nat → Nat} {code : Nm → Nat} (hf : FOk S.given f)

theorem assign1 {env env' : Env} {T T' : Core.Tg} {R R' : Core.Ex}
    (hl : Looks S f (usesTs [T] ++ usesEs [R]) env env') (hk : Keeps f (kTs [T] [T'] ++ kEs [R] [R']))
    (ht : Looks S f T.uses env env' → Keeps f (kTg T T') → T' = T.ren f)
    (hr : Looks S f R.uses env env' → Keeps f (kEx R R') → R' = R.ren f) :
    Core.St.assign [T'] [R'] = (Core.St.assign [T] [R]).ren f := by
  have a : usesTs [T] = T.uses := by simp [usesTs]
  have b : usesEs [R] = R.uses := by simp [usesEs]
  have c : kTs [T] [T'] = kTg T T' := by simp [kTs]
  have d : kEs [R] [R'] = kEx R R' := by simp [kEs]
  rw [a, b] at hl
  rw [c, d] at hk
  simp only [Core.St.ren, renTs, renEs, ← ht hl.l hk.left, ← hr hl.r hk.right]

theorem func_ok {env : Env} {ps : List Nm} {n m : Nat} {v : Bool} {t : Block} {B : List Core.St} {envE : Env} (h : TBr S f (bind env n ps) envE t B)
    {env' : Env} {n' : Nat} (hl : Looks S f (usesBl B) env env')
    (hk : Keeps f (kEx (.func (List.range' n ps.length) v B) (.func (List.range' n' ps.length) v (eB S (bind env' n' ps) m t)))) :
    Core.Ex.func (List.range' n' ps.length) v (eB S (bind env' n' ps) m t) = (Core.Ex.func (List.range' n ps.length) v B).ren f := by
  simp only [kEx] at hk
  have hz := (hk.left).zip (by simp)
  rw [Core.Ex.ren, ← hz, (h _ _ (hl.bind ps n n' hz) hk.right).1]

omit hf in
theorem decls_merged (s : Core.St) : (s.merged o).decls = s.decls := by cases s <;> rfl

omit hf in
theorem isLocals_eOp (env : Env) (n : Nat) (u : Op) (r : Core.Ex) : ∀ t : Ex, isLocals ((eOp S env n u r t).merged o) = false
  | .group e => by simp only [eOp]; exact isLocals_eOp env n u r e
  | .var _ | .num _ | .str _ | .cst _ | .vararg | .func _ _ | .bin _ _ _ | .member _ _ | .index _ _ | .call _ _ _ | .method _ _ _ _ | .table _ | .un _ _ => by
    simp only [eOp, Core.St.merged, isLocals]

omit hf in
theorem names_m (env : Env) (n : Nat) (s : St) : namesOf (mS S o env n s) = namesOf s := by cases s <;> rfl

include hf
set_option linter.unusedSectionVars false

theorem tVar (x : Nm) (env : Env) (n : Nat) : TE S f env (mE S o env n (.var x)) ((eE S env n (.var x)).merged o) := by
  intro env' n' hl _
  simp only [mE, eE, name_merged] at hl ⊢
  exact name_ren hf hl

mutual
theorem tE : ∀ (e : Ex) (env : Env) (n : Nat), NA S o code n (dE e) → TE S f env (mE S o env n e) ((eE S env n e).merged o)
  | .var x, env, n, _ => by
    intro env' n' hl _
    simp only [mE, eE, name_merged] at hl ⊢
    exact name_ren hf hl
  | .num s, env, n, _ => by intro env' n' _ _; simp only [mE, eE, numeral_merged, numeral_ren]
  | .str s, env, n, _ => by intro env' n' _ _; rfl
  | .cst s, env, n, _ => by intro env' n' _ _; rfl
  | .vararg, env, n, _ => by intro env' n' _ _; rfl
  | .func ps b, env, n, hn => by
    intro env' n' hl hk
    simp only [mE, eE, Core.Ex.merged, Core.Ex.uses] at hl hk ⊢
    exact func_ok (tB b _ _ (hn.r rfl)).block hl hk
  | .group e, env, n, hn => (tE e env n hn).group
  | .un u e, env, n, hn => by
    intro env' n' hl hk
    simp only [mE, eE] at hl hk ⊢
    cases h : unOp u with
    | some v =>
      simp only [h, Core.Ex.merged, kEx, Core.Ex.uses, Core.Ex.ren] at hl hk ⊢
      rw [tE e env n hn env' _ hl hk]
    | none =>
      simp only [h, Core.Ex.merged, mergedEs, kEx, kEs, Core.Ex.uses, usesEs, Core.Ex.ren, renEs, List.append_nil] at hl hk ⊢
      rw [tE e env n hn env' _ hl hk]
  | .bin u l r, env, n, hn => by
    intro env' n' hl hk
    simp only [mE, eE, opBin_merged, opBin_uses, opBin_k, opBin_ren] at hl hk ⊢
    rw [tE l env n hn.l env' _ hl.l hk.left, tE r env _ (hn.r (lE l)) env' _ hl.r hk.right]
  | .member b x, env, n, hn => by
    intro env' n' hl hk
    simp only [mE, eE, Core.Ex.merged, mergedEs, Core.Ex.uses, usesEs, kEx, kEs, Core.Ex.ren, renEs, List.append_nil] at hl hk ⊢
    rw [tE b env n hn env' _ hl hk]
  | .index b k, env, n, hn => by
    intro env' n' hl hk
    simp only [mE, eE, Core.Ex.merged, Core.Ex.uses, kEx, Core.Ex.ren] at hl hk ⊢
    rw [tE b env n hn.l env' _ hl.l hk.left, tE k env _ (hn.r (lE b)) env' _ hl.r hk.right]
  | .call b sh as, env, n, hn => by
    intro env' n' hl hk
    simp only [mE, eE, callOf_merged] at hl hk ⊢
    exact TE.call hf (tE b env n hn.l) (tEs as env _ (hn.r (lE b))) env' n' hl hk
  | .method b x sh as, env, n, hn => by
    intro env' n' hl hk
    simp only [mE, eE, Core.Ex.merged, mergedEs, Core.Ex.uses, usesEs, kEx, kEs, Core.Ex.ren, renEs] at hl hk ⊢
    rw [tE b env n hn.l env' _ hl.l hk.left, tEs as env _ (hn.r (lE b)) env' _ hl.r hk.right]
  | .table its, env, n, hn => by
    intro env' n' hl hk
    simp only [mE, eE, Core.Ex.merged, Core.Ex.uses, kEx, Core.Ex.ren, shape_m] at hl hk ⊢
    rw [tIts its env n hn env' _ hl hk]
theorem tEs : ∀ (e : Exs) (env : Env) (n : Nat), NA S o code n (dEs e) → TEs S f env (mEs S o env n e) (mergedEs o (eEs S env n e))
  | .nil, env, n, _ => by intro env' n' _ _; rfl
  | .cons e es, env, n, hn => by
    intro env' n' hl hk
    simp only [mEs, eEs, mergedEs, usesEs, kEs, renEs] at hl hk ⊢
    rw [tE e env n hn.l env' _ hl.l hk.left, tEs es env _ (hn.r (lE e)) env' _ hl.r hk.right]
theorem tOnes : ∀ (e : Exs) (env : Env) (n : Nat), NA S o code n (dEs e) → TOnes S f env (mEs S o env n e) (mergedEs o (eOnes S env n e))
  | .nil, env, n, _ => by intro env' n' _ _; rfl
  | .cons e es, env, n, hn => by
    intro env' n' hl hk
    simp only [mEs, eOnes, mergedEs, usesEs, kEs, renEs, Core.Ex.merged, Core.Ex.uses, kEx, Core.Ex.ren] at hl hk ⊢
    rw [tE e env n hn.l env' _ hl.l hk.left, tOnes es env _ (hn.r (lE e)) env' _ hl.r hk.right]
theorem tIts : ∀ (e : Its) (env : Env) (n : Nat), NA S o code n (dIts e) → TIts S f env (mIts S o env n e) (mergedEs o (eIts S env n e))
  | .nil, env, n, _ => by intro env' n' _ _; rfl
  | .pos e es, env, n, hn => by
    intro env' n' hl hk
    simp only [mIts, eIts, mergedEs, usesEs, kEs, renEs] at hl hk ⊢
    rw [tE e env n hn.l env' _ hl.l hk.left, tIts es env _ (hn.r (lE e)) env' _ hl.r hk.right]
  | .named x e es, env, n, hn => by
    intro env' n' hl hk
    simp only [mIts, eIts, mergedEs, usesEs, kEs, renEs, Core.Ex.merged, Core.Ex.uses, kEx, Core.Ex.ren] at hl hk ⊢
    rw [tE e env n hn.l env' _ hl.l hk.left, tIts es env _ (hn.r (lE e)) env' _ hl.r hk.right]
  | .keyed k e es, env, n, hn => by
    intro env' n' hl hk
    simp only [mIts, eIts, mergedEs, usesEs, kEs, renEs, Core.Ex.merged, Core.Ex.uses, kEx, Core.Ex.ren] at hl hk ⊢
    have h2 := hn.r (lE k)
    rw [tE k env n hn.l env' _ hl.l hk.left, tE e env _ h2.l env' _ hl.r.l hk.right.left, tIts es env _ (h2.r (lE e)) env' _ hl.r.r hk.right.right]
theorem tT : ∀ (e : Ex) (env : Env) (n : Nat), NA S o code n (dE e) → TT S f env (mE S o env n e) ((eT S env n e).merged o)
  | .var x, env, n, _ => by
    intro env' n' hl _
    simp only [mE, eT, target_merged] at hl ⊢
    exact target_ren hf hl
  | .num s, env, n, _ => by intro env' n' _ _; rfl
  | .str s, env, n, _ => by intro env' n' _ _; rfl
  | .cst s, env, n, _ => by intro env' n' _ _; rfl
  | .vararg, env, n, _ => by intro env' n' _ _; rfl
  | .func ps b, env, n, hn => by intro env' n' _ _; simp only [mE, eT, Core.Tg.merged, mergedEs, Core.Tg.ren, renEs]
  | .group e, env, n, hn => by
    intro env' n' hl hk
    simp only [mE, eT] at hl hk ⊢
    exact tT e env n hn env' n' hl hk
  | .un u e, env, n, hn => by intro env' n' _ _; simp only [mE, eT, Core.Tg.merged, mergedEs, Core.Tg.ren, renEs]
  | .bin u l r, env, n, hn => by intro env' n' _ _; simp only [mE, eT, Core.Tg.merged, mergedEs, Core.Tg.ren, renEs]
  | .member b x, env, n, hn => by
    intro env' n' hl hk
    simp only [mE, eT, Core.Tg.merged, mergedEs, Core.Ex.merged, Core.Tg.uses, Core.Ex.uses, usesEs, kTg, kEx, kEs, Core.Tg.ren, Core.Ex.ren, renEs,
      List.append_nil] at hl hk ⊢
    rw [tE b env n hn env' _ hl hk]
  | .index b k, env, n, hn => by
    intro env' n' hl hk
    simp only [mE, eT, Core.Tg.merged, mergedEs, Core.Ex.merged, Core.Tg.uses, Core.Ex.uses, usesEs, kTg, kEx, kEs, Core.Tg.ren, Core.Ex.ren, renEs,
      List.append_nil] at hl hk ⊢
    rw [tE b env n hn.l env' _ hl.l hk.left, tE k env _ (hn.r (lE b)) env' _ hl.r hk.right]
  | .call b sh as, env, n, hn => by intro env' n' _ _; simp only [mE, eT, Core.Tg.merged, mergedEs, Core.Tg.ren, renEs]
  | .method b x sh as, env, n, hn => by intro env' n' _ _; simp only [mE, eT, Core.Tg.merged, mergedEs, Core.Tg.ren, renEs]
  | .table its, env, n, hn => by intro env' n' _ _; simp only [mE, eT, Core.Tg.merged, mergedEs, Core.Tg.ren, renEs]
theorem tTs : ∀ (e : Exs) (env : Env) (n : Nat), NA S o code n (dEs e) → TTs S f env (mEs S o env n e) (mergedTs o (eTs S env n e))
  | .nil, env, n, _ => by intro env' n' _ _; rfl
  | .cons e es, env, n, hn => by
    intro env' n' hl hk
    simp only [mEs, eTs, mergedTs, usesTs, kTs, renTs] at hl hk ⊢
    rw [tT e env n hn.l env' _ hl.l hk.left, tTs es env _ (hn.r (lE e)) env' _ hl.r hk.right]
theorem tOp : ∀ (t : Ex) (env : Env) (n : Nat), NA S o code n (dE t) → ∀ (u : Op) (R r' : Core.Ex) (env' : Env) (n' : Nat),
    Looks S f ((eOp S env n u R t).merged o).uses env env' →
    (Looks S f (R.merged o).uses env env' → Keeps f (kEx (R.merged o) r') → r' = (R.merged o).ren f) →
    Keeps f (kSt ((eOp S env n u R t).merged o) (eOp S env' n' u r' (mE S o env n t))) →
    eOp S env' n' u r' (mE S o env n t) = ((eOp S env n u R t).merged o).ren f
  | .var x, env, n, _, u, R, r', env', n', hl, hr, hk => by
    simp only [mE, eOp, Core.St.merged, mergedTs, mergedEs, target_merged, opBin_merged, name_merged, Core.St.uses, kSt] at hl hk ⊢
    refine assign1 hl hk (fun h _ => target_ren hf h) fun h k => ?_
    rw [opBin_uses] at h
    rw [opBin_k] at k
    rw [opBin_ren, name_ren hf h.l, hr h.r k.right]
  | .num _, env, n, _, u, R, r', env', n', hl, hr, hk | .str _, env, n, _, u, R, r', env', n', hl, hr, hk
  | .cst _, env, n, _, u, R, r', env', n', hl, hr, hk | .vararg, env, n, _, u, R, r', env', n', hl, hr, hk
  | .func _ _, env, n, _, u, R, r', env', n', hl, hr, hk | .un _ _, env, n, _, u, R, r', env', n', hl, hr, hk
  | .bin _ _ _, env, n, _, u, R, r', env', n', hl, hr, hk | .call _ _ _, env, n, _, u, R, r', env', n', hl, hr, hk
  | .method _ _ _ _, env, n, _, u, R, r', env', n', hl, hr, hk | .table _, env, n, _, u, R, r', env', n', hl, hr, hk => by
    simp only [mE, eOp, Core.St.merged, mergedTs, mergedEs, Core.Tg.merged, Core.St.uses, kSt] at hl hk ⊢
    exact assign1 hl hk (fun _ _ => rfl) hr
  | .group e, env, n, hn, u, R, r', env', n', hl, hr, hk => by
    simp only [mE, eOp] at hl hk ⊢
    exact tOp e env n hn u R r' env' n' hl hr hk
  | .member b x, env, n, hn, u, R, r', env', n', hl, hr, hk => by
    simp only [mE, eOp, Core.St.merged, mergedTs, mergedEs, Core.Ex.merged, Core.Tg.merged, Core.St.uses, kSt] at hl hk ⊢
    refine assign1 hl hk (fun h k => ?_) hr
    simp only [Core.Tg.uses, Core.Ex.uses, usesEs, kTg, kEx, kEs, Core.Tg.ren, Core.Ex.ren, renEs, List.append_nil] at h k ⊢
    rw [tE b env n hn env' _ h k]
  | .index b i, env, n, hn, u, R, r', env', n', hl, hr, hk => by
    simp only [mE, eOp, Core.St.merged, mergedTs, mergedEs, Core.Ex.merged, Core.Tg.merged, Core.St.uses, kSt] at hl hk ⊢
    refine assign1 hl hk (fun h k => ?_) hr
    simp only [Core.Tg.uses, Core.Ex.uses, usesEs, kTg, kEx, kEs, Core.Tg.ren, Core.Ex.ren, renEs, List.append_nil] at h k ⊢
    rw [tE b env n hn.l env' _ h.l k.left, tE i env _ (hn.r (lE b)) env' _ h.r k.right]
theorem tS : ∀ (s : St) (env : Env) (n : Nat), NA S o code n (dS s) → TI S o f code env ⟨0, mS S o env n s, (eS S env n s).merged o⟩
  | .do_ b, env, n, hn => by
    simp only [mS, eS, Core.St.merged]
    refine .other rfl rfl rfl fun env' n' hl hk => ?_
    simp only [eS, Core.St.uses, kSt, Core.St.ren] at hl hk ⊢
    rw [((tB b env n hn).block env' _ hl hk).1]
  | .if_ (.long c b t), env, n, hn => by
    simp only [mS, mI, eS, Core.St.merged]
    refine .other rfl rfl rfl fun env' n' hl hk => ?_
    simp only [eS, Core.St.uses, kSt, Core.St.ren] at hl hk ⊢
    have h2 := NA.r hn (lE c)
    rw [tE c env n (NA.l hn) env' _ hl.l.l hk.left, ((tB b env _ h2.l).block env' _ hl.l.r hk.right.left).1,
      tTail t env _ (h2.r (lB b)) env' _ hl.r hk.right.right]
  | .if_ (.short c b _), env, n, hn => by
    simp only [mS, mI, eS, Core.St.merged]
    refine .other rfl rfl rfl fun env' n' hl hk => ?_
    simp only [eS, Core.St.uses, kSt, Core.St.ren] at hl hk ⊢
    rw [tE c env n (NA.l hn) env' _ hl.l.l hk.left, ((tB b env _ (NA.r hn (lE c))).block env' _ hl.l.r hk.right.left).1]
    rfl
  | .if_ (.shortElse c b d _), env, n, hn => by
    simp only [mS, mI, eS, Core.St.merged, Core.El.merged]
    refine .other rfl rfl rfl fun env' n' hl hk => ?_
    simp only [eS, Core.St.uses, kSt, Core.St.ren, Core.El.uses, kEl, Core.El.ren] at hl hk ⊢
    have h2 := NA.r hn (lE c)
    rw [tE c env n (NA.l hn) env' _ hl.l.l hk.left, ((tB b env _ h2.l).block env' _ hl.l.r hk.right.left).1,
      ((tB d env _ (h2.r (lB b))).block env' _ hl.r hk.right.right).1]
  | .while_ c b, env, n, hn => by
    simp only [mS, eS, Core.St.merged]
    refine .other rfl rfl rfl fun env' n' hl hk => ?_
    simp only [eS, Core.St.uses, kSt, Core.St.ren] at hl hk ⊢
    rw [tE c env n (NA.l hn) env' _ hl.l hk.left, ((tB b env _ (NA.r hn (lE c))).block env' _ hl.r hk.right).1]
  | .whileShort c b _, env, n, hn => by
    simp only [mS, eS, Core.St.merged]
    refine .other rfl rfl rfl fun env' n' hl hk => ?_
    simp only [eS, Core.St.uses, kSt, Core.St.ren] at hl hk ⊢
    rw [tE c env n (NA.l hn) env' _ hl.l hk.left, ((tB b env _ (NA.r hn (lE c))).block env' _ hl.r hk.right).1]
  | .repeat_ b c, env, n, hn => by
    simp only [mS, eS, Core.St.merged]
    refine .other rfl rfl rfl fun env' n' hl hk => ?_
    simp only [eS, Core.St.uses, kSt, Core.St.ren] at hl hk ⊢
    obtain ⟨h1, h2⟩ := (tB b env _ (NA.l hn)).block env' _ hl.l hk.left
    rw [h1, tE c _ _ (NA.r hn (lB b)) _ _ (h2 _ hl.r) hk.right]
  | .fornum x a b c d, env, n, hn => by
    simp only [mS, eS, Core.St.merged, mergedEs, Core.Ex.merged]
    refine .other rfl rfl rfl fun env' n' hl hk => ?_
    simp only [eS, Core.St.uses, kSt, Core.St.ren, usesEs, Core.Ex.uses, kEs, kEx, renEs, Core.Ex.ren] at hl hk ⊢
    have h2 := NA.t hn
    have h3 := h2.r (lE a)
    have h4 := h3.r (lE b)
    have hz := hk.right.head
    simp only at hz
    have ka := hk.left.left
    have kb := hk.left.right.left
    have kc := hk.left.right.right
    rw [tE a env _ h2.l env' _ hl.l.l ka, tE b env _ h3.l env' _ hl.l.r.l kb, tOnes c env _ h4.l env' _ hl.l.r.r kc,
      ((tB d _ _ (h4.r (lEs c))).block _ _ (hl.r.bind [x] n n' (by simp [hz])) hk.right.tail).1, hz]
  | .forin xs es d, env, n, hn => by
    simp only [mS, eS, Core.St.merged]
    refine .other rfl rfl rfl fun env' n' hl hk => ?_
    simp only [eS, Core.St.uses, kSt, Core.St.ren] at hl hk ⊢
    have h2 := NA.r (k := xs.length) hn rfl
    have hz := (hk.right.left).zip (by simp)
    rw [tEs es env _ h2.l env' _ hl.l hk.left, ((tB d _ _ (h2.r (lEs es))).block _ _ (hl.r.bind xs n n' hz) hk.right.right).1, hz]
  | .break_, env, n, _ => by
    simp only [mS, eS, Core.St.merged]
    exact .other rfl rfl rfl fun env' n' hl hk => rfl
  | .return_ es, env, n, hn => by
    simp only [mS, eS, Core.St.merged]
    refine .other rfl rfl rfl fun env' n' hl hk => ?_
    simp only [eS, Core.St.uses, kSt, Core.St.ren] at hl hk ⊢
    rw [tEs es env _ hn env' _ hl hk]
  | .local_ xs es, env, n, hn => by
    simp only [mS, eS, Core.St.merged]
    refine .loc ?_ ?_ (tEs es env _ (NA.r hn (List.length_map _)))
    · have := NA.l hn
      simpa only [NA, List.length_map] using this
    · rw [mergedEs_len, eEs_len, mEs_len]
  | .localfn x ps b, env, n, hn => by
    simp only [mS, eS, Core.St.merged]
    refine .other rfl rfl rfl fun env' n' hl hk => ?_
    simp only [eS, Core.St.uses, kSt, Core.St.ren] at hl hk ⊢
    have h1 := hk.head
    simp only at h1
    have hz := (hk.tail.left).zip (by simp)
    rw [((tB b _ _ ((NA.t hn).r rfl)).block _ _ ((hl.bind [x] n n' (by simp [h1])).bind (named ps) (n + 1) (n' + 1) hz) hk.tail.right).1, h1, hz]
  | .goto_ x, env, n, _ => by
    simp only [mS, eS, Core.St.merged, Core.Ex.merged, mergedEs]
    exact .other rfl rfl rfl fun env' n' hl hk => rfl
  | .label x, env, n, _ => by
    simp only [mS, eS, Core.St.merged, Core.Ex.merged, mergedEs]
    exact .other rfl rfl rfl fun env' n' hl hk => rfl
  | .func g ps b, env, n, hn => by
    simp only [mS, eS, Core.St.merged, mergedTs, mergedEs, fnTarget_merged, Core.Ex.merged]
    refine .other rfl rfl rfl fun env' n' hl hk => ?_
    simp only [eS, Core.St.uses, kSt] at hl hk ⊢
    exact assign1 hl hk (fun h _ => fnTarget_ren hf h) fun h k => func_ok (tB b _ _ (NA.r hn rfl)).block h k
  | .assign ts es, env, n, hn => by
    simp only [mS, eS, Core.St.merged]
    refine .other rfl rfl rfl fun env' n' hl hk => ?_
    simp only [eS, Core.St.uses, kSt, Core.St.ren] at hl hk ⊢
    rw [tTs ts env n (NA.l hn) env' _ hl.l hk.left, tEs es env _ (NA.r hn (lEs ts)) env' _ hl.r hk.right]
  | .opassign u t e, env, n, hn => by
    simp only [mS, eS]
    refine .other rfl ?_ ?_ fun env' n' hl hk => ?_
    · exact isLocals_eOp env n u _ t
    · rw [decls_merged, decls_eOp]; rfl
    · simp only [eS] at hk ⊢
      exact tOp t env n (NA.l hn) u _ _ env' n' hl (fun h k => tE e env _ (NA.r hn (lE t)) env' _ h k) hk
  | .call e, env, n, hn => by
    simp only [mS, eS, Core.St.merged]
    refine .other rfl rfl rfl fun env' n' hl hk => ?_
    simp only [eS, Core.St.uses, kSt, Core.St.ren] at hl hk ⊢
    rw [tE e env _ hn env' _ hl hk]
  | .print es, env, n, hn => by
    simp only [mS, eS, Core.St.merged, callOf_merged, name_merged]
    refine .other rfl rfl rfl fun env' n' hl hk => ?_
    simp only [eS, Core.St.uses, kSt, Core.St.ren] at hl hk ⊢
    have := TE.call (o := o) (b := .var (nm "print")) hf (tVar hf (nm "print") env n) (tEs es env n hn) env' n'
    simp only [mE, eE, name_merged, LuaScope.nE, Nat.add_zero] at this
    rw [this hl hk]
theorem tTail : ∀ (t : Tail) (env : Env) (n : Nat), NA S o code n (dT t) → TEl S f env (mT S o env n t) ((eTail S env n t).merged o)
  | .end_, env, n, _ => by intro env' n' _ _; rfl
  | .else_ b, env, n, hn => by
    intro env' n' hl hk
    simp only [mT, eTail, Core.El.merged, Core.El.uses, kEl, Core.El.ren] at hl hk ⊢
    rw [((tB b env n hn).block env' _ hl hk).1]
  | .elseif_ (.long c b t), env, n, hn => by
    intro env' n' hl hk
    simp only [mT, mI, eTail, Core.El.merged, Core.El.uses, kEl, Core.El.ren] at hl hk ⊢
    have h2 := NA.r hn (lE c)
    rw [tE c env n (NA.l hn) env' _ hl.l.l hk.left, ((tB b env _ h2.l).block env' _ hl.l.r hk.right.left).1,
      tTail t env _ (h2.r (lB b)) env' _ hl.r hk.right.right]
  | .elseif_ (.short c b _), env, n, hn => by
    intro env' n' hl hk
    simp only [mT, mI, eTail, Core.El.merged, Core.El.uses, kEl, Core.El.ren] at hl hk ⊢
    rw [tE c env n (NA.l hn) env' _ hl.l.l hk.left, ((tB b env _ (NA.r hn (lE c))).block env' _ hl.l.r hk.right.left).1]
  | .elseif_ (.shortElse c b d _), env, n, hn => by
    intro env' n' hl hk
    simp only [mT, mI, eTail, Core.El.merged, Core.El.uses, kEl, Core.El.ren] at hl hk ⊢
    have h2 := NA.r hn (lE c)
    rw [tE c env n (NA.l hn) env' _ hl.l.l hk.left, ((tB b env _ h2.l).block env' _ hl.l.r hk.right.left).1,
      ((tB d env _ (h2.r (lB b))).block env' _ hl.r hk.right.right).1]
theorem tB : ∀ (b : Block) (env : Env) (n : Nat), NA S o code n (dB b) → TItems S o f code env n b
  | .nil, env, n, _ => ⟨trivial, rfl, rfl⟩
  | .semi b, env, n, hn => by
    obtain ⟨h1, h2, h3⟩ := tB b env n hn
    simp only [TItems, mB, semi_core, semi_env, eB, atEnd]
    exact ⟨semi_TB _ h1, h2, h3⟩
  | .cons s b, env, n, hn => by
    have hs := tS s env n (NA.l hn)
    have ha : envAfter env ⟨0, mS S o env n s, (eS S env n s).merged o⟩ = after env n s := by
      simp only [envAfter, decls_merged, decls_eS, names_m, after_eq, bind_bindN]
    obtain ⟨h1, h2, h3⟩ := tB b (after env n s) _ (NA.r hn (lS s))
    simp only [TItems, mB, TB, envEnd, ha, atEnd, eB, mergedBl, cores, List.map_cons]
    exact ⟨⟨hs, h1⟩, h2, by rw [← cores, h3]⟩
end

end Verif.Elab.Mt
