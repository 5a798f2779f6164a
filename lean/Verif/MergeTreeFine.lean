import Verif.MergeTreeMain
import Verif.Spec.MergeQuiet
import Verif.Fine
/-
Helpers for C80: the tree with merged declarations can be printed and parsed again.
-/
set_option linter.unusedSimpArgs false
namespace Verif.Elab.Mt
open Syntax
open Core (Merge)
open Paren (Op)
open LuaGrammar (openEnd)
open Mini (lvl openEs openS openI openB fE fEs fIts fS fI fT fB okFlag leadLp leadEs leadS leadB bareArg)
open Tidy (isGroup isTarget targets semis doB flag flagI isElse isRet0 endsRet calmE calmEs calmIts calmS calmI calmT calmB dangleS dangleI dangleB condS condI condB)

variable {S : Sem} {o : Merge}

/-! ### What stays -/

def isDo : St → Bool
  | .do_ _ => true
  | _ => false

theorem do_cons (s : St) (b : Block) : doB (.cons s b) = isDo s := by cases s <;> rfl

structure AlikeS (s s' : St) : Prop where
  dos : isDo s' = isDo s
  lead : leadS s' = leadS s
  calm : calmS s' = calmS s
  dangle : ∀ sh, dangleS sh s' = dangleS sh s
  cond : ∀ L, condS L s' = condS L s
  ret : isRet0 s' = isRet0 s
  flag : flag s' = flag s
  opn : openS s' = true → openS s = true ∨ bareS s = true
  bare : bareS s' = true → bareS s = true

structure Alike (b b' : Block) : Prop where
  semis : semis b' = semis b
  dos : doB b' = doB b
  lead : leadB b' = leadB b
  calm : calmB b' = calmB b
  dangle : ∀ sh, dangleB sh b' = dangleB sh b
  cond : ∀ L d, condB L d b' = condB L d b
  ret : endsRet b' = endsRet b
  opn : ∀ d, openB d b' = true → openB d b = true ∨ bareB false b = true
  bare : ∀ d, bareB d b' = true → bareB d b = true
  nil : b = .nil → b' = .nil

theorem openB_ne {b : Block} (h : b ≠ .nil) (d d' : Bool) : openB d b = openB d' b := by cases b <;> simp_all [openB]
theorem bareB_ne {b : Block} (h : b ≠ .nil) (d d' : Bool) : bareB d b = bareB d' b := by cases b <;> simp_all [bareB]
theorem bareB_mono {b : Block} {d : Bool} (h : bareB false b = true) : bareB d b = true := by
  cases b with
  | nil => simp [bareB] at h
  | _ => simpa [bareB] using h

theorem AlikeS.refl (s : St) : AlikeS s s := ⟨rfl, rfl, rfl, fun _ => rfl, fun _ => rfl, rfl, rfl, .inl, id⟩
theorem Alike.refl (b : Block) : Alike b b := ⟨rfl, rfl, rfl, rfl, fun _ => rfl, fun _ _ => rfl, rfl, fun _ => .inl, fun _ => id, id⟩

theorem Alike.trans {a b c : Block} (h : Alike a b) (k : Alike b c) : Alike a c where
  semis := k.semis.trans h.semis
  dos := k.dos.trans h.dos
  lead := k.lead.trans h.lead
  calm := k.calm.trans h.calm
  dangle sh := (k.dangle sh).trans (h.dangle sh)
  cond L d := (k.cond L d).trans (h.cond L d)
  ret := k.ret.trans h.ret
  opn d hd := (k.opn d hd).elim (h.opn d) fun x => .inr (h.bare _ x)
  bare d hd := h.bare d (k.bare d hd)
  nil e := k.nil (h.nil e)

theorem Alike.semi {a b : Block} (h : Alike a b) : Alike (.semi a) (.semi b) where
  semis := h.semis
  dos := h.dos
  lead := rfl
  calm := h.calm
  dangle sh := h.dangle sh
  cond L d := h.cond L d
  ret := h.ret
  opn d hd := h.opn false hd
  bare d hd := h.bare false hd
  nil e := by cases e

theorem Alike.semisThen {a b : Block} (h : Alike a b) : ∀ k, Alike (semisThen a k) (semisThen b k)
  | 0 => h
  | k + 1 => (Alike.semisThen h k).semi

theorem Alike.cons {s s' : St} {b b' : Block} (hs : AlikeS s s') (hb : Alike b b') : Alike (.cons s b) (.cons s' b') where
  semis := rfl
  dos := by rw [do_cons, do_cons, hs.dos]
  lead := hs.lead
  calm := by rw [calmB, calmB, hs.calm, hb.calm]
  dangle sh := by rw [dangleB, dangleB, hb.semis, hs.dangle, hb.dangle]
  cond L d := by rw [condB, condB, hs.cond, hb.cond]
  ret := by rw [endsRet, endsRet, hb.semis, hs.ret, hb.ret]
  opn d hd := by
    rw [openB] at hd ⊢
    rw [bareB]
    by_cases e : b = .nil
    · have e' := hb.nil e
      subst e e'
      simpa [openB, bareB] using hs.opn (by simpa [openB] using hd)
    · rcases hb.opn _ hd with h | h
      · exact .inl ((openB_ne e _ _).trans h)
      · exact .inr (bareB_mono h)
  bare d hd := by
    rw [bareB] at hd ⊢
    by_cases e : b = .nil
    · have e' := hb.nil e
      subst e e'
      simpa [bareB] using hs.bare (by simpa [bareB] using hd)
    · exact (bareB_ne e _ _).trans (hb.bare _ hd)
  nil e := by cases e

/-! ### One merge -/

theorem calm_app : ∀ es fs : Exs, calmEs (appEs es fs) = (calmEs es && calmEs fs)
  | .nil, fs => by simp [appEs, calmEs]
  | .cons e es, fs => by simp only [appEs, calmEs, calm_app es fs, Bool.and_assoc]

theorem open_app : ∀ (es fs : Exs), fs ≠ .nil → openEs (appEs es fs) = openEs fs
  | .nil, _, _ => rfl
  | .cons e .nil, fs, h => by cases fs <;> simp_all [appEs, openEs]
  | .cons e (.cons e' es), fs, h => by
    have := open_app (.cons e' es) fs h
    simpa [appEs, openEs] using this

theorem app_nil {es fs : Exs} : appEs es fs = .nil ↔ es = .nil ∧ fs = .nil := by cases es <;> simp [appEs]

theorem semis_semis (b : Block) : ∀ k, semis (semisThen b k) = semis b
  | 0 => rfl
  | k + 1 => semis_semis b k
theorem dangle_semis (sh : Bool) (b : Block) : ∀ k, dangleB sh (semisThen b k) = dangleB sh b
  | 0 => rfl
  | k + 1 => dangle_semis sh b k
theorem calm_semis (b : Block) : ∀ k, calmB (semisThen b k) = calmB b
  | 0 => rfl
  | k + 1 => calm_semis b k
theorem cond_semis (L : Paren.Lang) (d : Bool) (b : Block) : ∀ k, condB L d (semisThen b k) = condB L d b
  | 0 => rfl
  | k + 1 => cond_semis L d b k
theorem ret_semis (b : Block) : ∀ k, endsRet (semisThen b k) = endsRet b
  | 0 => rfl
  | k + 1 => ret_semis b k
theorem open_semis (d : Bool) (s : St) (b : Block) : ∀ k, openB d (semisThen (.cons s b) k) = openB (openS s) b
  | 0 => rfl
  | 1 => rfl
  | k + 2 => open_semis false s b (k + 1)
theorem bare_semis (d : Bool) (s : St) (b : Block) : ∀ k, bareB d (semisThen (.cons s b) k) = bareB (bareS s) b
  | 0 => rfl
  | 1 => rfl
  | k + 2 => bare_semis false s b (k + 1)

theorem one_merge (xs ys zs : List (Nm × Option Nm)) (es fs : Exs) (k : Nat) (b : Block) :
    Alike (.cons (.local_ xs es) (semisThen (.cons (.local_ ys fs) b) k)) (.cons (.local_ zs (appEs es fs)) b) where
  semis := rfl
  dos := rfl
  lead := rfl
  calm := by simp only [calmB, calmS, calm_semis, calm_app, Bool.and_assoc]
  dangle sh := by
    simp only [dangleB, dangleS, semis_semis, dangle_semis, semis, Bool.false_eq_true, if_false]
  cond L d := by
    cases k <;> simp only [condB, condS, semisThen, cond_semis]
  ret := by simp only [endsRet, isRet0, semis_semis, ret_semis, semis, Bool.false_eq_true, if_false]
  opn d hd := by
    simp only [openB, bareB, open_semis, bare_semis, openS] at hd ⊢
    by_cases e : b = .nil
    · subst e
      by_cases hf : fs = .nil
      · subst hf; exact .inr rfl
      · rw [open_app _ _ hf] at hd; exact .inl hd
    · exact .inl ((openB_ne e _ _).trans hd)
  bare d hd := by
    simp only [bareB, bare_semis] at hd ⊢
    by_cases e : b = .nil
    · subst e
      simp only [bareB] at hd ⊢
      by_cases hf : fs = .nil
      · subst hf; rfl
      · cases es <;> cases fs <;> simp_all [appEs, bareS]
    · exact (bareB_ne e _ _).trans hd
  nil e := by cases e

theorem two_eq {p s q : Item} (h : two o p s = some q) : ∃ xs es ys fs zs, p.st = .local_ xs es ∧ s.st = .local_ ys fs ∧ q.semis = p.semis ∧
    q.st = .local_ zs (appEs es fs) ∧ ∀ z ∈ zs, z ∈ xs ∨ z ∈ ys := by
  obtain ⟨k, p, c⟩ := p
  obtain ⟨k', s, d⟩ := s
  cases p with
  | local_ xs es =>
    cases s with
    | local_ ys fs =>
      simp only [two, Option.map_eq_some_iff] at h
      obtain ⟨c', -, rfl⟩ := h
      refine ⟨xs, es, ys, fs, _, rfl, rfl, rfl, rfl, fun z hz => ?_⟩
      simp only [List.mem_append] at hz
      rcases hz with (hz | hz) | hz
      · exact .inl (List.mem_of_mem_take hz)
      · exact .inr hz
      · exact .inl (List.mem_of_mem_drop hz)
    | _ => simp [two] at h
  | _ => simp [two] at h

theorem two_ne {p s q : Item} (h : two o p s = some q) {xs es} (hp : q.st = .local_ xs es) : xs = [] → ∃ es', p.st = .local_ [] es' := by
  obtain ⟨k, p, c⟩ := p
  obtain ⟨k', s, d⟩ := s
  cases p with
  | local_ xs' es' =>
    cases s with
    | local_ ys fs =>
      simp only [two, Option.map_eq_some_iff] at h
      obtain ⟨c', -, rfl⟩ := h
      intro e
      simp only [St.local_.injEq] at hp
      rw [e] at hp
      have h1 := hp.1
      simp only [List.append_eq_nil_iff] at h1
      have : xs' = [] := by rw [← List.take_append_drop (lenEs es') xs', h1.1.1, h1.2]; rfl
      exact ⟨es', by rw [this]⟩
    | _ => simp [two] at h
  | _ => simp [two] at h

theorem join_alike (k : Nat) : ∀ (is : List Item) (p : Item), Alike (blockOf k (p :: is)) (blockOf k (join o p is))
  | [], p => .refl _
  | s :: is, p => by
    simp only [join]
    cases h : two o p s with
    | none =>
      simp only [blockOf]
      exact ((AlikeS.refl _ |> fun r => Alike.cons r (join_alike k is s))).semisThen _
    | some q =>
      obtain ⟨xs, es, ys, fs, zs, h1, h2, h3, h4, -⟩ := two_eq h
      refine Alike.trans ?_ (join_alike k is q)
      simp only [blockOf, h1, h2, h3, h4]
      exact (one_merge ..).semisThen _

theorem joinAll_alike (k : Nat) (is : List Item) : Alike (blockOf k is) (blockOf k (joinAll o is)) := by
  cases is with
  | nil => exact .refl _
  | cons p is => exact join_alike k is p

theorem blockOf_semi : ∀ is : Items, blockOf is.semi.2 is.semi.1 = .semi (blockOf is.2 is.1)
  | ([], _) => rfl
  | (_ :: _, _) => rfl

/-! ### The tree -/

theorem lvl_m (env : LuaScope.Env) (n : Nat) (e : Ex) : lvl (mE S o env n e) = lvl e := by cases e <;> rfl
theorem pre_m (env : LuaScope.Env) (n : Nat) (e : Ex) : isPre (mE S o env n e) = isPre e := by cases e <;> rfl
theorem group_m (env : LuaScope.Env) (n : Nat) (e : Ex) : isGroup (mE S o env n e) = isGroup e := by cases e <;> rfl
theorem target_m (env : LuaScope.Env) (n : Nat) (e : Ex) : isTarget (mE S o env n e) = isTarget e := by cases e <;> rfl
theorem call_m (env : LuaScope.Env) (n : Nat) (e : Ex) : isCall (mE S o env n e) = isCall e := by cases e <;> rfl
theorem bareArg_m (env : LuaScope.Env) (n : Nat) (es : Exs) : bareArg (mEs S o env n es) = bareArg es := by
  cases es with
  | nil => rfl
  | cons e es => cases es <;> cases e <;> rfl
theorem targets_m (env : LuaScope.Env) : ∀ (es : Exs) (n : Nat), targets (mEs S o env n es) = targets es
  | .nil, _ => rfl
  | .cons e es, n => by rw [mEs, targets, targets, target_m, targets_m env es]
theorem nil_m {env : LuaScope.Env} {n : Nat} {es : Exs} : mEs S o env n es = .nil ↔ es = .nil := by cases es <;> simp [mEs]
theorem one_m {env : LuaScope.Env} {n : Nat} {es : Exs} (h : ∃ e, es = .cons e .nil) : ∃ e, mEs S o env n es = .cons e .nil := by
  obtain ⟨e, rfl⟩ := h; exact ⟨_, rfl⟩
theorem flagI_m (env : LuaScope.Env) (n : Nat) (i : If) : flagI (mI S o env n i) = flagI i := by cases i <;> rfl
theorem isElse_m (env : LuaScope.Env) (n : Nat) (t : Tail) : isElse (mT S o env n t) = isElse t := by cases t <;> rfl
theorem isLong_m (env : LuaScope.Env) (n : Nat) (i : If) : Mini.isLong (mI S o env n i) = Mini.isLong i := by cases i <;> rfl

theorem lead_mE (env : LuaScope.Env) : ∀ (e : Ex) (n : Nat), leadLp (mE S o env n e) = leadLp e
  | .bin _ l r, n => by rw [mE, leadLp, leadLp, lead_mE env l]
  | .member b x, n => by rw [mE, leadLp, leadLp, lead_mE env b]
  | .index b k, n => by rw [mE, leadLp, leadLp, lead_mE env b]
  | .call b t as, n => by rw [mE, leadLp, leadLp, lead_mE env b]
  | .method b x t as, n => by rw [mE, leadLp, leadLp, lead_mE env b]
  | .group e, n => rfl
  | .var _, _ | .num _, _ | .str _, _ | .cst _, _ | .vararg, _ | .func _ _, _ | .un _ _, _ | .table _, _ => rfl
theorem lead_mEs (env : LuaScope.Env) (n : Nat) (es : Exs) : leadEs (mEs S o env n es) = leadEs es := by
  cases es with
  | nil => rfl
  | cons e es => exact lead_mE env e n
theorem open_mE (env : LuaScope.Env) : ∀ (e : Ex) (n : Nat), openEnd (mE S o env n e) = openEnd e
  | .bin _ l r, n => by rw [mE, openEnd, openEnd, open_mE env r]
  | .un _ e, n => by rw [mE, openEnd, openEnd, open_mE env e]
  | .member b x, n => rfl
  | .index b k, n => rfl
  | .call b t as, n => rfl
  | .method b x t as, n => rfl
  | .group e, n => rfl
  | .var _, _ | .num _, _ | .str _, _ | .cst _, _ | .vararg, _ | .func _ _, _ | .table _, _ => rfl
theorem open_mEs (env : LuaScope.Env) : ∀ (es : Exs) (n : Nat), openEs (mEs S o env n es) = openEs es
  | .nil, _ => rfl
  | .cons e .nil, n => open_mE env e n
  | .cons e (.cons e' es), n => by
    have := open_mEs env (.cons e' es) (n + LuaScope.nE e)
    simpa [mEs, openEs] using this

/-- The statements of a block, as they are before they are merged with each other. -/
def items (S : Sem) (o : Merge) (env : LuaScope.Env) (n : Nat) (b : Block) : Block := blockOf (mB S o env n b).2 (mB S o env n b).1

theorem block_alike {env : LuaScope.Env} {n : Nat} {b : Block} (h : Alike b (items S o env n b)) : Alike b (block o (mB S o env n b)) :=
  h.trans (joinAll_alike _ _)

theorem items_semi (env : LuaScope.Env) (n : Nat) (b : Block) : items S o env n (.semi b) = .semi (items S o env n b) := by
  simp only [items, mB, blockOf_semi]
theorem items_cons (env : LuaScope.Env) (n : Nat) (s : St) (b : Block) : items S o env n (.cons s b) =
    .cons (mS S o env n s) (items S o (LuaScope.after env n s) (n + LuaScope.nS s) b) := rfl

mutual
theorem cE : ∀ (e : Ex) (env : LuaScope.Env) (n : Nat), calmE (mE S o env n e) = calmE e
  | .var _, _, _ | .num _, _, _ | .str _, _, _ | .cst _, _, _ | .vararg, _, _ => rfl
  | .func ps b, env, n => (block_alike (cB b _ _)).calm
  | .group e, env, n => cE e env n
  | .un _ e, env, n => cE e env n
  | .bin _ l r, env, n => by simp only [mE, calmE, cE l, cE r]
  | .member b _, env, n => cE b env n
  | .index b k, env, n => by simp only [mE, calmE, cE b, cE k]
  | .call b _ as, env, n => by simp only [mE, calmE, cE b, cEs as]
  | .method b _ _ as, env, n => by simp only [mE, calmE, cE b, cEs as]
  | .table its, env, n => cIts its env n
theorem cEs : ∀ (e : Exs) (env : LuaScope.Env) (n : Nat), calmEs (mEs S o env n e) = calmEs e
  | .nil, _, _ => rfl
  | .cons e es, env, n => by simp only [mEs, calmEs, cE e, cEs es]
theorem cIts : ∀ (e : Its) (env : LuaScope.Env) (n : Nat), calmIts (mIts S o env n e) = calmIts e
  | .nil, _, _ => rfl
  | .pos e es, env, n => by simp only [mIts, calmIts, cE e, cIts es]
  | .named _ e es, env, n => by simp only [mIts, calmIts, cE e, cIts es]
  | .keyed k e es, env, n => by simp only [mIts, calmIts, cE k, cE e, cIts es]
theorem cS : ∀ (s : St) (env : LuaScope.Env) (n : Nat), AlikeS s (mS S o env n s)
  | .do_ b, env, n => ⟨rfl, rfl, (block_alike (cB b env n)).calm, fun _ => rfl, fun _ => rfl, rfl, rfl, .inl, id⟩
  | .if_ i, env, n => cI i env n
  | .while_ c b, env, n => ⟨rfl, rfl, by simp only [mS, calmS, cE c, (block_alike (cB b env _)).calm], fun _ => rfl, fun _ => rfl, rfl, rfl, .inl, id⟩
  | .whileShort c b d, env, n => by
    have h : Alike b (block o (mB S o env (n + LuaScope.nE c) b)) := block_alike (cB b env (n + LuaScope.nE c))
    exact ⟨rfl, rfl, by simp only [mS, calmS, cE c, h.calm], fun sh => by simp only [mS, dangleS, h.dangle], fun L => by simp only [mS, condS, h.cond], rfl, rfl,
      h.opn true, h.bare false⟩
  | .repeat_ b c, env, n => by
    have h : Alike b (block o (mB S o env n b)) := block_alike (cB b env n)
    refine ⟨rfl, rfl, by simp only [mS, calmS, cE c, h.calm], fun sh => rfl, fun L => rfl, rfl, rfl, fun h => .inl ?_, id⟩
    simpa only [mS, openS, open_mE] using h
  | .fornum x a b c d, env, n => by
    have h : Alike d (block o (mB S o (LuaScope.bind env n [x]) (n + 1 + LuaScope.nE a + LuaScope.nE b + LuaScope.nEs c) d)) := block_alike (cB d (LuaScope.bind env n [x]) (n + 1 + LuaScope.nE a + LuaScope.nE b + LuaScope.nEs c))
    exact ⟨rfl, rfl, by simp only [mS, calmS, cE a, cE b, cEs c, h.calm], fun sh => rfl, fun L => rfl, rfl, rfl, .inl, id⟩
  | .forin xs es d, env, n => by
    have h : Alike d (block o (mB S o (LuaScope.bind env n xs) (n + xs.length + LuaScope.nEs es) d)) := block_alike (cB d (LuaScope.bind env n xs) (n + xs.length + LuaScope.nEs es))
    exact ⟨rfl, rfl, by simp only [mS, calmS, cEs es, h.calm], fun sh => rfl, fun L => rfl, rfl, rfl, .inl, id⟩
  | .break_, env, n => .refl _
  | .return_ es, env, n => by
    refine ⟨rfl, rfl, cEs es env n, fun sh => rfl, fun L => rfl, ?_, rfl, fun h => .inl ?_, id⟩
    · cases es <;> rfl
    · simpa only [mS, openS, open_mEs] using h
  | .local_ xs es, env, n => by
    refine ⟨rfl, rfl, cEs es env _, fun sh => rfl, fun L => rfl, rfl, rfl, fun h => .inl ?_, ?_⟩
    · simpa only [mS, openS, open_mEs] using h
    · cases es <;> exact id
  | .localfn x ps b, env, n => ⟨rfl, rfl, (block_alike (cB b _ _)).calm, fun _ => rfl, fun _ => rfl, rfl, rfl, .inl, id⟩
  | .goto_ _, env, n => .refl _
  | .label _, env, n => .refl _
  | .func g ps b, env, n => ⟨rfl, rfl, (block_alike (cB b _ _)).calm, fun _ => rfl, fun _ => rfl, rfl, rfl, .inl, id⟩
  | .assign ts es, env, n => by
    refine ⟨rfl, lead_mEs _ _ _, by simp only [mS, calmS, cEs ts, cEs es], fun sh => rfl, fun L => rfl, rfl, rfl, fun h => .inl ?_, id⟩
    simpa only [mS, openS, open_mEs] using h
  | .opassign u t e, env, n => by
    refine ⟨rfl, lead_mE _ _ _, by simp only [mS, calmS, cE t, cE e], fun sh => rfl, fun L => rfl, rfl, rfl, fun h => .inl ?_, id⟩
    simpa only [mS, openS, open_mE] using h
  | .call e, env, n => ⟨rfl, lead_mE _ _ _, cE e env n, fun sh => rfl, fun L => rfl, rfl, rfl, .inl, id⟩
  | .print es, env, n => ⟨rfl, rfl, rfl, fun sh => rfl, fun L => rfl, rfl, rfl, .inl, id⟩
theorem cI : ∀ (i : If) (env : LuaScope.Env) (n : Nat), AlikeS (.if_ i) (.if_ (mI S o env n i))
  | .long c b t, env, n => by
    have h : Alike b (block o (mB S o env (n + LuaScope.nE c) b)) := block_alike (cB b env (n + LuaScope.nE c))
    exact ⟨rfl, rfl, by simp only [mI, calmS, calmI, cE c, h.calm, cT t], fun sh => rfl, fun L => rfl, rfl, rfl, .inl, id⟩
  | .short c b d, env, n => by
    have h : Alike b (block o (mB S o env (n + LuaScope.nE c) b)) := block_alike (cB b env (n + LuaScope.nE c))
    exact ⟨rfl, rfl, by simp only [mI, calmS, calmI, cE c, h.calm], fun sh => rfl, fun L => by simp only [mI, condS, condI, h.cond], rfl, rfl,
      h.opn true, h.bare false⟩
  | .shortElse c b e d, env, n => by
    have h : Alike b (block o (mB S o env (n + LuaScope.nE c) b)) := block_alike (cB b env (n + LuaScope.nE c))
    have h2 : Alike e (block o (mB S o env (n + LuaScope.nE c + LuaScope.nB b) e)) := block_alike (cB e env (n + LuaScope.nE c + LuaScope.nB b))
    exact ⟨rfl, rfl, by simp only [mI, calmS, calmI, cE c, h.calm, h2.calm], fun sh => by simp only [mI, dangleS, dangleI, h2.dangle],
      fun L => by simp only [mI, condS, condI, h2.cond], rfl, rfl, h2.opn false, h2.bare false⟩
theorem cT : ∀ (t : Tail) (env : LuaScope.Env) (n : Nat), calmT (mT S o env n t) = calmT t
  | .end_, _, _ => rfl
  | .else_ b, env, n => (block_alike (cB b env n)).calm
  | .elseif_ i, env, n => (cI i env n).calm
theorem cB : ∀ (b : Block) (env : LuaScope.Env) (n : Nat), Alike b (items S o env n b)
  | .nil, _, _ => .refl _
  | .semi b, env, n => by rw [items_semi]; exact (cB b env n).semi
  | .cons s b, env, n => by rw [items_cons]; exact .cons (cS s env n) (cB b _ _)
end

/-! ### Joining -/

variable {x : Bool} {L : Paren.Lang}

theorem f_app {sh : Bool} : ∀ {es fs : Exs}, Mini.fEs x L sh es → Mini.fEs x L sh fs → Mini.fEs x L sh (appEs es fs)
  | .nil, _, _, h => h
  | .cons _ _, _, h, h' => ⟨h.1, f_app h.2 h'⟩

theorem f_semis {sh c : Bool} {b : Block} : ∀ {k}, fB x L sh c (semisThen b k) ↔ fB x L sh c b
  | 0 => .rfl
  | k + 1 => f_semis (k := k)

/-- No bare declaration is followed by a parenthesis, in this block. -/
def Calm : Block → Prop
  | .nil => True
  | .semi b => Calm b
  | .cons s b => (bareS s = true → leadB b = false) ∧ Calm b

theorem calmly {b : Block} : ∀ {k}, Calm (semisThen b k) ↔ Calm b
  | 0 => .rfl
  | k + 1 => calmly (k := k)

theorem lead_semis {b : Block} (h : leadB b = false) : ∀ k, leadB (semisThen b k) = false
  | 0 => h
  | _ + 1 => rfl

theorem join_fine (k : Nat) {sh c : Bool} : ∀ (is : List Item) (p : Item), fB x L sh c (blockOf k (p :: is)) → Calm (blockOf k (p :: is)) →
    fB x L sh c (blockOf k (join o p is))
  | [], p, h, _ => h
  | s :: is, p, h, hc => by
    simp only [join]
    have hp : fB x L sh c (.cons p.st (blockOf k (s :: is))) := f_semis.1 h
    have hcp : Calm (.cons p.st (blockOf k (s :: is))) := calmly.1 hc
    cases e : two o p s with
    | none =>
      simp only [blockOf]
      have ha := join_alike (o := o) k is s
      refine f_semis.2 ⟨hp.1, join_fine k is s hp.2.1 hcp.2, ?_, ?_, ?_, ?_⟩
      · rw [ha.lead]; exact hp.2.2.1
      · exact fun d h1 h2 => ha.nil (hp.2.2.2.1 d h1 h2)
      · rw [ha.semis]; exact hp.2.2.2.2.1
      · rw [ha.dos]; exact hp.2.2.2.2.2
    | some q =>
      obtain ⟨xs, es, ys, fs, zs, h1, h2, h3, h4, h5⟩ := two_eq e
      have hs : fB x L sh c (.cons s.st (blockOf k is)) := f_semis.1 hp.2.1
      have hcs : Calm (.cons s.st (blockOf k is)) := calmly.1 hcp.2
      have p1 := hp.1
      have s1 := hs.1
      rw [h1] at p1
      rw [h2] at s1 hs hcs
      simp only [fS] at p1 s1
      have hq : fB x L sh c (.cons q.st (blockOf k is)) := by
        rw [h4]
        refine ⟨?_, hs.2.1, ?_, ?_, ?_, ?_⟩
        · refine ⟨fun ez => ?_, fun z hz => (h5 z hz).elim (p1.2.1 z) (s1.2.1 z), f_app p1.2.2 s1.2.2⟩
          obtain ⟨es', he⟩ := two_ne e h4 ez
          rw [h1] at he
          exact p1.1 (by cases he; rfl)
        · simp only [openS]
          intro ho
          by_cases hf : fs = .nil
          · subst hf; exact hcs.1 rfl
          · rw [open_app _ _ hf] at ho; exact hs.2.2.1 ho
        · intro d hd; cases hd
        · intro hd; cases hd
        · intro hd; cases hd
      have hcq : Calm (.cons q.st (blockOf k is)) := by
        rw [h4]
        refine ⟨fun hb => hcs.1 ?_, hcs.2⟩
        cases es <;> cases fs <;> simp_all [appEs, bareS]
      exact join_fine k is q (by rw [blockOf]; exact f_semis.2 hq) (by rw [blockOf]; exact calmly.2 hcq)

theorem joinAll_fine (k : Nat) {sh c : Bool} (is : List Item) (h : fB x L sh c (blockOf k is)) (hc : Calm (blockOf k is)) : fB x L sh c (blockOf k (joinAll o is)) := by
  cases is with
  | nil => exact h
  | cons p is => exact join_fine k is p h hc

theorem quiet_calm : ∀ (b : Block) (env : LuaScope.Env) (n : Nat), QuietB b → Calm (items S o env n b)
  | .nil, _, _, _ => trivial
  | .semi b, env, n, h => by rw [items_semi]; exact quiet_calm b env n h
  | .cons s b, env, n, h => by
    rw [items_cons]
    refine ⟨fun hb => ?_, quiet_calm b _ _ h.2.1⟩
    rw [(cB b _ _).lead]
    exact h.2.2 ((cS s env n).bare hb)

theorem block_fine {sh c : Bool} {env : LuaScope.Env} {n : Nat} {b : Block} (h : fB x L sh c (items S o env n b)) (hq : QuietB b) :
    fB x L sh c (block o (mB S o env n b)) := joinAll_fine _ _ h (quiet_calm b env n hq)

mutual
theorem flE : ∀ (e : Ex) (sh : Bool) (env : LuaScope.Env) (n : Nat), fE x L sh e → QuietE e → fE x L sh (mE S o env n e)
  | .var _, _, _, _, _, _ | .num _, _, _, _, _, _ | .str _, _, _, _, _, _ | .cst _, _, _, _, _, _ | .vararg, _, _, _, _, _ => by simp only [mE, fE]
  | .func ps b, sh, env, n, h, q => block_fine (flB b sh true _ _ h q) q
  | .group e, sh, env, n, h, q => flE e sh env n h q
  | .un u e, sh, env, n, h, q => by
    simp only [mE, fE, lvl_m] at h ⊢
    exact ⟨h.1, h.2.1, flE e sh env n h.2.2 q⟩
  | .bin u l r, sh, env, n, h, q => by
    simp only [mE, fE, lvl_m] at h ⊢
    exact ⟨h.1, h.2.1, h.2.2.1, flE l sh env n h.2.2.2.1 q.1, flE r sh env _ h.2.2.2.2 q.2⟩
  | .member b y, sh, env, n, h, q => by
    simp only [mE, fE, pre_m] at h ⊢
    exact ⟨h.1, flE b sh env n h.2 q⟩
  | .index b k, sh, env, n, h, q => by
    simp only [mE, fE, pre_m] at h ⊢
    exact ⟨h.1, flE b sh env n h.2.1 q.1, flE k sh env _ h.2.2 q.2⟩
  | .call b t as, sh, env, n, h, q => by
    simp only [mE, fE, pre_m, bareArg_m] at h ⊢
    exact ⟨h.1, flE b sh env n h.2.1 q.1, flEs as sh env _ h.2.2.1 q.2, h.2.2.2⟩
  | .method b y t as, sh, env, n, h, q => by
    simp only [mE, fE, pre_m, bareArg_m] at h ⊢
    exact ⟨h.1, flE b sh env n h.2.1 q.1, flEs as sh env _ h.2.2.1 q.2, h.2.2.2⟩
  | .table its, sh, env, n, h, q => flIts its sh env n h q
theorem flEs : ∀ (e : Exs) (sh : Bool) (env : LuaScope.Env) (n : Nat), Mini.fEs x L sh e → QuietEs e → Mini.fEs x L sh (mEs S o env n e)
  | .nil, _, _, _, _, _ => trivial
  | .cons e es, sh, env, n, h, q => ⟨flE e sh env n h.1 q.1, flEs es sh env _ h.2 q.2⟩
theorem flIts : ∀ (e : Its) (sh : Bool) (env : LuaScope.Env) (n : Nat), fIts x L sh e → QuietIts e → fIts x L sh (mIts S o env n e)
  | .nil, _, _, _, _, _ => trivial
  | .pos e es, sh, env, n, h, q => ⟨flE e sh env n h.1 q.1, flIts es sh env _ h.2 q.2⟩
  | .named _ e es, sh, env, n, h, q => ⟨flE e sh env n h.1 q.1, flIts es sh env _ h.2 q.2⟩
  | .keyed k e es, sh, env, n, h, q => ⟨flE k sh env n h.1 q.1, flE e sh env _ h.2.1 q.2.1, flIts es sh env _ h.2.2 q.2.2⟩
theorem flS : ∀ (s : St) (sh c : Bool) (env : LuaScope.Env) (n : Nat), fS x L sh c s → QuietS s → fS x L sh c (mS S o env n s)
  | .do_ b, sh, c, env, n, h, q => block_fine (flB b sh true _ _ h q) q
  | .if_ i, sh, c, env, n, h, q => flI i sh c env n h q
  | .while_ e b, sh, c, env, n, h, q => ⟨flE e sh env n h.1 q.1, block_fine (flB b sh true _ _ h.2 q.2) q.2⟩
  | .whileShort e b d, sh, c, env, n, h, q => by
    have ha := block_alike (cB b env (n + LuaScope.nE e) (S := S) (o := o))
    simp only [mS, fS, group_m, cE, ha.calm, ha.lead, ha.dos] at h ⊢
    exact ⟨h.1, h.2.1, flE e _ env n h.2.2.1 q.1, block_fine (flB b _ d _ _ h.2.2.2.1 q.2) q.2, h.2.2.2.2⟩
  | .repeat_ b e, sh, c, env, n, h, q => ⟨block_fine (flB b sh true _ _ h.1 q.1) q.1, flE e sh _ _ h.2 q.2⟩
  | .fornum y a b s d, sh, c, env, n, h, q => by
    simp only [mS, fS] at h ⊢
    exact ⟨flE a sh env _ h.1 q.1, flE b sh env _ h.2.1 q.2.1, flEs s sh env _ h.2.2.1 q.2.2.1, h.2.2.2.1.imp (fun e => nil_m.2 e) one_m,
      block_fine (flB d sh true _ _ h.2.2.2.2 q.2.2.2) q.2.2.2⟩
  | .forin xs es d, sh, c, env, n, h, q => by
    simp only [mS, fS] at h ⊢
    exact ⟨h.1, fun e => h.2.1 (nil_m.1 e), flEs es sh env _ h.2.2.1 q.1, block_fine (flB d sh true _ _ h.2.2.2 q.2) q.2⟩
  | .break_, _, _, _, _, _, _ => trivial
  | .return_ es, sh, c, env, n, h, q => flEs es sh env n h q
  | .local_ xs es, sh, c, env, n, h, q => ⟨h.1, h.2.1, flEs es sh env _ h.2.2 q⟩
  | .localfn y ps b, sh, c, env, n, h, q => block_fine (flB b sh true _ _ h q) q
  | .goto_ _, _, _, _, _, _, _ => trivial
  | .label _, _, _, _, _, _, _ => trivial
  | .func g ps b, sh, c, env, n, h, q => block_fine (flB b sh true _ _ h q) q
  | .assign ts es, sh, c, env, n, h, q => by
    simp only [mS, fS, targets_m] at h ⊢
    exact ⟨h.1, fun e => h.2.1 (nil_m.1 e), fun e => h.2.2.1 (nil_m.1 e), flEs ts sh env _ h.2.2.2.1 q.1, flEs es sh env _ h.2.2.2.2 q.2⟩
  | .opassign u t e, sh, c, env, n, h, q => by
    simp only [mS, fS, target_m] at h ⊢
    exact ⟨h.1, flE t sh env _ h.2.1 q.1, flE e sh env _ h.2.2 q.2⟩
  | .call e, sh, c, env, n, h, q => by
    simp only [mS, fS, call_m] at h ⊢
    exact ⟨h.1, flE e sh env _ h.2 q⟩
  | .print es, sh, c, env, n, h, q => by
    simp only [mS, fS] at h ⊢
    exact ⟨fun e => h.1 (nil_m.1 e), flEs es true env _ h.2 q⟩
theorem flI : ∀ (i : If) (sh c : Bool) (env : LuaScope.Env) (n : Nat), fI x L sh c i → QuietI i → fI x L sh c (mI S o env n i)
  | .long e b t, sh, c, env, n, h, q => by
    have ha := block_alike (cB b env (n + LuaScope.nE e) (S := S) (o := o))
    simp only [mI, fI, isElse_m, ha.dangle] at h ⊢
    exact ⟨flE e sh env n h.1 q.1, block_fine (flB b sh true _ _ h.2.1 q.2.1) q.2.1, flT t sh env _ h.2.2.1 q.2.2, h.2.2.2⟩
  | .short e b d, sh, c, env, n, h, q => by
    have ha := block_alike (cB b env (n + LuaScope.nE e) (S := S) (o := o))
    simp only [mI, fI, group_m, cE, ha.calm, ha.lead, ha.dos] at h ⊢
    exact ⟨h.1, h.2.1, flE e _ env n h.2.2.1 q.1, block_fine (flB b _ d _ _ h.2.2.2.1 q.2) q.2, h.2.2.2.2⟩
  | .shortElse e b b' d, sh, c, env, n, h, q => by
    have ha := block_alike (cB b env (n + LuaScope.nE e) (S := S) (o := o))
    have ha' := block_alike (cB b' env (n + LuaScope.nE e + LuaScope.nB b) (S := S) (o := o))
    simp only [mI, fI, group_m, cE, ha.calm, ha'.calm, ha.lead, ha.dos, ha.dangle] at h ⊢
    exact ⟨h.1, h.2.1, flE e _ env n h.2.2.1 q.1, block_fine (flB b _ true _ _ h.2.2.2.1 q.2.1) q.2.1,
      block_fine (flB b' _ d _ _ h.2.2.2.2.1 q.2.2) q.2.2, h.2.2.2.2.2⟩
theorem flT : ∀ (t : Tail) (sh : Bool) (env : LuaScope.Env) (n : Nat), fT x L sh t → QuietT t → fT x L sh (mT S o env n t)
  | .end_, _, _, _, _, _ => trivial
  | .else_ b, sh, env, n, h, q => block_fine (flB b sh true _ _ h q) q
  | .elseif_ i, sh, env, n, h, q => by
    simp only [mT, fT, isLong_m] at h ⊢
    exact ⟨h.1, flI i sh true env n h.2 q⟩
theorem flB : ∀ (b : Block) (sh c : Bool) (env : LuaScope.Env) (n : Nat), fB x L sh c b → QuietB b → fB x L sh c (items S o env n b)
  | .nil, _, _, _, _, _, _ => trivial
  | .semi b, sh, c, env, n, h, q => by rw [items_semi]; exact flB b sh c env n h q
  | .cons s b, sh, c, env, n, h, q => by
    rw [items_cons]
    have hs := cS s env n (S := S) (o := o)
    have hb := cB b (LuaScope.after env n s) (n + LuaScope.nS s) (S := S) (o := o)
    refine ⟨flS s sh c env n h.1 q.1, flB b sh c _ _ h.2.1 q.2.1, ?_, ?_, ?_, ?_⟩
    · rw [hb.lead]
      exact fun ho => (hs.opn ho).elim h.2.2.1 q.2.2
    · rw [hs.flag]
      exact fun d h1 h2 => hb.nil (h.2.2.2.1 d h1 h2)
    · rw [hs.ret, hb.semis]; exact h.2.2.2.2.1
    · rw [hs.cond, hb.dos]; exact h.2.2.2.2.2
end

theorem fine_merge {lb : List Nm} {b : Block} (h : Mini.Fine x L b) (hq : QuietB b) : Mini.Fine x L (mergeTree S o lb b) :=
  ⟨block_fine (flB b false false _ _ h.1 hq) hq, by rw [show endsRet (mergeTree S o lb b) = endsRet b from (block_alike (cB b _ _)).ret]; exact h.2⟩

end Verif.Elab.Mt
