import Verif.LintOk
/-
The sets that the linter collects, for C70.
-/
namespace Verif.Lint
open Syntax LuaLint LuaScope LuaUses
open Resolve hiding named isEnv

/-! ### Depths -/

/-- All events are at this depth at least. -/
def Deep (k : Nat) (es : List (Ev × Site)) : Prop := ∀ e ∈ es, k ≤ e.2.fdepth

theorem Deep.nil {k : Nat} : Deep k [] := by simp [Deep]
theorem deep_append {k : Nat} {a b : List (Ev × Site)} : Deep k (a ++ b) ↔ Deep k a ∧ Deep k b := by
  simp only [Deep, List.mem_append]
  exact ⟨fun h => ⟨fun e he => h e (.inl he), fun e he => h e (.inr he)⟩, fun h e he => he.elim (h.1 e) (h.2 e)⟩
theorem deep_cons {k : Nat} {c : Ctx} {r : Role} {e : Ev} {a : List (Ev × Site)} : Deep k (c.at r e :: a) ↔ k ≤ c.fdepth ∧ Deep k a := by
  simp [Deep, Ctx.at]
theorem deep_map {k : Nat} {α : Type} {c : Ctx} {r : Role} {f : α → Ev} {xs : List α} (h : k ≤ c.fdepth) :
    Deep k (xs.map fun x => c.at r (f x)) := by
  intro e he
  obtain ⟨x, -, rfl⟩ := List.mem_map.1 he
  exact h
theorem deep_ps {k : Nat} {c : Ctx} (len : Nat) (h : k ≤ c.fdepth) : ∀ (ps : List Param) (i : Nat), Deep k (lvPs c len i ps)
  | [], _ => Deep.nil
  | none :: ps, i => deep_ps len h ps (i + 1)
  | some _ :: ps, i => deep_cons.2 ⟨h, deep_ps len h ps (i + 1)⟩
theorem deep_head {k : Nat} {c : Ctx} {self : Bool} {ps : List Param} (h : k ≤ c.fdepth) : Deep k (lvHead c self ps) :=
  deep_cons.2 ⟨h, deep_append.2 ⟨deep_ps _ h _ _, deep_cons.2 ⟨h, deep_cons.2 ⟨h, Deep.nil⟩⟩⟩⟩
theorem deep_foot {k : Nat} {c : Ctx} (h : k ≤ c.fdepth) : Deep k (lvFoot c) := deep_cons.2 ⟨h, deep_cons.2 ⟨h, Deep.nil⟩⟩
theorem deep_fn {k : Nat} {c : Ctx} {f : FnName} (h : k ≤ c.fdepth) : Deep k (lvFn c f) := deep_cons.2 ⟨h, deep_map h⟩
theorem le_func {k : Nat} {c : Ctx} {x : Option Nm} (h : k ≤ c.fdepth) : k ≤ (c.func x).fdepth := by simp only [Ctx.func]; omega
theorem le_block {k : Nat} {c : Ctx} (h : k ≤ c.fdepth) : k ≤ c.block.fdepth := h

set_option hygiene false in
macro "deep" : tactic => `(tactic| simp only [deep_append, deep_cons, deep_head h, deep_head (le_func h), deep_foot h, deep_fn h, deep_map h,
  deep_map (le_block h), Deep.nil, h, le_block h, and_true, true_and, *])

mutual
theorem dE {k : Nat} : ∀ (e : Ex) (c : Ctx) (r : Role), k ≤ c.fdepth → Deep k (lvE c r e)
  | .var x, c, r, h => by rw [lvE]; deep
  | .num _, _, _, _ => Deep.nil
  | .str _, _, _, _ => Deep.nil
  | .cst _, _, _, _ => Deep.nil
  | .vararg, _, _, _ => Deep.nil
  | .func ps b, c, r, h => by have := dB b (c.func none) (le_func h); rw [lvE]; deep
  | .group e, c, r, h => by rw [lvE]; exact dE e c _ h
  | .un _ e, c, r, h => by rw [lvE]; exact dE e c _ h
  | .bin _ l r, c, _, h => by have := dE l c .other h; have := dE r c .other h; rw [lvE]; deep
  | .member b x, c, r, h => by have := dE b c .other h; rw [lvE]; deep
  | .index b x, c, r, h => by have := dE b c .other h; have := dE x c .other h; rw [lvE]; deep
  | .call b _ as, c, r, h => by have := dE b c .other h; have := dEs as c .other h; rw [lvE]; deep
  | .method b x _ as, c, r, h => by have := dE b c .other h; have := dEs as c .other h; rw [lvE]; deep
  | .table its, c, r, h => by rw [lvE]; exact dIts its c _ h
theorem dEs {k : Nat} : ∀ (e : Exs) (c : Ctx) (r : Role), k ≤ c.fdepth → Deep k (lvEs c r e)
  | .nil, _, _, _ => Deep.nil
  | .cons e es, c, r, h => by have := dE e c r h; have := dEs es c r h; rw [lvEs]; deep
theorem dSrc {k : Nat} : ∀ (e : Exs) (c : Ctx) (fs : List Bool), k ≤ c.fdepth → Deep k (lvSrc c fs e)
  | .nil, _, _, _ => by simp only [lvSrc]; exact Deep.nil
  | .cons (.table its) es, c, fs, h => by have := dIts its c (fs.headD false) h; have := dSrc es c fs.tail h; rw [lvSrc]; deep
  | .cons (.var x) es, c, fs, h => by have := dE (.var x) c .other h; have := dSrc es c fs.tail h; simp only [lvSrc]; deep
  | .cons (.num x) es, c, fs, h => by have := dE (.num x) c .other h; have := dSrc es c fs.tail h; simp only [lvSrc]; deep
  | .cons (.str x) es, c, fs, h => by have := dE (.str x) c .other h; have := dSrc es c fs.tail h; simp only [lvSrc]; deep
  | .cons (.cst x) es, c, fs, h => by have := dE (.cst x) c .other h; have := dSrc es c fs.tail h; simp only [lvSrc]; deep
  | .cons .vararg es, c, fs, h => by have := dE .vararg c .other h; have := dSrc es c fs.tail h; simp only [lvSrc]; deep
  | .cons (.func x y) es, c, fs, h => by have := dE (.func x y) c .other h; have := dSrc es c fs.tail h; simp only [lvSrc]; deep
  | .cons (.group x) es, c, fs, h => by have := dE (.group x) c .other h; have := dSrc es c fs.tail h; simp only [lvSrc]; deep
  | .cons (.un x y) es, c, fs, h => by have := dE (.un x y) c .other h; have := dSrc es c fs.tail h; simp only [lvSrc]; deep
  | .cons (.bin x y z) es, c, fs, h => by have := dE (.bin x y z) c .other h; have := dSrc es c fs.tail h; simp only [lvSrc]; deep
  | .cons (.member x y) es, c, fs, h => by have := dE (.member x y) c .other h; have := dSrc es c fs.tail h; simp only [lvSrc]; deep
  | .cons (.index x y) es, c, fs, h => by have := dE (.index x y) c .other h; have := dSrc es c fs.tail h; simp only [lvSrc]; deep
  | .cons (.call x y z) es, c, fs, h => by have := dE (.call x y z) c .other h; have := dSrc es c fs.tail h; simp only [lvSrc]; deep
  | .cons (.method x y z w) es, c, fs, h => by
    have := dE (.method x y z w) c .other h; have := dSrc es c fs.tail h; simp only [lvSrc]; deep
theorem dIts {k : Nat} : ∀ (e : Its) (c : Ctx) (f : Bool), k ≤ c.fdepth → Deep k (lvIts c f e)
  | .nil, _, _, _ => Deep.nil
  | .pos e its, c, f, h => by have := dE e c .other h; have := dIts its c f h; rw [lvIts]; deep
  | .named x e its, c, f, h => by have := dE e c .other h; have := dIts its c f h; rw [lvIts]; deep
  | .keyed x e its, c, f, h => by have := dE x c .other h; have := dE e c .other h; have := dIts its c f h; rw [lvIts]; deep
theorem dS {k : Nat} : ∀ (s : St) (c : Ctx), k ≤ c.fdepth → Deep k (lvS c s)
  | .do_ b, c, h => by have := dB b c.block h; rw [lvS]; deep
  | .if_ i, c, h => by rw [lvS]; exact dI i c h
  | .while_ d b, c, h => by have := dE d c .other h; have := dB b c.block h; rw [lvS]; deep
  | .whileShort d b _, c, h => by have := dE d c .other h; have := dB b c.block h; rw [lvS]; deep
  | .repeat_ b d, c, h => by have := dE d c.block .other h; have := dB b c.block h; rw [lvS]; deep
  | .fornum x e f g d, c, h => by
    have := dE e c .other h; have := dE f c .other h; have := dEs g c .other h; have := dB d c.block h; rw [lvS]; deep
  | .forin xs es d, c, h => by have := dEs es c .other h; have := dB d c.block h; rw [lvS]; deep
  | .break_, _, _ => Deep.nil
  | .return_ es, c, h => by rw [lvS]; exact dEs es c _ h
  | .local_ xs es, c, h => by have := dSrc es c (xs.map (·.1 == envName)) h; rw [lvS]; deep
  | .localfn x ps b, c, h => by have := dB b (c.func (some x)) (le_func h); rw [lvS]; deep
  | .goto_ x, c, h => by rw [lvS]; deep
  | .label x, c, h => by rw [lvS]; deep
  | .func f ps b, c, h => by have := dB b (c.func (some (funcName f))) (le_func h); rw [lvS]; deep
  | .assign ts es, c, h => by have := dEs ts c .assign h; have := dSrc es c (envTargets ts) h; rw [lvS]; deep
  | .opassign _ t e, c, h => by have := dE t c .opAssign h; have := dE e c .other h; rw [lvS]; deep
  | .call e, c, h => by rw [lvS]; exact dE e c _ h
  | .print es, c, h => by have := dEs es c .other h; rw [lvS]; deep
theorem dI {k : Nat} : ∀ (i : If) (c : Ctx), k ≤ c.fdepth → Deep k (lvI c i)
  | .long d b t, c, h => by have := dE d c .other h; have := dB b c.block h; have := dT t c h; rw [lvI]; deep
  | .short d b _, c, h => by have := dE d c .other h; have := dB b c.block h; rw [lvI]; deep
  | .shortElse d b f _, c, h => by have := dE d c .other h; have := dB b c.block h; have := dB f c.block h; rw [lvI]; deep
theorem dT {k : Nat} : ∀ (t : Tail) (c : Ctx), k ≤ c.fdepth → Deep k (lvT c t)
  | .end_, _, _ => Deep.nil
  | .else_ b, c, h => by have := dB b c.block h; rw [lvT]; deep
  | .elseif_ i, c, h => by rw [lvT]; exact dI i c h
theorem dB {k : Nat} : ∀ (b : Block) (c : Ctx), k ≤ c.fdepth → Deep k (lvB c b)
  | .nil, _, _ => Deep.nil
  | .semi b, c, h => by rw [lvB]; exact dB b c h
  | .cons s b, c, h => by have := dS s c h; have := dB b c h; rw [lvB]; deep
end

theorem lrun_deep {k : Nat} : ∀ (es : List (Ev × Site)) (s : State), Deep k es → ∀ p ∈ lrun s es, k ≤ p.2.fdepth
  | [], _, _ => by simp [lrun]
  | e :: es, s, h => by
    intro p hp
    rw [lrun] at hp
    rcases List.mem_append.1 hp with hp | hp
    · obtain ⟨n, -, rfl⟩ := List.mem_map.1 hp
      exact h e (by simp)
    · exact lrun_deep es _ (fun e he => h e (by simp [he])) p hp

theorem sites_deep (lb : List Nm) (b : Block) : ∀ p ∈ sites lb b, 1 ≤ p.2.fdepth := by
  refine lrun_deep _ _ (deep_cons.2 ⟨Nat.le_refl 1, deep_append.2 ⟨dB b top (Nat.le_refl 1), deep_cons.2 ⟨Nat.le_refl 1, Deep.nil⟩⟩⟩)

/-! ### Looking up depths -/

section
variable {lb : List Nm} {b : Block}

theorem mem_sites {p : Node × Site × Env} (h : p ∈ vsites lb b) : (p.1, p.2.1) ∈ sites lb b := by
  rw [← vsites_sites]; exact List.mem_map.2 ⟨p, h, rfl⟩

theorem mem_program {p : Node × Site × Env} (h : p ∈ vsites lb b) : toAt p ∈ LuaUses.program lb b := by
  rw [← vsites_at]; exact List.mem_map.2 ⟨p, h, rfl⟩

theorem of_sites {q : Node × Site} (h : q ∈ sites lb b) : ∃ p ∈ vsites lb b, q = (p.1, p.2.1) := by
  rw [← vsites_sites] at h
  obtain ⟨p, hp, rfl⟩ := List.mem_map.1 h
  exact ⟨p, hp, rfl⟩

theorem of_program {a : At} (h : a ∈ LuaUses.program lb b) : ∃ p ∈ vsites lb b, a = toAt p := by
  rw [← vsites_at] at h
  obtain ⟨p, hp, rfl⟩ := List.mem_map.1 h
  exact ⟨p, hp, rfl⟩

theorem node_ok {p : Node × Site × Env} (h : p ∈ vsites lb b) :
    NodeOk (final lb b).parents (final lb b).labParents (allDecls lb b) p.1 := by
  refine (nodes_ok lb b).2 p.1 ?_
  rw [← sites_fst]
  exact List.mem_map.2 ⟨_, mem_sites h, rfl⟩

theorem loc_mem {p : Node × Site × Env} {v : RVar} (h : p ∈ vsites lb b) (hr : p.1.ref = .loc v) : v ∈ allDecls lb b := by
  have := node_ok h
  rw [NodeOk, hr] at this
  exact (findIn_some this.1).1

theorem env_mem {p : Node × Site × Env} {v : RVar} (h : p ∈ vsites lb b) (hr : p.1.ref = .glob (some v)) : v ∈ allDecls lb b := by
  have := node_ok h
  rw [NodeOk, hr] at this
  exact (findIn_some this.2.1).1

theorem mem_decls {v : RVar} : v ∈ declsOf (nodes lb b) ↔ ∃ p ∈ vsites lb b, p.1.ref = .bind v := by
  rw [← sites_fst, declsOf, List.mem_filterMap]
  constructor
  · rintro ⟨n, hn, he⟩
    obtain ⟨q, hq, rfl⟩ := List.mem_map.1 hn
    obtain ⟨p, hp, rfl⟩ := of_sites hq
    refine ⟨p, hp, ?_⟩
    simp only at he
    cases hr : p.1.ref <;> rw [hr] at he <;> simp_all
  · rintro ⟨p, hp, hr⟩
    exact ⟨p.1, List.mem_map.2 ⟨_, mem_sites hp, rfl⟩, by rw [hr]⟩

/-- The depths of a declared local are those of its declaration. -/
theorem levels_decl {v : RVar} (h : lb.length < v.id) (hv : v ∈ allDecls lb b) :
    ∃ p ∈ vsites lb b, p.1.ref = .bind v ∧ levels (sites lb b) v = (p.2.1.fdepth, p.2.1.depth) := by
  rcases mem_all hv with ⟨-, h2, -⟩ | ⟨h1, -, -⟩
  · omega
  · obtain ⟨p, hp, hr⟩ := mem_decls.1 h1
    unfold levels
    cases hf : (sites lb b).find? (fun p => p.1.ref == .bind v) with
    | none =>
      rw [List.find?_eq_none] at hf
      exact absurd (by simp [hr]) (hf _ (mem_sites hp))
    | some q =>
      obtain ⟨p', hp', rfl⟩ := of_sites (List.mem_of_find?_eq_some hf)
      have := List.find?_some hf
      exact ⟨p', hp', by simpa using this, rfl⟩

theorem levels_root {v : RVar} (h : v.id ≤ lb.length) : levels (sites lb b) v = (0, 0) := by
  unfold levels
  cases hf : (sites lb b).find? (fun p => p.1.ref == .bind v) with
  | none => rfl
  | some q =>
    obtain ⟨p', hp', rfl⟩ := of_sites (List.mem_of_find?_eq_some hf)
    have hr := List.find?_some hf
    simp only [beq_iff_eq] at hr
    have := (decl_mem (mem_decls.2 ⟨p', hp', hr⟩)).2
    omega

theorem levels_zero {v : RVar} (hv : v ∈ allDecls lb b) : (levels (sites lb b) v).1 = 0 ↔ v.id ≤ lb.length := by
  by_cases h : v.id ≤ lb.length
  · simp [levels_root h, h]
  · obtain ⟨p, hp, -, hl⟩ := levels_decl (by omega) hv
    have := sites_deep lb b _ (mem_sites hp)
    rw [hl]
    simp only at this ⊢
    omega

theorem builtin_iff {v : RVar} (hv : v ∈ allDecls lb b) : builtin v = true ↔ 1 ≤ v.id ∧ v.id ≤ lb.length := by
  simp only [builtin, Bool.and_eq_true, beq_iff_eq, bne_iff_ne]
  rcases mem_all hv with ⟨h1, h2, -⟩ | ⟨-, h2, h3⟩ <;> omega

theorem global_iff {p : Node × Site × Env} (h : p ∈ vsites lb b) : rootGlobal (sites lb b) p.1 = true ↔ Global lb (toAt p) := by
  have hg := vsites_good lb b p h
  have hu : ∀ r, howUse r ∈ [How.read, .assigned, .changed, .func] := by intro r; cases r <;> simp [howUse]
  unfold rootGlobal Global
  cases hr : p.1.ref with
  | bind v => simp [toAt, howOf, hr]
  | mem f => simp [toAt, howOf, hr]
  | label v => simp [toAt, howOf, hr]
  | goto_ => simp [toAt, howOf, hr]
  | loc v =>
    simp only [Good, hr] at hg
    simp only [toAt, howOf, hr, hg, hu, true_and]
    exact builtin_iff (loc_mem h hr)
  | glob e =>
    simp only [Good, hr] at hg
    simp only [toAt, howOf, hr, hg.1, hu, true_and, Resolve.nm_env, ← hg.2]
    cases e with
    | none => simp
    | some v => simpa using levels_zero (env_mem h hr)

theorem use_of_global {p : Node × Site × Env} (h : Global lb (toAt p)) : (toAt p).how = howUse p.2.1.role := by
  have := h.1
  revert this
  simp only [toAt, howOf]
  cases p.1.ref <;> simp

theorem anyTarget_iff (t : Site) : t.anyTarget = true ↔ howUse t.role ∈ [How.assigned, .changed, .func] := by
  unfold Site.anyTarget
  cases t.role <;> simp [howUse]

theorem not_anyTarget (t : Site) : t.anyTarget = false ↔ howUse t.role = .read := by
  unfold Site.anyTarget
  cases t.role <;> simp [howUse]

theorem defines_iff (t : Site) : defines t = true ↔ (howUse t.role = .assigned ∨ howUse t.role = .func) ∧ placeOf t.fns ≠ .inside := by
  have h1 : (t.role == .assign || t.role == .func) = true ↔ (howUse t.role = .assigned ∨ howUse t.role = .func) := by
    cases t.role <;> simp [howUse]
  have h2 : (match t.fns with | [] => true | f :: r => f == some (nm "_init") && r.isEmpty) = true ↔ placeOf t.fns ≠ .inside := by
    rcases t.fns with _ | ⟨_ | y, _ | ⟨z, r⟩⟩
    · simp [placeOf]
    · simp [placeOf]
    · simp [placeOf]
    · by_cases hy : y = nm "_init" <;> simp [placeOf, hy]
    · simp [placeOf]
  unfold defines
  rw [Bool.and_eq_true, h1]
  exact and_congr Iff.rfl h2

/-! ### The sets -/

theorem mem_filter_names {f : Node × Site → Bool} {x : Nm} :
    x ∈ ((sites lb b).filter f).map (·.1.name) ↔ ∃ p ∈ vsites lb b, f (p.1, p.2.1) = true ∧ p.1.name = x := by
  simp only [List.mem_map, List.mem_filter]
  constructor
  · rintro ⟨q, ⟨hq, hf⟩, rfl⟩
    obtain ⟨p, hp, rfl⟩ := of_sites hq
    exact ⟨p, hp, hf, rfl⟩
  · rintro ⟨p, hp, hf, rfl⟩
    exact ⟨_, ⟨mem_sites hp, hf⟩, rfl⟩

theorem custom_iff (o : Opts) (x : Nm) : x ∈ customGlobals o (sites lb b) ↔ Defined o lb (LuaUses.program lb b) x := by
  rw [customGlobals, List.mem_append, mem_filter_names, Defined]
  refine or_congr Iff.rfl ⟨?_, ?_⟩
  · rintro ⟨p, hp, hf, rfl⟩
    rw [Bool.and_eq_true, global_iff hp, defines_iff] at hf
    exact ⟨_, mem_program hp, hf.1, rfl, by rw [use_of_global hf.1]; exact hf.2⟩
  · rintro ⟨a, ha, hg, rfl, hd⟩
    obtain ⟨p, hp, rfl⟩ := of_program ha
    rw [use_of_global hg] at hd
    exact ⟨p, hp, by rw [Bool.and_eq_true, global_iff hp, defines_iff]; exact ⟨hg, hd⟩, rfl⟩

theorem assigned_iff (x : Nm) : x ∈ assignedGlobals (sites lb b) ↔ GlobalWritten lb (LuaUses.program lb b) x := by
  rw [assignedGlobals, mem_filter_names, GlobalWritten]
  refine ⟨?_, ?_⟩
  · rintro ⟨p, hp, hf, rfl⟩
    rw [Bool.and_eq_true, global_iff hp, anyTarget_iff] at hf
    exact ⟨_, mem_program hp, hf.1, rfl, by rw [use_of_global hf.1]; exact hf.2⟩
  · rintro ⟨a, ha, hg, rfl, hd⟩
    obtain ⟨p, hp, rfl⟩ := of_program ha
    rw [use_of_global hg] at hd
    exact ⟨p, hp, by rw [Bool.and_eq_true, global_iff hp, anyTarget_iff]; exact ⟨hg, hd⟩, rfl⟩

theorem used_iff (o : Opts) (x : Nm) : x ∈ usedGlobals o (sites lb b) ↔ GlobalRead o lb (LuaUses.program lb b) x := by
  rw [usedGlobals, List.mem_append, mem_filter_names, GlobalRead]
  refine or_congr Iff.rfl ⟨?_, ?_⟩
  · rintro ⟨p, hp, hf, rfl⟩
    rw [Bool.and_eq_true, global_iff hp, Bool.not_eq_true', not_anyTarget] at hf
    exact ⟨_, mem_program hp, hf.1, rfl, by rw [use_of_global hf.1]; exact hf.2⟩
  · rintro ⟨a, ha, hg, rfl, hd⟩
    obtain ⟨p, hp, rfl⟩ := of_program ha
    rw [use_of_global hg] at hd
    exact ⟨p, hp, by rw [Bool.and_eq_true, global_iff hp, Bool.not_eq_true', not_anyTarget]; exact ⟨hg, hd⟩, rfl⟩

theorem mem_filter_locals {f : Node × Site → Bool} {v : RVar} :
    v ∈ ((sites lb b).filter f).filterMap (fun p => localOf p.1) ↔ ∃ p ∈ vsites lb b, f (p.1, p.2.1) = true ∧ p.1.ref = .loc v := by
  simp only [List.mem_filterMap, List.mem_filter]
  have hl : ∀ n : Node, localOf n = some v ↔ n.ref = .loc v := by
    intro n; unfold localOf; cases n.ref <;> simp
  constructor
  · rintro ⟨q, ⟨hq, hf⟩, h⟩
    obtain ⟨p, hp, rfl⟩ := of_sites hq
    exact ⟨p, hp, hf, (hl _).1 h⟩
  · rintro ⟨p, hp, hf, h⟩
    exact ⟨_, ⟨mem_sites hp, hf⟩, (hl _).2 h⟩

/-- A name that refers to a declaration. -/
theorem loc_iff {p : Node × Site × Env} (h : p ∈ vsites lb b) {v : RVar} (hv : v ∈ allDecls lb b) :
    p.1.ref = .loc v ↔ (toAt p).how ∈ [How.read, .assigned, .changed, .func] ∧ look p.2.2 p.1.name = some v.id := by
  have hg := vsites_good lb b p h
  have hu : ∀ r, howUse r ∈ [How.read, .assigned, .changed, .func] := by intro r; cases r <;> simp [howUse]
  cases hr : p.1.ref with
  | bind v => simp [toAt, howOf, hr]
  | mem f => simp [toAt, howOf, hr]
  | label v => simp [toAt, howOf, hr]
  | goto_ => simp [toAt, howOf, hr]
  | loc w =>
    simp only [Good, hr] at hg
    simp only [toAt, howOf, hr, hg, hu, true_and, Ref.loc.injEq, Option.some.injEq]
    exact ⟨fun h => by rw [h], fun he => id_inj (loc_mem h hr) hv he⟩
  | glob e =>
    simp only [Good, hr] at hg
    simp [hg.1]

theorem how_loc {p : Node × Site × Env} {v : RVar} (h : p.1.ref = .loc v) : (toAt p).how = howUse p.2.1.role := by
  simp only [toAt, howOf, h]

theorem usedLocals_iff {v : RVar} (hv : v ∈ allDecls lb b) : v ∈ usedLocals (sites lb b) ↔ LocalRead (LuaUses.program lb b) v.id := by
  rw [usedLocals, mem_filter_locals, LocalRead]
  constructor
  · rintro ⟨p, hp, hf, hr⟩
    rw [Bool.not_eq_true', not_anyTarget] at hf
    exact ⟨_, mem_program hp, by rw [how_loc hr]; exact hf, ((loc_iff hp hv).1 hr).2⟩
  · rintro ⟨a, ha, hh, hl⟩
    obtain ⟨p, hp, rfl⟩ := of_program ha
    have hr := (loc_iff hp hv).2 ⟨by rw [hh]; simp, hl⟩
    rw [how_loc hr] at hh
    exact ⟨p, hp, by rw [Bool.not_eq_true', not_anyTarget]; exact hh, hr⟩

theorem assignedLocals_iff {v : RVar} (hv : v ∈ allDecls lb b) : v ∈ assignedLocals (sites lb b) ↔ LocalWritten (LuaUses.program lb b) v.id := by
  rw [assignedLocals, mem_filter_locals, LocalWritten]
  constructor
  · rintro ⟨p, hp, hf, hr⟩
    rw [anyTarget_iff] at hf
    exact ⟨_, mem_program hp, by rw [how_loc hr]; exact hf, ((loc_iff hp hv).1 hr).2⟩
  · rintro ⟨a, ha, hh, hl⟩
    obtain ⟨p, hp, rfl⟩ := of_program ha
    have hr := (loc_iff hp hv).2 ⟨by revert hh; simp only [List.mem_cons]; exact fun h => .inr h, hl⟩
    rw [how_loc hr] at hh
    exact ⟨p, hp, (anyTarget_iff _).2 hh, hr⟩

end

end Verif.Lint
