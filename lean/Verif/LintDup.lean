import Verif.LintMore
import Mathlib.Tactic.SplitIfs
/-
The warnings one by one, for C70.
-/
namespace Verif.Lint
open Syntax LuaLint LuaScope LuaUses
open Resolve hiding named isEnv

section
variable {lb : List Nm} {b : Block}

theorem pairwise_inj {α : Type} {f : α → Option RVar} : ∀ {l : List α}, (l.filterMap f).Pairwise (fun a b => a.id < b.id) →
    ∀ {p q : α} {v w : RVar}, p ∈ l → q ∈ l → f p = some v → f q = some w → v.id = w.id → p = q
  | [], _, _, _, _, _, hp, _, _, _, _ => by cases hp
  | a :: l, h, p, q, v, w, hp, hq, hv, hw, he => by
    have hmem : ∀ {x u}, x ∈ l → f x = some u → u ∈ l.filterMap f := fun h1 h2 => List.mem_filterMap.2 ⟨_, h1, h2⟩
    have htail : (l.filterMap f).Pairwise (fun a b => a.id < b.id) := by
      rw [List.filterMap_cons] at h
      cases ha : f a with
      | none => simpa [ha] using h
      | some u => rw [ha] at h; exact (List.pairwise_cons.1 h).2
    rcases List.mem_cons.1 hp with rfl | hp' <;> rcases List.mem_cons.1 hq with rfl | hq'
    · rfl
    · rw [List.filterMap_cons, hv] at h
      have := (List.pairwise_cons.1 h).1 w (hmem hq' hw); omega
    · rw [List.filterMap_cons, hw] at h
      have := (List.pairwise_cons.1 h).1 v (hmem hp' hv); omega
    · exact pairwise_inj htail hp' hq' hv hw he

/-- A declaration is at one place. -/
theorem bind_inj {p q : Node × Site × Env} {v w : RVar} (hp : p ∈ vsites lb b) (hq : q ∈ vsites lb b) (hv : p.1.ref = .bind v)
    (hw : q.1.ref = .bind w) (he : v.id = w.id) : p = q := by
  have h : (declsOf (nodes lb b)).Pairwise (fun a b => a.id < b.id) := (run_ids (evRoot b) (start lb)).2.1
  rw [← sites_fst, ← vsites_sites, declsOf, List.map_map, List.filterMap_map] at h
  exact pairwise_inj h hp hq (by simp [hv]) (by simp [hw]) he

theorem locals_eq : locals (sites lb b) lb = allDecls lb b := by
  rw [locals, sites_fst]
  rfl

theorem bind_mem {p : Node × Site × Env} {v : RVar} (hp : p ∈ vsites lb b) (hv : p.1.ref = .bind v) : v ∈ allDecls lb b :=
  List.mem_append_right _ (mem_decls.2 ⟨p, hp, hv⟩)

/-- The depths of the local that is declared here. -/
theorem levels_bind {p : Node × Site × Env} {v : RVar} (hp : p ∈ vsites lb b) (hv : p.1.ref = .bind v) :
    levels (sites lb b) v = ((toAt p).fn, (toAt p).depth) := by
  obtain ⟨q, hq, hr, hl⟩ := levels_decl (decl_mem (mem_decls.2 ⟨p, hp, hv⟩)).2 (bind_mem hp hv)
  rw [hl, bind_inj hq hp hr hv rfl]
  rfl

theorem declared_iff {p : Node × Site × Env} {n : Nat} {l : Bool} :
    (toAt p).how = .declared n l ↔ ∃ v, p.1.ref = .bind v ∧ v.id = n ∧ l = !excused p.2.1.role := by
  simp only [toAt, howOf]
  have hu : ∀ r, howUse r ≠ .declared n l := by intro r; cases r <;> simp [howUse]
  cases p.1.ref <;> simp [hu, eq_comm]

/-- The declaration that is hidden by another. -/
theorem hides_iff {p : Node × Site × Env} {w : RVar} (hl : look p.2.2 p.1.name = some w.id) (hw : w ∈ allDecls lb b) (P : Nat → Nat → Prop) :
    (∃ d, Hides lb (LuaUses.program lb b) (toAt p) d ∧ P d.fn d.depth) ↔
      lb.length < w.id ∧ P (levels (sites lb b) w).1 (levels (sites lb b) w).2 := by
  constructor
  · rintro ⟨d, ⟨m, l, h1, h2, h3, h4⟩, hP⟩
    obtain ⟨q, hq, rfl⟩ := of_program h3
    obtain ⟨u, hu, hid, -⟩ := declared_iff.1 h4
    have hm : w.id = m := by
      have : look p.2.2 p.1.name = some m := h1
      rw [hl] at this; exact Option.some.inj this
    have : u = w := id_inj (bind_mem hq hu) hw (by omega)
    subst this
    rw [levels_bind hq hu]
    exact ⟨by omega, hP⟩
  · rintro ⟨h1, hP⟩
    rcases mem_all hw with ⟨-, h2, -⟩ | ⟨h2, -, -⟩
    · omega
    · obtain ⟨q, hq, hr⟩ := mem_decls.1 h2
      rw [levels_bind hq hr] at hP
      exact ⟨toAt q, ⟨w.id, _, hl, h1, mem_program hq, declared_iff.2 ⟨w, hr, rfl, rfl⟩⟩, hP⟩

theorem no_hides {p : Node × Site × Env} (h : HidesNone lb (toAt p)) (P : At → Prop) :
    ¬ ∃ d, Hides lb (LuaUses.program lb b) (toAt p) d ∧ P d := by
  rintro ⟨d, ⟨m, l, h1, h2, -⟩, -⟩
  have := h m h1
  omega

theorem global_mem {o : Opts} {n : Node} {w : Warning} : w ∈ dupChecks.global o (sites lb b) n ↔ o.duplicateGlobal = true ∧
    ((w = .dupGlobal ∧ Defined o lb (LuaUses.program lb b) n.name) ∨ (w = .dupBuiltin ∧ ¬ Defined o lb (LuaUses.program lb b) n.name ∧
      (GlobalRead o lb (LuaUses.program lb b) n.name ∨ GlobalWritten lb (LuaUses.program lb b) n.name))) := by
  unfold dupChecks.global
  simp only [← custom_iff, ← used_iff, ← assigned_iff]
  split
  · split
    · simp_all
    · split <;> simp_all
  · simp_all

/-- Warnings about names that are there already. -/
theorem dup_iff {o : Opts} {p : Node × Site × Env} {v : RVar} (hp : p ∈ vsites lb b) (hv : p.1.ref = .bind v) (w : Warning) :
    w ∈ dupChecks o (sites lb b) lb p.1 v ↔
      w ∈ [Warning.dupGlobal, .dupBuiltin, .dupTop, .dupFunc, .dupScope, .dupSame] ∧ Warns o lb (LuaUses.program lb b) (toAt p) w := by
  have hg := vsites_good lb b p hp
  simp only [Good, hv] at hg
  have hd : ∃ n l, (toAt p).how = .declared n l := ⟨_, _, declared_iff.2 ⟨v, hv, rfl, rfl⟩⟩
  unfold dupChecks
  rw [locals_eq]
  by_cases hn : (toAt p).name ∉ [nm "_", nm "_ENV"]
  swap
  · have hn' : (p.1.name == nm "_" || p.1.name == nm "_ENV") = true := by
      simpa [toAt, Decidable.or_iff_not_imp_left] using hn
    rw [hn']
    simp only [Bool.not_true, Bool.and_false, Bool.false_eq_true, if_false, List.not_mem_nil, false_iff]
    cases w <;> simp only [Warns, hn] <;> simp
  have hn' : (p.1.name == nm "_" || p.1.name == nm "_ENV") = false := by
    simpa [toAt] using hn
  cases ho : o.duplicate with
  | false =>
    simp only [Bool.false_and, Bool.false_eq_true, if_false, List.not_mem_nil, false_iff]
    cases w <;> simp [Warns, ho]
  | true =>
  simp only [hn', Bool.not_false, Bool.and_true, if_true]
  have hnone : HidesNone lb (toAt p) → (w ∈ dupChecks.global o (sites lb b) p.1 ↔
      w ∈ [Warning.dupGlobal, .dupBuiltin, .dupTop, .dupFunc, .dupScope, .dupSame] ∧ Warns o lb (LuaUses.program lb b) (toAt p) w) := by
    intro h
    rw [global_mem]
    have h1 := no_hides (b := b) h
    have e : (toAt p).name = p.1.name := rfl
    cases w <;> simp only [Warns, ho, hd, hn, h, h1] <;> simp [e]
  cases hf : findScope (allDecls lb b) p.1.name p.1.chain.tail with
  | none =>
    rw [hf] at hg
    refine hnone ?_
    intro m hm
    have : look p.2.2 p.1.name = some m := hm
    rw [← hg.1] at this
    simp at this
  | some u =>
    rw [hf] at hg
    have hl : look p.2.2 p.1.name = some u.id := by rw [← hg.1]; rfl
    rw [findScope_eq] at hf
    have hu := (findIn_some hf)
    have hmem : u ∈ allDecls lb b := hu.1
    have hname : u.name = p.1.name := hu.2.1
    simp only
    by_cases hb : builtin u = true
    · rw [if_pos hb]
      refine hnone ?_
      intro m hm
      have h1 : look p.2.2 p.1.name = some m := hm
      rw [hl] at h1
      have := (builtin_iff hmem).1 hb
      have := Option.some.inj h1
      omega
    · rw [if_neg hb]
      have hbig : lb.length < u.id := by
        rw [builtin_iff hmem] at hb
        have h0 : u.id ≠ 0 := by
          intro h0
          rcases mem_all hmem with ⟨-, -, h3⟩ | ⟨-, -, h3⟩
          · rw [h0] at h3
            simp only [List.getElem?_cons_zero, Option.some.injEq] at h3
            rw [hname] at h3
            simp only [Bool.or_eq_false_iff, beq_eq_false_iff_ne, ne_eq] at hn'
            exact hn'.2 h3.symm
          · omega
        omega
      have hno : ¬ HidesNone lb (toAt p) := fun h => by have := h _ hl; omega
      have hz := (levels_zero hmem).not.2 (by omega)
      have H := fun P => hides_iff (b := b) hl hmem P
      have e := levels_bind hp hv
      have H1 := H (fun f d => f < (toAt p).fn ∧ f = 1)
      have H2 := H (fun f d => f < (toAt p).fn ∧ f ≠ 1)
      have H3 := H (fun f d => ¬ f < (toAt p).fn ∧ d < (toAt p).depth)
      have H4 := H (fun f d => ¬ f < (toAt p).fn ∧ ¬ d < (toAt p).depth)
      simp only [hbig, true_and] at H1 H2 H3 H4
      simp only [e]
      clear H
      generalize levels (sites lb b) u = l at *
      cases w <;> simp only [Warns, ho, hd, hn, hno, H1, H2, H3, H4] <;> split_ifs <;> simp <;> omega

/-- Warnings about locals that are not used. -/
theorem unused_iff {o : Opts} {p : Node × Site × Env} {v : RVar} (hp : p ∈ vsites lb b) (hv : p.1.ref = .bind v) (w : Warning) :
    w ∈ unusedChecks o (sites lb b) p.1 p.2.1 v ↔
      w ∈ [Warning.localAssigned, .localUnused] ∧ Warns o lb (LuaUses.program lb b) (toAt p) w := by
  have hm := bind_mem hp hv
  have h1 : (∃ n l, (toAt p).how = .declared n l ∧ ¬ LocalRead (LuaUses.program lb b) n ∧ LocalWritten (LuaUses.program lb b) n) ↔
      v ∉ usedLocals (sites lb b) ∧ v ∈ assignedLocals (sites lb b) := by
    simp only [declared_iff, hv, Ref.bind.injEq, usedLocals_iff hm, assignedLocals_iff hm]
    constructor
    · rintro ⟨n, l, ⟨u, rfl, rfl, -⟩, h⟩; exact h
    · intro h; exact ⟨_, _, ⟨v, rfl, rfl, rfl⟩, h⟩
  have h2 : (∃ n, (toAt p).how = .declared n true ∧ ¬ LocalRead (LuaUses.program lb b) n ∧ ¬ LocalWritten (LuaUses.program lb b) n) ↔
      excused p.2.1.role = false ∧ v ∉ usedLocals (sites lb b) ∧ v ∉ assignedLocals (sites lb b) := by
    simp only [declared_iff, hv, Ref.bind.injEq, usedLocals_iff hm, assignedLocals_iff hm]
    constructor
    · rintro ⟨n, ⟨u, rfl, rfl, hx⟩, h⟩; exact ⟨by simpa using hx, h⟩
    · rintro ⟨hx, h⟩; exact ⟨_, ⟨v, rfl, rfl, by simp [hx]⟩, h⟩
  have e : (toAt p).name = p.1.name := rfl
  unfold unusedChecks
  simp only [List.contains_iff_mem, Bool.and_eq_true, Bool.not_eq_true', beq_eq_false_iff_ne]
  have hc : (usedLocals (sites lb b)).contains v = false ↔ v ∉ usedLocals (sites lb b) := by
    rw [← Bool.not_eq_true, List.contains_iff_mem]
  simp only [hc]
  split
  · split
    · cases w <;> simp only [Warns, h1, h2, e] <;> simp_all
    · split
      · cases w <;> simp only [Warns, h1, h2, e] <;> simp_all
      · cases w <;> simp only [Warns, h1, h2, e] <;> simp_all
  · cases w <;> simp only [Warns, h1, h2, e] <;> simp_all

/-- Warnings about globals. -/
theorem globals_iff {o : Opts} {p : Node × Site × Env} (hp : p ∈ vsites lb b) (hg : Global lb (toAt p)) (w : Warning) :
    w ∈ globalChecks o (sites lb b) p.1 p.2.1 ↔ Warns o lb (LuaUses.program lb b) (toAt p) w := by
  have e : (toAt p).name = p.1.name := rfl
  have hu := use_of_global hg
  have hnd : ∀ n l, (toAt p).how ≠ .declared n l := by
    intro n l; rw [hu]; cases p.2.1.role <;> simp [howUse]
  have hrw : p.1.name ∉ usedGlobals o (sites lb b) → p.1.name ∈ assignedGlobals (sites lb b) := by
    rw [used_iff, assigned_iff]
    intro h
    refine ⟨_, mem_program hp, hg, rfl, ?_⟩
    rw [hu, ← anyTarget_iff]
    rcases Bool.eq_false_or_eq_true p.2.1.anyTarget with h' | h'
    · exact h'
    · exact absurd (.inr ⟨_, mem_program hp, hg, rfl, by rw [hu]; exact (not_anyTarget _).1 h'⟩) h
  have hc : ∀ l : List Nm, ∀ x, l.contains x = false ↔ x ∉ l := by
    intro l x
    rw [← Bool.not_eq_true, List.contains_iff_mem]
  unfold globalChecks
  simp only [Bool.and_eq_true, Bool.not_eq_true', beq_eq_false_iff_ne, hc, beq_iff_eq, List.mem_append]
  have hr1 : p.2.1.role = .assign ↔ howUse p.2.1.role = .assigned := by cases p.2.1.role <;> simp [howUse]
  have hr2 : p.2.1.role = .func ↔ howUse p.2.1.role = .func := by cases p.2.1.role <;> simp [howUse]
  have hr3 : ¬ howUse p.2.1.role = .assigned → ¬ howUse p.2.1.role = .func → (howUse p.2.1.role = .read ∨ howUse p.2.1.role = .changed) := by
    cases p.2.1.role <;> simp [howUse]
  have hr4 : howUse p.2.1.role = .assigned → ¬ (howUse p.2.1.role = .read ∨ howUse p.2.1.role = .changed) := by
    intro h; rw [h]; simp
  have hr5 : howUse p.2.1.role = .func → ¬ (howUse p.2.1.role = .read ∨ howUse p.2.1.role = .changed) := by
    intro h; rw [h]; simp
  simp only [hr1, hr2]
  have A : (w ∈ (if o.undefined = true ∧ p.1.name ∉ customGlobals o (sites lb b) then
        if p.1.name ∈ o.builtins then
          if howUse p.2.1.role = .assigned then [Warning.builtinAssigned] else if howUse p.2.1.role = .func then [Warning.builtinFunc] else []
        else if howUse p.2.1.role = .assigned then [Warning.notFoundAssigned] else if howUse p.2.1.role = .func then [Warning.notFoundFunc]
          else [Warning.notFound]
      else [])) ↔ w ∈ [Warning.builtinAssigned, .builtinFunc, .notFoundAssigned, .notFoundFunc, .notFound] ∧
        Warns o lb (LuaUses.program lb b) (toAt p) w := by
    split
    · split
      · split
        · cases w <;> simp only [Warns, e, hu, hg, ← custom_iff, ← used_iff, ← assigned_iff] <;> simp_all
        · split <;> cases w <;> simp only [Warns, e, hu, hg, ← custom_iff, ← used_iff, ← assigned_iff] <;> simp_all
      · split
        · cases w <;> simp only [Warns, e, hu, hg, ← custom_iff, ← used_iff, ← assigned_iff] <;> simp_all
        · split <;> cases w <;> simp only [Warns, e, hu, hg, ← custom_iff, ← used_iff, ← assigned_iff] <;> simp_all
    · cases w <;> simp only [Warns, e, hu, hg, ← custom_iff, ← used_iff, ← assigned_iff] <;> simp_all
  have B : (w ∈ (if ((o.unused = true ∧ o.unusedGlobal = true) ∧ p.1.name ∉ usedGlobals o (sites lb b)) ∧ p.1.name.head? ≠ some 95 then
        if p.1.name ∈ assignedGlobals (sites lb b) then [Warning.globalAssigned] else [Warning.globalUnused] else [])) ↔
        w ∈ [Warning.globalAssigned] ∧ Warns o lb (LuaUses.program lb b) (toAt p) w := by
    split
    · rename_i h
      rw [if_pos (hrw h.1.2)]
      have := hrw h.1.2
      cases w <;> simp only [Warns, e, hu, hg, ← custom_iff, ← used_iff, ← assigned_iff] <;> simp_all
    · cases w <;> simp only [Warns, e, hu, hg, ← custom_iff, ← used_iff, ← assigned_iff] <;> simp_all
  refine (or_congr A B).trans ?_
  cases w <;> simp [Warns, hnd]

theorem check_iff (o : Opts) {p : Node × Site × Env} (hp : p ∈ vsites lb b) (w : Warning) :
    w ∈ check o (sites lb b) lb (p.1, p.2.1) ↔ Warns o lb (LuaUses.program lb b) (toAt p) w := by
  have hother : (∀ v, p.1.ref ≠ .bind v) → (w ∈ (if rootGlobal (sites lb b) p.1 = true then globalChecks o (sites lb b) p.1 p.2.1 else []) ↔
      Warns o lb (LuaUses.program lb b) (toAt p) w) := by
    intro h
    have hnd : ∀ n l, (toAt p).how ≠ .declared n l := fun n l hd => by
      obtain ⟨v, hv, -⟩ := declared_iff.1 hd; exact h v hv
    split
    · rename_i hr; exact globals_iff hp ((global_iff hp).1 hr) w
    · rename_i hr
      have := (global_iff hp).not.1 hr
      cases w <;> simp [Warns, hnd, this]
  unfold check
  cases hr : p.1.ref with
  | bind v =>
    simp only
    rw [List.mem_append, dup_iff hp hr, unused_iff hp hr]
    have hng : ¬ Global lb (toAt p) := fun h => by
      have := h.1
      simp [toAt, howOf, hr] at this
    cases w <;> simp [Warns, hng]
  | loc v => exact hother (by simp [hr])
  | glob v => exact hother (by simp [hr])
  | mem v => exact hother (by simp [hr])
  | label v => exact hother (by simp [hr])
  | goto_ => exact hother (by simp [hr])

/-- The linter reports the warnings and no others. -/
theorem lint_iff (o : Opts) (lb : List Nm) (b : Block) (i : Nat) (w : Warning) :
    (i, w) ∈ lint o lb b ↔ ∃ a, (LuaUses.program lb b)[i]? = some a ∧ Warns o lb (LuaUses.program lb b) a w := by
  unfold lint
  simp only [List.mem_flatMap, List.mem_map, Prod.mk.injEq, List.mem_zipIdx_iff_getElem?, Prod.exists]
  have hs : ∀ q, (sites lb b)[i]? = some q ↔ ∃ p, (vsites lb b)[i]? = some p ∧ (p.1, p.2.1) = q := by
    intro q
    rw [← vsites_sites, List.getElem?_map]
    simp only [Option.map_eq_some_iff]
  have hp : ∀ a, (LuaUses.program lb b)[i]? = some a ↔ ∃ p, (vsites lb b)[i]? = some p ∧ toAt p = a := by
    intro a
    rw [← vsites_at, List.getElem?_map]
    simp only [Option.map_eq_some_iff]
  constructor
  · rintro ⟨n, t, j, hj, w', hw, rfl, rfl⟩
    obtain ⟨p, hp', he⟩ := (hs _).1 hj
    rw [← he] at hw
    exact ⟨toAt p, (hp _).2 ⟨p, hp', rfl⟩, (check_iff o (List.mem_of_getElem? hp') _).1 hw⟩
  · rintro ⟨a, ha, hw⟩
    obtain ⟨p, hp', rfl⟩ := (hp _).1 ha
    exact ⟨p.1, p.2.1, i, (hs _).2 ⟨p, hp', rfl⟩, w, (check_iff o (List.mem_of_getElem? hp') _).2 hw, rfl, rfl⟩

end

end Verif.Lint
