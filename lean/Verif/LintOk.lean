import Verif.LintLemmas
import Verif.RenameTreeOk
/-
What the linter looks up is what is visible, for C70.
-/
namespace Verif.Lint
open Syntax LuaLint LuaScope LuaUses
open Resolve hiding named isEnv

/-- What holds of a node, given all locals and what is visible. -/
def Good (D : List RVar) (p : Node × Site × Env) : Prop :=
  match p.1.ref with
  | .bind v => (findScope D p.1.name p.1.chain.tail).map (·.id) = look p.2.2 p.1.name ∧ v ∈ D ∧ v.name = p.1.name
  | .loc v => look p.2.2 p.1.name = some v.id
  | .glob env => look p.2.2 p.1.name = none ∧ env.map (·.id) = look p.2.2 envName
  | _ => True

theorem findScope_eq (D : List RVar) (x : Nm) (l : List Nat) : findScope D x l = findIn x (framesOf D l) := rfl

theorem closed_final {s : State} {O L : List RVar} (h : Inv s O) (hL : ∀ v ∈ L, v.scope ∈ s.heads ∨ s.nscope ≤ v.scope) {fs : List Frame}
    (hf : fs ∈ s.closed) : framesOf (O ++ L) (ids fs) = fs := by
  rw [framesOf_append]
  · exact (h.frames fs hf).symm
  · intro v hv hc
    rcases hL v hv with h1 | h1
    · exact h.headsFree fs hf _ hc h1
    · have := (h.closed fs hf).lt h.keys _ hc; omega

theorem use_good (D : List RVar) (s : State) (x : Nm) (i : Bool) (t : Site) : Good D (useNode s x i, t, flat s.cur) := by
  have h1 := find_flat x s.cur
  have h2 := find_flat envName s.cur
  unfold useNode Good
  cases hx : findIn x s.cur with
  | some v => rw [hx] at h1; exact h1.symm
  | none => rw [hx] at h1; exact ⟨h1.symm, h2⟩

theorem step_good {s : State} {O L : List RVar} (h : Inv s O) (e : Ev) (t : Site)
    (hL : ∀ v ∈ L, v.scope ∈ s.heads ∨ s.nscope ≤ v.scope) (hd : ∀ v ∈ declsOf (step s e).2, v ∈ L) :
    ∀ n ∈ (step s e).2, Good (O ++ L) (n, t, envAt s e) := by
  intro n hn
  cases e with
  | enter fn => simp [step] at hn
  | leave => simp only [step] at hn; revert hn; cases s.saved <;> simp
  | newScope f =>
    cases f
    · simp [step] at hn
    · have hin := hd
      simp only [step, declsOf, List.filterMap_cons, List.filterMap_nil, List.mem_singleton, forall_eq] at hin hn
      subst hn
      refine ⟨?_, List.mem_append_right _ hin, rfl⟩
      simp only [List.tail_cons, findScope_eq, closed_final h hL (show s.cur ∈ s.closed by simp [State.closed])]
      exact find_flat _ _
  | add => simp only [step] at hn; revert hn; cases s.pend <;> simp
  | close => simp [step] at hn
  | tgt x =>
    simp only [step] at hn hd
    cases hs : s.pend with
    | nil => simp [hs] at hn
    | cons p r =>
      simp only [hs, declsOf, List.filterMap_cons, List.filterMap_nil, List.mem_singleton, forall_eq] at hn hd
      subst hn
      refine ⟨?_, List.mem_append_right _ hd, rfl⟩
      simp only [List.tail_cons, findScope_eq, envAt, hs]
      rw [closed_final h hL (show p.2 ∈ s.closed by simp [State.closed, hs])]
      exact find_flat _ _
  | use x =>
    rw [List.mem_singleton.1 hn]
    exact use_good _ _ _ _ _
  | print =>
    rw [List.mem_singleton.1 hn]
    exact use_good _ _ _ _ _
  | member x f => rw [List.mem_singleton.1 hn]; trivial
  | label x => rw [List.mem_singleton.1 hn]; trivial
  | goto_ x => rw [List.mem_singleton.1 hn]; trivial

theorem run_good : ∀ (es : List (Ev × Site)) {s : State} {O : List RVar}, Inv s O →
    ∀ p ∈ vrun s es, Good (O ++ declsOf (run s (es.map (·.1))).2) p
  | [], _, _, _ => by simp [vrun]
  | e :: es, s, O, h => by
    have ih := run_good es (h.step e.1)
    rw [vrun, List.map_cons, run]
    simp only [declsOf_append]
    intro p hp
    rcases List.mem_append.1 hp with hp | hp
    · obtain ⟨n, hn, rfl⟩ := List.mem_map.1 hp
      refine step_good h e.1 e.2 ?_ (fun v hv => List.mem_append_left _ hv) n hn
      have := run_decls (e.1 :: es.map (·.1)) s
      rw [run, declsOf_append] at this
      exact this
    · rw [← List.append_assoc]
      exact ih p hp

theorem vsites_good (lb : List Nm) (b : Block) : ∀ p ∈ vsites lb b, Good (allDecls lb b) p := by
  have := run_good (lvRoot b) (start_inv lb)
  rw [ev_root] at this
  exact this

/-! ### Numbers of declarations -/

theorem step_ids (s : State) (e : Ev) : s.nvar ≤ (step s e).1.nvar ∧ (declsOf (step s e).2).Pairwise (fun a b => a.id < b.id) ∧
    ∀ v ∈ declsOf (step s e).2, s.nvar ≤ v.id ∧ v.id < (step s e).1.nvar := by
  cases e with
  | newScope f => cases f <;> simp [step, declsOf]
  | add => simp only [step]; cases s.pend <;> simp [declsOf]
  | tgt x => simp only [step]; cases s.pend <;> simp [declsOf]
  | leave => simp only [step]; cases s.saved <;> simp [declsOf]
  | use x => simp only [step, useNode]; cases findIn x s.cur <;> simp [declsOf]
  | print => simp only [step, useNode]; cases findIn printName s.cur <;> simp [declsOf]
  | _ => simp [step, declsOf]

theorem run_ids : ∀ (es : List Ev) (s : State), s.nvar ≤ (run s es).1.nvar ∧ (declsOf (run s es).2).Pairwise (fun a b => a.id < b.id) ∧
    ∀ v ∈ declsOf (run s es).2, s.nvar ≤ v.id ∧ v.id < (run s es).1.nvar
  | [], _ => by simp [run, declsOf]
  | e :: es, s => by
    obtain ⟨h1, h2, h3⟩ := step_ids s e
    obtain ⟨g1, g2, g3⟩ := run_ids es (step s e).1
    rw [run]
    simp only [declsOf_append, List.pairwise_append]
    refine ⟨Nat.le_trans h1 g1, ⟨h2, g2, fun a ha b hb => ?_⟩, fun v hv => ?_⟩
    · have := h3 a ha; have := g3 b hb; omega
    · rcases List.mem_append.1 hv with hv | hv
      · have := h3 v hv; omega
      · have := g3 v hv; omega

/-- The locals that are there from the start. -/
theorem root_mem {lb : List Nm} {v : RVar} (h : v ∈ (rootVars lb).reverse) : v.scope = 0 ∧ v.id ≤ lb.length ∧
    (envName :: lb)[v.id]? = some v.name := by
  simp only [rootVars, List.reverse_reverse, List.mem_map] at h
  obtain ⟨p, hp, rfl⟩ := h
  have := List.mem_zipIdx hp
  simp only [List.length_cons, Nat.zero_add] at this
  refine ⟨rfl, by simp only; omega, ?_⟩
  simp only
  rw [List.getElem?_eq_getElem (by simp; omega), this.2.2]
  simp

/-- The locals that are declared. -/
theorem decl_mem {lb : List Nm} {b : Block} {v : RVar} (h : v ∈ declsOf (nodes lb b)) : v.scope ≠ 0 ∧ lb.length < v.id := by
  refine ⟨?_, ?_⟩
  · have := run_decls (evRoot b) (start lb) v h
    simp only [start, State.heads, List.map_nil, List.not_mem_nil, false_or] at this
    omega
  · have := ((run_ids (evRoot b) (start lb)).2.2 v h).1
    simp only [start] at this
    omega

theorem mem_all {lb : List Nm} {b : Block} {v : RVar} (h : v ∈ allDecls lb b) :
    (v.scope = 0 ∧ v.id ≤ lb.length ∧ (envName :: lb)[v.id]? = some v.name) ∨ (v ∈ declsOf (nodes lb b) ∧ v.scope ≠ 0 ∧ lb.length < v.id) := by
  rcases List.mem_append.1 h with h | h
  · exact .inl (root_mem h)
  · exact .inr ⟨h, decl_mem h⟩

/-- Locals with the same number are the same. -/
theorem id_inj {lb : List Nm} {b : Block} {v w : RVar} (hv : v ∈ allDecls lb b) (hw : w ∈ allDecls lb b) (h : v.id = w.id) : v = w := by
  have hd : ∀ {l : List RVar}, l.Pairwise (fun a b => a.id < b.id) → ∀ {v w}, v ∈ l → w ∈ l → v.id = w.id → v = w := by
    intro l
    induction l with
    | nil => intro _ v w h; cases h
    | cons a l ih =>
      intro hp v w hv hw h
      rw [List.pairwise_cons] at hp
      rcases List.mem_cons.1 hv with rfl | hv' <;> rcases List.mem_cons.1 hw with rfl | hw'
      · rfl
      · have := hp.1 w hw'; omega
      · have := hp.1 v hv'; omega
      · exact ih hp.2 hv' hw' h
  rcases mem_all hv with ⟨h1, h2, h3⟩ | ⟨h1, h2, h3⟩ <;> rcases mem_all hw with ⟨g1, g2, g3⟩ | ⟨g1, g2, g3⟩
  · have hr : (rootVars lb).reverse.Pairwise (fun a b => a.id < b.id) := by
      simp only [rootVars, List.reverse_reverse, List.pairwise_map]
      have : ∀ (l : List Nm) (n : Nat), (l.zipIdx n).Pairwise (fun a b => a.2 < b.2) := by
        intro l
        induction l with
        | nil => intro n; simp
        | cons x l ih =>
          intro n
          rw [List.zipIdx_cons, List.pairwise_cons]
          refine ⟨fun p hp => ?_, ih _⟩
          have := List.mem_zipIdx hp
          simp only; omega
      exact this _ 0
    refine hd hr ?_ ?_ h
    · rcases List.mem_append.1 hv with h' | h'
      · exact h'
      · exact absurd h1 (decl_mem h').1
    · rcases List.mem_append.1 hw with h' | h'
      · exact h'
      · exact absurd g1 (decl_mem h').1
  · omega
  · omega
  · exact hd (run_ids (evRoot b) (start lb)).2.1 h1 g1 h

end Verif.Lint
