import Verif.ResolveInv
/-
What the nodes of a program say about scopes and declarations, for C63.
-/
namespace Verif.Resolve
open Syntax

/-- What holds of a node, given the final tables of parents and all locals. -/
def NodeOk (P L : List (Nat × Option Nat)) (D : List RVar) (n : Node) : Prop :=
  match n.ref with
  | .bind v => v ∈ D ∧ v.name = n.name ∧ n.chain.head? = some v.scope ∧ Linked P n.chain ∧ (n.imp = true → n.name = selfName)
  | .loc v => findIn n.name (framesOf D n.chain) = some v ∧ Linked P n.chain ∧ (n.imp = true → n.name = printName)
  | .glob env => findIn n.name (framesOf D n.chain) = none ∧ findIn envName (framesOf D n.chain) = env ∧ Linked P n.chain
  | .mem _ => n.imp = false
  | .label v => v.kind = .lab ∧ v.name = n.name ∧ n.chain.head? = some v.scope ∧ Linked L n.chain ∧ n.imp = false
  | .goto_ => n.chain ≠ [] ∧ Linked L n.chain ∧ n.imp = false

theorem step_parents (s : State) (e : Ev) : ∃ Q, (step s e).1.parents = s.parents ++ Q := by
  cases e with
  | newScope f => cases f <;> exact ⟨_, rfl⟩
  | add => simp only [step]; cases s.pend <;> exact ⟨[], by simp⟩
  | tgt x => simp only [step]; cases s.pend <;> exact ⟨[], by simp⟩
  | leave => simp only [step]; cases s.saved <;> exact ⟨[], by simp⟩
  | _ => exact ⟨[], by simp [step]⟩

theorem step_labParents (s : State) (e : Ev) : ∃ Q, (step s e).1.labParents = s.labParents ++ Q := by
  cases e with
  | newScope f => cases f <;> exact ⟨[], by simp [step]⟩
  | add => simp only [step]; cases s.pend <;> exact ⟨[], by simp⟩
  | tgt x => simp only [step]; cases s.pend <;> exact ⟨[], by simp⟩
  | leave => simp only [step]; cases s.saved <;> exact ⟨[], by simp⟩
  | enter fn => exact ⟨_, rfl⟩
  | _ => exact ⟨[], by simp [step]⟩

theorem run_parents : ∀ (es : List Ev) (s : State), (∃ Q, (run s es).1.parents = s.parents ++ Q) ∧ ∃ Q, (run s es).1.labParents = s.labParents ++ Q
  | [], s => ⟨⟨[], by simp [run]⟩, ⟨[], by simp [run]⟩⟩
  | e :: es, s => by
    obtain ⟨⟨Q, h1⟩, ⟨Q', h2⟩⟩ := run_parents es (step s e).1
    obtain ⟨R, h3⟩ := step_parents s e
    obtain ⟨R', h4⟩ := step_labParents s e
    refine ⟨⟨R ++ Q, ?_⟩, ⟨R' ++ Q', ?_⟩⟩
    · rw [run]; simp only [h1, h3, List.append_assoc]
    · rw [run]; simp only [h2, h4, List.append_assoc]

theorem step_nscope (s : State) (e : Ev) : s.nscope ≤ (step s e).1.nscope ∧
    ∀ i ∈ (step s e).1.heads, i ∈ s.heads ∨ s.nscope ≤ i := by
  have key : s.nscope ≤ (step s e).1.nscope ∧
      ((step s e).1.heads = s.heads ∨ (step s e).1.heads = s.nscope :: s.heads ∨ (step s e).1.heads = s.heads.tail) := by
    cases e with
    | newScope f => cases f <;> simp [step, State.heads]
    | add =>
      simp only [step]
      cases hs : s.pend
      · simp
      · simp [State.heads, hs]
    | tgt x =>
      simp only [step]
      cases hs : s.pend
      · simp
      · simp [State.heads, hs]
    | leave =>
      simp only [step]
      cases s.saved
      · simp
      · simp [State.heads]
    | _ => simp [step, State.heads]
  refine ⟨key.1, fun i hi => ?_⟩
  rcases key.2 with h | h | h <;> rw [h] at hi
  · exact Or.inl hi
  · rcases List.mem_cons.1 hi with rfl | hi
    · exact Or.inr (Nat.le_refl _)
    · exact Or.inl hi
  · exact Or.inl (List.mem_of_mem_tail hi)

theorem step_decls (s : State) (e : Ev) : ∀ v ∈ declsOf (step s e).2, v.scope ∈ s.heads ∨ s.nscope ≤ v.scope := by
  cases e with
  | newScope f => cases f <;> simp [step, State.heads, declsOf]
  | add => simp only [step, State.heads]; cases s.pend <;> simp [declsOf]
  | tgt x => simp only [step, State.heads]; cases s.pend <;> simp [declsOf]
  | leave => simp only [step, State.heads]; cases s.saved <;> simp [declsOf]
  | use x => simp only [step, useNode]; cases findIn x s.cur <;> simp [declsOf]
  | print => simp only [step, useNode]; cases findIn printName s.cur <;> simp [declsOf]
  | _ => simp [step, declsOf]

/-- Later declarations go to scopes that are not complete, or to new ones. -/
theorem run_decls : ∀ (es : List Ev) (s : State), ∀ v ∈ declsOf (run s es).2, v.scope ∈ s.heads ∨ s.nscope ≤ v.scope
  | [], _ => by simp [run, declsOf]
  | e :: es, s => by
    intro v hv
    rw [run, declsOf_append] at hv
    rcases List.mem_append.1 hv with hv | hv
    · exact step_decls s e v hv
    · have hn := step_nscope s e
      rcases run_decls es _ v hv with h | h
      · exact hn.2 _ h
      · right; omega

theorem run_nscope : ∀ (es : List Ev) (s : State), s.nscope ≤ (run s es).1.nscope
  | [], _ => Nat.le_refl _
  | e :: es, s => Nat.le_trans (step_nscope s e).1 (run_nscope es _)

theorem cur_final {s : State} {O L : List RVar} (h : Inv s O) (hL : ∀ v ∈ L, v.scope ∈ s.heads ∨ s.nscope ≤ v.scope) :
    framesOf (O ++ L) (ids s.cur) = s.cur := by
  have hcur : s.cur ∈ s.closed := by simp [State.closed]
  rw [framesOf_append]
  · exact (h.frames s.cur hcur).symm
  · intro v hv hc
    rcases hL v hv with h1 | h1
    · exact h.headsFree s.cur hcur _ hc h1
    · have := (h.closed s.cur hcur).lt h.keys _ hc; omega

/-- The nodes of a step are in order, whatever is declared later. -/
theorem step_ok {s : State} {O L : List RVar} {P Q : List (Nat × Option Nat)} (h : Inv s O) (e : Ev)
    (hL : ∀ v ∈ L, v.scope ∈ s.heads ∨ s.nscope ≤ v.scope) (hd : ∀ v ∈ declsOf (step s e).2, v ∈ L)
    (hP : ∀ k o, (step s e).1.parents.lookup k = some o → P.lookup k = some o)
    (hQ : ∀ k o, (step s e).1.labParents.lookup k = some o → Q.lookup k = some o) : ∀ n ∈ (step s e).2, NodeOk P Q (O ++ L) n := by
  have hcur : s.cur ∈ s.closed := by simp [State.closed]
  have hfr := cur_final h hL
  have huse : ∀ x i, (i = true → x = printName) → (∀ k o, s.parents.lookup k = some o → P.lookup k = some o) → NodeOk P Q (O ++ L) (useNode s x i) := by
    intro x i hi hP
    have hl := (h.closed s.cur hcur).mono hP
    unfold useNode
    cases hf : findIn x s.cur with
    | some v => exact ⟨by simp only [hfr, hf], hl, hi⟩
    | none => exact ⟨by simp only [hfr, hf], by simp only [hfr], hl⟩
  cases e with
  | enter fn => simp [step]
  | leave => simp only [step]; cases s.saved <;> simp
  | newScope f =>
    cases f
    · simp [step]
    · intro n hn
      have hin := hd
      simp only [step, declsOf, List.filterMap_cons, List.filterMap_nil, List.mem_singleton, forall_eq] at hin hn hP
      subst hn
      refine ⟨List.mem_append_right _ hin, rfl, rfl, ?_, fun _ => rfl⟩
      refine ⟨?_, ?_, (h.closed s.cur hcur).mono fun k o ho => hP k o (lookup_append ho _)⟩
      · exact hP _ _ (lookup_new h.keys)
      · intro b hb; exact (h.closed s.cur hcur).lt h.keys b (List.mem_of_mem_head? hb)
  | add => simp only [step]; cases s.pend <;> simp
  | close => simp [step]
  | tgt x =>
    intro n hn
    simp only [step] at hn hd hP
    cases hs : s.pend with
    | nil => simp [hs] at hn
    | cons p r =>
      simp only [hs, declsOf, List.filterMap_cons, List.filterMap_nil, List.mem_singleton, forall_eq] at hn hd hP
      subst hn
      exact ⟨List.mem_append_right _ hd, rfl, rfl, (h.pend p (by simp [hs])).mono hP, fun hc => by simp at hc⟩
  | use x =>
    intro n hn
    rw [List.mem_singleton.1 hn]
    exact huse x false (by simp) hP
  | print =>
    intro n hn
    rw [List.mem_singleton.1 hn]
    exact huse printName true (by simp) hP
  | member x f =>
    intro n hn
    rw [List.mem_singleton.1 hn]
    exact rfl
  | label x =>
    intro n hn
    rw [List.mem_singleton.1 hn]
    have hl := h.labs s.labs (by simp)
    refine ⟨rfl, rfl, ?_, hl.1.mono hQ, rfl⟩
    cases hs : s.labs with
    | nil => exact absurd hs hl.2
    | cons a r => simp
  | goto_ x =>
    intro n hn
    rw [List.mem_singleton.1 hn]
    have hl := h.labs s.labs (by simp)
    exact ⟨hl.2, hl.1.mono hQ, rfl⟩

theorem run_ok : ∀ (es : List Ev) {s : State} {O : List RVar}, Inv s O → Inv (run s es).1 (O ++ declsOf (run s es).2) ∧
    ∀ n ∈ (run s es).2, NodeOk (run s es).1.parents (run s es).1.labParents (O ++ declsOf (run s es).2) n
  | [], s, O, h => by simpa [run, declsOf] using h
  | e :: es, s, O, h => by
    have h1 := h.step e
    obtain ⟨h2, h3⟩ := run_ok es h1
    rw [run]
    simp only [declsOf_append, ← List.append_assoc]
    refine ⟨h2, fun n hn => ?_⟩
    rcases List.mem_append.1 hn with hn | hn
    · obtain ⟨⟨Q, hQ⟩, ⟨Q', hQ'⟩⟩ := run_parents es (step s e).1
      rw [List.append_assoc]
      refine step_ok h e ?_ ?_ ?_ ?_ n hn
      · have := run_decls (e :: es) s
        rw [run, declsOf_append] at this
        exact this
      · exact fun v hv => List.mem_append_left _ hv
      · intro k o hk; rw [hQ]; exact lookup_append hk _
      · intro k o hk; rw [hQ']; exact lookup_append hk _
    · exact h3 n hn

/-- All locals of a program: those that are there from the start, then those declared. -/
def allDecls (lb : List Nm) (b : Block) : List RVar := (rootVars lb).reverse ++ declsOf (nodes lb b)

/-- The state at the end. -/
def final (lb : List Nm) (b : Block) : State := (run (start lb) (evRoot b)).1

theorem start_inv (lb : List Nm) : Inv (start lb) (rootVars lb).reverse := by
  have hl : Linked [(0, none)] [0] := by simp [Linked]
  have hk : ∀ k o, List.lookup k [((0 : Nat), (none : Option Nat))] = some o → k < 1 := by
    intro k o h
    rw [List.lookup_cons] at h
    split at h
    · rename_i hk; simp at hk; omega
    · simp at h
  refine ⟨hk, hk, ?_, by simp [start], ?_, ?_, by simp [start], by simp [start, State.heads], ?_, ?_⟩
  · intro fs hfs
    simp only [State.closed, start, List.map_nil, List.append_nil, List.mem_singleton] at hfs
    subst hfs
    exact hl
  · intro l hl'
    simp only [start, List.map_nil, List.mem_singleton] at hl'
    subst hl'
    exact ⟨hl, by simp⟩
  · intro fs hfs
    simp only [State.closed, start, List.map_nil, List.append_nil, List.mem_singleton] at hfs
    subst hfs
    simp only [ids, List.map_cons, List.map_nil, framesOf, frameOf]
    rw [List.filter_eq_self.2]
    · simp
    · intro v hv
      simp only [rootVars, List.reverse_reverse, List.mem_map] at hv
      obtain ⟨p, -, rfl⟩ := hv
      simp
  · intro fs _ i _
    simp [start, State.heads]
  · intro v hv
    simp only [rootVars, List.reverse_reverse, List.mem_map] at hv
    obtain ⟨p, -, rfl⟩ := hv
    simp [start]

theorem nodes_ok (lb : List Nm) (b : Block) : Inv (final lb b) (allDecls lb b) ∧
    ∀ n ∈ nodes lb b, NodeOk (final lb b).parents (final lb b).labParents (allDecls lb b) n :=
  run_ok (evRoot b) (start_inv lb)

/-- The scopes of the implicit `self`s are different. -/
def selfScopes (ns : List Node) : List Nat := ns.filterMap fun n => match n.ref with | .bind v => if n.imp then some v.scope else none | _ => none

theorem run_self : ∀ (es : List Ev) (s : State), (selfScopes (run s es).2).Nodup ∧ ∀ i ∈ selfScopes (run s es).2, s.nscope ≤ i
  | [], _ => by simp [run, selfScopes]
  | e :: es, s => by
    obtain ⟨h1, h2⟩ := run_self es (step s e).1
    have hs := step_nscope s e
    have happ : selfScopes (run s (e :: es)).2 = selfScopes (step s e).2 ++ selfScopes (run (step s e).1 es).2 := by
      rw [run]; simp [selfScopes]
    rw [happ]
    have key : selfScopes (step s e).2 = [] ∨ (selfScopes (step s e).2 = [s.nscope] ∧ (step s e).1.nscope = s.nscope + 1) := by
      cases e with
      | newScope f => cases f <;> simp [step, selfScopes]
      | add => simp only [step]; cases s.pend <;> simp [selfScopes]
      | tgt x => simp only [step]; cases s.pend <;> simp [selfScopes]
      | leave => simp only [step]; cases s.saved <;> simp [selfScopes]
      | use x => simp only [step, useNode]; cases findIn x s.cur <;> simp [selfScopes]
      | print => simp only [step, useNode]; cases findIn printName s.cur <;> simp [selfScopes]
      | _ => simp [step, selfScopes]
    rcases key with h | ⟨h, h'⟩
    · rw [h, List.nil_append]
      exact ⟨h1, fun i hi => Nat.le_trans hs.1 (h2 i hi)⟩
    · rw [h]
      refine ⟨?_, ?_⟩
      · simp only [List.singleton_append, List.nodup_cons]
        exact ⟨fun hc => by have := h2 _ hc; omega, h1⟩
      · intro i hi
        rcases List.mem_cons.1 hi with rfl | hi
        · exact Nat.le_refl _
        · have := h2 i hi; omega

end Verif.Resolve
