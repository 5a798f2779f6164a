import Mathlib.Tactic.Tauto
import Verif.ResolveLabels
/-
Invariants of name resolution, for C63: what the nodes of a program say about scopes and declarations.
-/
namespace Verif.Resolve
open Syntax

/-- A chain of scopes follows the table of parents. -/
def Linked (P : List (Nat × Option Nat)) : List Nat → Prop
  | [] => True
  | a :: r => P.lookup a = some r.head? ∧ (∀ b ∈ r.head?, b < a) ∧ Linked P r

/-- The parents as a function. -/
def parentOf (P : List (Nat × Option Nat)) (s : Nat) : Option Nat := (P.lookup s).join

theorem Linked.chain {P : List (Nat × Option Nat)} : ∀ {a : Nat} {r : List Nat}, Linked P (a :: r) → scopeChain (parentOf P) a = a :: r
  | a, [], h => by
    obtain ⟨h1, -, -⟩ := h
    rw [scopeChain, show parentOf P a = none by simp [parentOf, h1]]
  | a, b :: r, h => by
    obtain ⟨h1, h2, h3⟩ := h
    rw [scopeChain, show parentOf P a = some b by simp [parentOf, h1]]
    simp only
    rw [if_pos (h2 b rfl), h3.chain]

theorem lookup_append {P : List (Nat × Option Nat)} {k : Nat} {o : Option Nat} (h : P.lookup k = some o) (Q : List (Nat × Option Nat)) :
    (P ++ Q).lookup k = some o := by
  induction P with
  | nil => simp at h
  | cons p P ih =>
    rw [List.cons_append, List.lookup_cons] at *
    split
    · rename_i hk; rw [hk] at h; exact h
    · rename_i hk; rw [hk] at h; exact ih h

theorem lookup_new {P : List (Nat × Option Nat)} {n : Nat} {o : Option Nat} (h : ∀ k o, P.lookup k = some o → k < n) :
    (P ++ [(n, o)]).lookup n = some o := by
  have hn : P.lookup n = none := by
    cases hl : P.lookup n with
    | none => rfl
    | some o => have := h n o hl; omega
  clear h
  induction P with
  | nil => simp
  | cons p P ih =>
    rw [List.cons_append, List.lookup_cons] at *
    split
    · rename_i hk; rw [hk] at hn; simp at hn
    · rename_i hk; rw [hk] at hn; exact ih hn

theorem keys_append {P : List (Nat × Option Nat)} {n : Nat} {o : Option Nat} (h : ∀ k o, P.lookup k = some o → k < n) :
    ∀ k q, (P ++ [(n, o)]).lookup k = some q → k < n + 1 := by
  intro k q hk
  by_cases hkn : k = n
  · omega
  · have hp : P.lookup k = some q := by
      clear h
      induction P with
      | nil => simp [List.lookup, show (k == n) = false by simpa using hkn] at hk
      | cons p P ih =>
        rw [List.cons_append, List.lookup_cons] at hk
        rw [List.lookup_cons]
        split
        · rename_i hq; rw [hq] at hk; exact hk
        · rename_i hq; rw [hq] at hk; exact ih hk
    have := h k q hp
    omega

theorem Linked.mono {P Q : List (Nat × Option Nat)} (hPQ : ∀ k o, P.lookup k = some o → Q.lookup k = some o) : ∀ {l : List Nat}, Linked P l → Linked Q l
  | [], _ => trivial
  | _ :: _, h => ⟨hPQ _ _ h.1, h.2.1, h.2.2.mono hPQ⟩

theorem Linked.lt {P : List (Nat × Option Nat)} {n : Nat} (hP : ∀ k o, P.lookup k = some o → k < n) : ∀ {l : List Nat}, Linked P l → ∀ a ∈ l, a < n
  | _ :: _, h, a, ha => by
    rcases List.mem_cons.1 ha with rfl | ha
    · exact hP _ _ h.1
    · exact h.2.2.lt hP a ha

theorem Linked.tail {P : List (Nat × Option Nat)} : ∀ {l : List Nat}, Linked P l → Linked P l.tail
  | [], _ => trivial
  | _ :: _, h => h.2.2

/-- Along a chain the numbers decrease. -/
theorem Linked.below {P : List (Nat × Option Nat)} : ∀ {l : List Nat} {a : Nat}, Linked P (a :: l) → ∀ b ∈ l, b < a
  | [], _, _, _, hb => by simp at hb
  | c :: l, a, h, b, hb => by
    have hc : c < a := h.2.1 c rfl
    rcases List.mem_cons.1 hb with rfl | hb
    · exact hc
    · have := h.2.2.below b hb; omega

/-- The locals that are declared by nodes. -/
def declsOf (ns : List Node) : List RVar := ns.filterMap fun n => match n.ref with | .bind v => some v | _ => none

theorem declsOf_append (a b : List Node) : declsOf (a ++ b) = declsOf a ++ declsOf b := by simp [declsOf]

/-- A scope with all its variables. -/
def frameOf (D : List RVar) (i : Nat) : Frame := ⟨i, (D.filter fun v => v.scope = i).reverse⟩

/-- A chain of scopes with all their variables. -/
def framesOf (D : List RVar) (l : List Nat) : List Frame := l.map (frameOf D)

/-- The chains whose scopes are complete. -/
def State.closed (s : State) : List (List Frame) := s.cur :: (s.saved.map (·.1) ++ s.pend.map (·.2))

/-- The numbers of the scopes that are not complete. -/
def State.heads (s : State) : List Nat := s.pend.map (·.1.id)

/-- What holds after any events, if `O` are the locals declared so far. -/
structure Inv (s : State) (O : List RVar) : Prop where
  keys : ∀ k o, s.parents.lookup k = some o → k < s.nscope
  labKeys : ∀ k o, s.labParents.lookup k = some o → k < s.nlab
  closed : ∀ fs ∈ s.closed, Linked s.parents (ids fs)
  pend : ∀ p ∈ s.pend, Linked s.parents (p.1.id :: ids p.2)
  labs : ∀ l ∈ s.labs :: s.saved.map (·.2), Linked s.labParents l ∧ l ≠ []
  frames : ∀ fs ∈ s.closed, fs = framesOf O (ids fs)
  headFrames : ∀ p ∈ s.pend, p.1 = frameOf O p.1.id
  headsNodup : s.heads.Nodup
  headsFree : ∀ fs ∈ s.closed, ∀ i ∈ ids fs, i ∉ s.heads
  vars : ∀ v ∈ O, v.kind = .loc ∧ v.scope < s.nscope

theorem ids_framesOf (D : List RVar) (l : List Nat) : ids (framesOf D l) = l := by
  simp [ids, framesOf, frameOf, Function.comp_def]

theorem frameOf_append {D L : List RVar} {i : Nat} (h : ∀ v ∈ L, v.scope ≠ i) : frameOf (D ++ L) i = frameOf D i := by
  unfold frameOf
  rw [List.filter_append, (List.filter_eq_nil_iff (l := L)).2 (fun v hv => by simpa using h v hv), List.append_nil]

theorem framesOf_append {D L : List RVar} {l : List Nat} (h : ∀ v ∈ L, v.scope ∉ l) : framesOf (D ++ L) l = framesOf D l := by
  unfold framesOf
  apply List.map_congr_left
  intro i hi
  exact frameOf_append fun v hv hc => h v hv (hc ▸ hi)

theorem frameOf_new {D : List RVar} {v : RVar} : frameOf (D ++ [v]) v.scope = ⟨v.scope, v :: (frameOf D v.scope).vars⟩ := by
  unfold frameOf
  simp [List.filter_append]

theorem Inv.newScope {s : State} {O L : List RVar} (h : Inv s O) (k : Nat) (hL : ∀ v ∈ L, v.kind = .loc ∧ v.scope = s.nscope) :
    Inv { s with
      pend := (⟨s.nscope, L.reverse⟩, s.cur) :: s.pend
      nscope := s.nscope + 1
      nvar := k
      parents := s.parents ++ [(s.nscope, (ids s.cur).head?)] } (O ++ L) := by
  have lt_ids : ∀ fs ∈ s.closed, ∀ i ∈ ids fs, i < s.nscope := fun fs hfs i hi => (h.closed fs hfs).lt h.keys i hi
  have head_lt : ∀ p ∈ s.pend, p.1.id < s.nscope := fun p hp => (h.pend p hp).lt h.keys _ (by simp)
  have hcur : s.cur ∈ s.closed := by simp [State.closed]
  have hmono : ∀ k q, s.parents.lookup k = some q → (s.parents ++ [(s.nscope, (ids s.cur).head?)]).lookup k = some q :=
    fun k q hq => lookup_append hq _
  have hsub : ∀ fs, fs ∈ s.cur :: (s.saved.map (·.1) ++ (s.cur :: s.pend.map (·.2))) → fs ∈ s.closed := by
    intro fs hfs
    simp only [State.closed, List.mem_cons, List.mem_append] at hfs ⊢
    tauto
  refine ⟨keys_append h.keys, h.labKeys, ?_, ?_, h.labs, ?_, ?_, ?_, ?_, ?_⟩
  · intro fs hfs
    exact (h.closed fs (hsub fs hfs)).mono hmono
  · intro p hp
    rcases List.mem_cons.1 hp with rfl | hp
    · exact ⟨lookup_new h.keys, fun b hb => lt_ids s.cur hcur b (List.mem_of_mem_head? hb), (h.closed s.cur hcur).mono hmono⟩
    · exact (h.pend p hp).mono hmono
  · intro fs hfs
    have hfs := hsub fs hfs
    rw [framesOf_append (fun v hv hc => by have := lt_ids fs hfs _ hc; have := (hL v hv).2; omega)]
    exact h.frames fs hfs
  · intro p hp
    rcases List.mem_cons.1 hp with rfl | hp
    · simp only [frameOf, List.filter_append]
      rw [(List.filter_eq_nil_iff (l := O)).2 (fun v hv => by have := (h.vars v hv).2; simp; omega),
        (List.filter_eq_self (l := L)).2 (fun v hv => by simpa using (hL v hv).2), List.nil_append]
    · rw [frameOf_append (fun v hv hc => by have := head_lt p hp; have := (hL v hv).2; omega)]
      exact h.headFrames p hp
  · simp only [State.heads, List.map_cons, List.nodup_cons]
    refine ⟨?_, h.headsNodup⟩
    intro hc
    obtain ⟨p, hp, hpi⟩ := List.mem_map.1 hc
    have := head_lt p hp
    omega
  · intro fs hfs i hi
    have hfs := hsub fs hfs
    simp only [State.heads, List.map_cons, List.mem_cons, not_or]
    refine ⟨by have := lt_ids fs hfs i hi; omega, h.headsFree fs hfs i hi⟩
  · intro v hv
    rcases List.mem_append.1 hv with hv | hv
    · have := h.vars v hv; exact ⟨this.1, by simp only; omega⟩
    · have := hL v hv; exact ⟨this.1, by simp only; omega⟩

/-- Steps keep the invariant. -/
theorem Inv.step {s : State} {O : List RVar} (h : Inv s O) (e : Ev) : Inv (step s e).1 (O ++ declsOf (step s e).2) := by
  have lt_ids : ∀ fs ∈ s.closed, ∀ i ∈ ids fs, i < s.nscope := fun fs hfs i hi => (h.closed fs hfs).lt h.keys i hi
  have head_lt : ∀ p ∈ s.pend, p.1.id < s.nscope := fun p hp => (h.pend p hp).lt h.keys _ (by simp)
  have lab_lt : ∀ l ∈ s.labs :: s.saved.map (·.2), ∀ i ∈ l, i < s.nlab := fun l hl i hi => (h.labs l hl).1.lt h.labKeys i hi
  cases e with
  | enter fn =>
    have hmono : ∀ (o : Option Nat) k q, s.labParents.lookup k = some q → (s.labParents ++ [(s.nlab, o)]).lookup k = some q :=
      fun o k q hq => lookup_append hq _
    simp only [Resolve.step, declsOf, List.filterMap_nil, List.append_nil]
    refine { h with labKeys := ?_, closed := ?_, labs := ?_, frames := ?_, headsFree := ?_ }
    · exact keys_append h.labKeys
    · intro fs hfs
      simp only [State.closed, List.map_cons, List.cons_append, List.mem_cons] at hfs
      refine h.closed fs ?_
      simp only [State.closed, List.mem_cons]
      tauto
    · intro l hl
      simp only [List.map_cons, List.mem_cons] at hl
      rcases hl with rfl | hl | hl
      · refine ⟨⟨?_, ?_, ?_⟩, by simp⟩
        · rw [lookup_new h.labKeys]; cases fn <;> rfl
        · intro b hb
          cases fn
          · exact lab_lt s.labs (by simp) b (List.mem_of_mem_head? hb)
          · simp at hb
        · cases fn
          · exact (h.labs s.labs (by simp)).1.mono (hmono _)
          · trivial
      · subst hl; exact ⟨(h.labs s.labs (by simp)).1.mono (hmono _), (h.labs s.labs (by simp)).2⟩
      · have := h.labs l (List.mem_cons_of_mem _ hl); exact ⟨this.1.mono (hmono _), this.2⟩
    · intro fs hfs
      simp only [State.closed, List.map_cons, List.cons_append, List.mem_cons] at hfs
      refine h.frames fs ?_
      simp only [State.closed, List.mem_cons]
      tauto
    · intro fs hfs
      simp only [State.closed, List.map_cons, List.cons_append, List.mem_cons] at hfs
      refine h.headsFree fs ?_
      simp only [State.closed, List.mem_cons]
      tauto
  | leave =>
    simp only [Resolve.step]
    cases hs : s.saved with
    | nil => simpa [declsOf] using h
    | cons p r =>
      simp only [declsOf, List.filterMap_nil, List.append_nil]
      have hsub : ∀ fs, fs ∈ ({ s with cur := p.1, labs := p.2, saved := r } : State).closed → fs ∈ s.closed := by
        intro fs hfs
        simp only [State.closed, hs, List.map_cons, List.cons_append, List.mem_cons] at hfs ⊢
        tauto
      exact { h with
        closed := fun fs hfs => h.closed fs (hsub fs hfs)
        frames := fun fs hfs => h.frames fs (hsub fs hfs)
        headsFree := fun fs hfs => h.headsFree fs (hsub fs hfs)
        labs := fun l hl => h.labs l (by
          rw [hs]
          simp only [List.map_cons, List.mem_cons] at hl ⊢
          tauto) }
  | newScope self =>
    cases self
    · have := h.newScope (L := []) s.nvar (by simp)
      simpa [Resolve.step, declsOf] using this
    · have := h.newScope (L := [⟨.loc, selfName, s.nvar, s.nscope⟩]) (s.nvar + 1) (by simp)
      simpa [Resolve.step, declsOf] using this
  | add =>
    simp only [Resolve.step]
    cases hs : s.pend with
    | nil => simpa [declsOf] using h
    | cons p r =>
      simp only [declsOf, List.filterMap_nil, List.append_nil]
      have hp : p ∈ s.pend := by simp [hs]
      have hcl : ∀ fs, fs ∈ ({ s with cur := p.1 :: p.2, pend := r } : State).closed → fs = p.1 :: p.2 ∨ fs ∈ s.closed := by
        intro fs hfs
        simp only [State.closed, hs, List.map_cons, List.mem_cons, List.mem_append] at hfs ⊢
        tauto
      have hp2 : p.2 ∈ s.closed := by simp [State.closed, hs]
      have hnd := h.headsNodup
      simp only [State.heads, hs, List.map_cons, List.nodup_cons] at hnd
      refine { h with closed := ?_, pend := ?_, frames := ?_, headFrames := ?_, headsNodup := hnd.2, headsFree := ?_ }
      · intro fs hfs
        rcases hcl fs hfs with rfl | hfs
        · exact h.pend p hp
        · exact h.closed fs hfs
      · intro q hq; exact h.pend q (by rw [hs]; exact List.mem_cons_of_mem _ hq)
      · intro fs hfs
        rcases hcl fs hfs with rfl | hfs
        · simp only [ids, List.map_cons, framesOf]
          rw [← h.headFrames p hp]
          congr 1
          exact h.frames p.2 hp2
        · exact h.frames fs hfs
      · intro q hq; exact h.headFrames q (by rw [hs]; exact List.mem_cons_of_mem _ hq)
      · intro fs hfs i hi
        simp only [State.heads]
        rcases hcl fs hfs with rfl | hfs
        · rcases List.mem_cons.1 hi with rfl | hi
          · exact hnd.1
          · intro hc
            exact h.headsFree p.2 hp2 i hi (by simp only [State.heads, hs, List.map_cons]; exact List.mem_cons_of_mem _ hc)
        · intro hc
          exact h.headsFree fs hfs i hi (by simp only [State.heads, hs, List.map_cons]; exact List.mem_cons_of_mem _ hc)
  | close =>
    simp only [Resolve.step, declsOf, List.filterMap_nil, List.append_nil]
    have hcur : s.cur ∈ s.closed := by simp [State.closed]
    have hcl : ∀ fs, fs ∈ ({ s with cur := s.cur.tail } : State).closed → fs = s.cur.tail ∨ fs ∈ s.closed := by
      intro fs hfs
      simp only [State.closed, List.mem_cons] at hfs ⊢
      tauto
    have hids : ids s.cur.tail = (ids s.cur).tail := by simp [ids, List.map_tail]
    refine { h with closed := ?_, frames := ?_, headsFree := ?_ }
    · intro fs hfs
      rcases hcl fs hfs with rfl | hfs
      · rw [hids]; exact (h.closed s.cur hcur).tail
      · exact h.closed fs hfs
    · intro fs hfs
      rcases hcl fs hfs with rfl | hfs
      · have := congrArg List.tail (h.frames s.cur hcur)
        rw [hids]
        refine this.trans ?_
        simp [framesOf, List.map_tail]
      · exact h.frames fs hfs
    · intro fs hfs i hi
      rcases hcl fs hfs with rfl | hfs
      · rw [hids] at hi
        exact h.headsFree s.cur hcur i (List.mem_of_mem_tail hi)
      · exact h.headsFree fs hfs i hi
  | tgt x =>
    simp only [Resolve.step]
    cases hs : s.pend with
    | nil => simpa [declsOf] using h
    | cons p r =>
      have hp : p ∈ s.pend := by simp [hs]
      have hd : declsOf [(⟨x, false, .bind ⟨.loc, x, s.nvar, p.1.id⟩, p.1.id :: ids p.2⟩ : Node)] = [⟨.loc, x, s.nvar, p.1.id⟩] := rfl
      simp only [hd]
      have hnd := h.headsNodup
      simp only [State.heads, hs, List.map_cons, List.nodup_cons] at hnd
      have hcl : ∀ fs, fs ∈ ({ s with pend := (⟨p.1.id, ⟨.loc, x, s.nvar, p.1.id⟩ :: p.1.vars⟩, p.2) :: r, nvar := s.nvar + 1 } : State).closed →
          fs ∈ s.closed := by
        intro fs hfs
        simpa only [State.closed, hs, List.map_cons] using hfs
      have hheads : ({ s with pend := (⟨p.1.id, ⟨.loc, x, s.nvar, p.1.id⟩ :: p.1.vars⟩, p.2) :: r, nvar := s.nvar + 1 } : State).heads = s.heads := by
        simp only [State.heads, hs, List.map_cons]
      refine { h with closed := ?_, pend := ?_, frames := ?_, headFrames := ?_, headsNodup := ?_, headsFree := ?_, vars := ?_ }
      · intro fs hfs; exact h.closed fs (hcl fs hfs)
      · intro q hq
        rcases List.mem_cons.1 hq with rfl | hq
        · exact h.pend p hp
        · exact h.pend q (by rw [hs]; exact List.mem_cons_of_mem _ hq)
      · intro fs hfs
        rw [framesOf_append]
        · exact h.frames fs (hcl fs hfs)
        · intro v hv hc
          rw [List.mem_singleton.1 hv] at hc
          exact h.headsFree fs (hcl fs hfs) _ hc (by simp [State.heads, hs])
      · intro q hq
        rcases List.mem_cons.1 hq with rfl | hq
        · have := frameOf_new (D := O) (v := ⟨.loc, x, s.nvar, p.1.id⟩)
          simp only at this ⊢
          rw [this, ← h.headFrames p hp]
        · rw [frameOf_append]
          · exact h.headFrames q (by rw [hs]; exact List.mem_cons_of_mem _ hq)
          · intro v hv hc
            rw [List.mem_singleton.1 hv] at hc
            exact hnd.1 (List.mem_map.2 ⟨q, hq, hc.symm⟩)
      · rw [hheads]; exact h.headsNodup
      · intro fs hfs; rw [hheads]; exact h.headsFree fs (hcl fs hfs)
      · intro v hv
        rcases List.mem_append.1 hv with hv | hv
        · exact h.vars v hv
        · rw [List.mem_singleton.1 hv]; exact ⟨rfl, head_lt p hp⟩
  | use x =>
    have hd : declsOf [useNode s x false] = [] := by unfold useNode; cases findIn x s.cur <;> rfl
    simpa [Resolve.step, hd] using h
  | print =>
    have hd : declsOf [useNode s printName true] = [] := by unfold useNode; cases findIn printName s.cur <;> rfl
    simpa [Resolve.step, hd] using h
  | member x f => simpa [Resolve.step, declsOf] using h
  | label x =>
    simp only [Resolve.step, declsOf, List.filterMap_cons, List.filterMap_nil, List.append_nil]
    exact { h with }
  | goto_ x => simpa [Resolve.step, declsOf] using h

end Verif.Resolve
