import Verif.MergeProgRel
import Verif.Spec.LuaStatic
/-
Helpers for C75: a program and one with merged declarations, run side by side.  Merging delays the creation of variables, so that the
instances of a variable can be numbered differently (when the expressions of the second declaration come back to the same place);
`π x n m` says that instance `n` of `x` in the original is instance `m` in the merged program.
-/
namespace Verif.Core.Mrg
open Spec

variable {H : Type} {α α' β β' : Type} {nm : Nat → Nat}

abbrev Inst := Nat → Nat → Nat → Prop

def EnvOk (π : Inst) (D : List Nat) (ρ ρ' : Env) : Prop := ∀ x ∈ D, ∃ n m, ρ x = some n ∧ ρ' x = some m ∧ π x n m

theorem EnvOk.mono {π π' : Inst} {D D' : List Nat} {ρ ρ' : Env} (h : EnvOk π D ρ ρ') (hp : ∀ x n m, π x n m → π' x n m)
    (hd : ∀ x ∈ D', x ∈ D) : EnvOk π' D' ρ ρ' := fun x hx =>
  let ⟨n, m, h1, h2, h3⟩ := h x (hd x hx)
  ⟨n, m, h1, h2, hp _ _ _ h3⟩

structure CloOk (π : Inst) (f f' : Clo) : Prop where
  ps : f'.ps = f.ps
  dots : f'.dots = f.dots
  rest : ∃ nm D, EnvOk π D f.env f'.env ∧ ScopedBl (f.ps ++ D) f.body ∧ PBl nm f.body f'.body

theorem CloOk.mono {π π' : Inst} {f f' : Clo} (h : CloOk π f f') (hp : ∀ x n m, π x n m → π' x n m) : CloOk π' f f' :=
  let ⟨nm, D, h1, h2, h3⟩ := h.rest
  ⟨h.ps, h.dots, nm, D, h1.mono hp (fun _ h => h), h2, h3⟩

structure Sim (π : Inst) (s t : State H) : Prop where
  heap : t.heap = s.heap
  cells : ∀ x n m, π x n m → ∃ v, (s.cells x)[n]? = some v ∧ (t.cells x)[m]? = some v
  inj : ∀ x n m n' m', π x n m → π x n' m' → (n = n' ↔ m = m')
  length : t.clos.length = s.clos.length
  clos : ∀ (i : Nat) (f : Clo), s.clos[i]? = some f → ∃ f', t.clos[i]? = some f' ∧ Mrg.CloOk π f f'

theorem Sim.ltS {π : Inst} {s t : State H} (h : Sim π s t) {x n m : Nat} (hp : π x n m) : n < (s.cells x).length := by
  obtain ⟨v, h1, _⟩ := h.cells x n m hp
  exact (List.getElem?_eq_some_iff.mp h1).1

theorem Sim.ltT {π : Inst} {s t : State H} (h : Sim π s t) {x n m : Nat} (hp : π x n m) : m < (t.cells x).length := by
  obtain ⟨v, _, h1⟩ := h.cells x n m hp
  exact (List.getElem?_eq_some_iff.mp h1).1

/-- What has been added since. -/
structure Ext (π : Inst) (s t : State H) (π' : Inst) (s' t' : State H) : Prop where
  sub : ∀ x n m, π x n m → π' x n m
  fresh : ∀ x n m, π' x n m → π x n m ∨ ((s.cells x).length ≤ n ∧ (t.cells x).length ≤ m)
  lenS : ∀ x, (s.cells x).length ≤ (s'.cells x).length
  lenT : ∀ x, (t.cells x).length ≤ (t'.cells x).length
  keep : ∀ x n, n < (s.cells x).length → (∀ m, ¬ π x n m) → (s'.cells x)[n]? = (s.cells x)[n]?

theorem Ext.refl (π : Inst) (s t : State H) : Ext π s t π s t :=
  ⟨fun _ _ _ h => h, fun _ _ _ h => Or.inl h, fun _ => Nat.le_refl _, fun _ => Nat.le_refl _, fun _ _ _ _ => rfl⟩

theorem Ext.trans {π π' π'' : Inst} {s t s' t' s'' t'' : State H} (h : Ext π s t π' s' t') (g : Ext π' s' t' π'' s'' t'') :
    Ext π s t π'' s'' t'' where
  sub x n m hp := g.sub _ _ _ (h.sub _ _ _ hp)
  fresh x n m hp := by
    rcases g.fresh _ _ _ hp with h1 | ⟨h1, h2⟩
    · exact h.fresh _ _ _ h1
    · exact Or.inr ⟨Nat.le_trans (h.lenS x) h1, Nat.le_trans (h.lenT x) h2⟩
  lenS x := Nat.le_trans (h.lenS x) (g.lenS x)
  lenT x := Nat.le_trans (h.lenT x) (g.lenT x)
  keep x n hn hp := by
    rw [g.keep x n (Nat.lt_of_lt_of_le hn (h.lenS x)) ?_, h.keep x n hn hp]
    intro m hm
    rcases h.fresh _ _ _ hm with h1 | ⟨h1, _⟩
    · exact hp m h1
    · omega

/-- Outcomes that look the same and leave related states. -/
inductive RelR (π : Inst) (s t : State H) (Q : Inst → α → α' → Prop) : R H α → R H α' → Prop
  | out (s' t') : t'.heap = s'.heap → RelR π s t Q (.out s') (.out t')
  | err (π' s' t') : Sim π' s' t' → Ext π s t π' s' t' → RelR π s t Q (.err s') (.err t')
  | ok (π' a a' s' t') : Sim π' s' t' → Ext π s t π' s' t' → Q π' a a' → RelR π s t Q (.ok a s') (.ok a' t')

abbrev RelV (π : Inst) (s t : State H) : R H α → R H α → Prop := RelR π s t fun _ a a' => a' = a

theorem RelR.from {π π' : Inst} {s t s' t' : State H} {Q : Inst → α → α' → Prop} {r : R H α} {r' : R H α'} (h : RelR π' s' t' Q r r')
    (he : Ext π s t π' s' t') : RelR π s t Q r r' := by
  cases h with
  | out s t h => exact .out _ _ h
  | err π s t h1 h2 => exact .err _ _ _ h1 (he.trans h2)
  | ok π a a' s t h1 h2 h3 => exact .ok _ _ _ _ _ h1 (he.trans h2) h3

theorem RelR.bind {π : Inst} {s t : State H} {Q : Inst → α → α' → Prop} {P : Inst → β → β' → Prop} {r : R H α} {r' : R H α'}
    {f : α → State H → R H β} {f' : α' → State H → R H β'} (h : RelR π s t Q r r')
    (hf : ∀ π' a a' s' t', Sim π' s' t' → Ext π s t π' s' t' → Q π' a a' → RelR π' s' t' P (f a s') (f' a' t')) :
    RelR π s t P (r.bind f) (r'.bind f') := by
  cases h with
  | out s t h => exact .out _ _ h
  | err π s t h1 h2 => exact .err _ _ _ h1 h2
  | ok π' a a' s t h1 h2 h3 => exact (hf π' a a' s t h1 h2 h3).from h2

def ApOk (ap : Apply H) : Prop := ∀ f vs π s t, Sim π s t → RelV π s t (ap f vs s) (ap f vs t)

theorem perform_sim {ap : Apply H} (hap : ApOk ap) : ∀ (a : Act H) {π : Inst} {s t : State H}, Sim π s t →
    RelV π s t (perform ap a s) (perform ap a t)
  | .fail h, π, s, t, hs => .err π _ _ ⟨rfl, hs.cells, hs.inj, hs.length, hs.clos⟩
      ⟨fun _ _ _ h => h, fun _ _ _ h => Or.inl h, fun _ => Nat.le_refl _, fun _ => Nat.le_refl _, fun _ _ _ _ => rfl⟩
  | .ret vs h, π, s, t, hs => .ok π _ _ _ _ ⟨rfl, hs.cells, hs.inj, hs.length, hs.clos⟩
      ⟨fun _ _ _ h => h, fun _ _ _ h => Or.inl h, fun _ => Nat.le_refl _, fun _ => Nat.le_refl _, fun _ _ _ _ => rfl⟩ rfl
  | .call f vs h k, π, s, t, hs => by
    have h0 : Sim π { s with heap := h } { t with heap := h } := ⟨rfl, hs.cells, hs.inj, hs.length, hs.clos⟩
    have e0 : Ext π s t π { s with heap := h } { t with heap := h } :=
      ⟨fun _ _ _ h => h, fun _ _ _ h => Or.inl h, fun _ => Nat.le_refl _, fun _ => Nat.le_refl _, fun _ _ _ _ => rfl⟩
    have h1 := (hap f vs π _ _ h0).from e0
    simp only [perform]
    generalize ap f vs { s with heap := h } = r at h1 ⊢
    generalize ap f vs { t with heap := h } = r' at h1 ⊢
    cases h1 with
    | out s' t' h => exact .out _ _ h
    | err π' s' t' h1 h2 =>
      simp only [h1.heap]
      exact (perform_sim hap _ h1).from h2
    | ok π' a a' s' t' h1 h2 h3 =>
      subst h3
      simp only [h1.heap]
      exact (perform_sim hap _ h1).from h2

/-! ### New instances -/

/-- Both sides create an instance of `x`. -/
theorem grow {π : Inst} {s t : State H} {D : List Nat} {ρ ρ' : Env} (hs : Sim π s t) (he : EnvOk π D ρ ρ') (x : Nat) (v : V) :
    ∃ π', Sim π' { s with cells := upd s.cells x (s.cells x ++ [v]) } { t with cells := upd t.cells x (t.cells x ++ [v]) } ∧
      Ext π s t π' { s with cells := upd s.cells x (s.cells x ++ [v]) } { t with cells := upd t.cells x (t.cells x ++ [v]) } ∧
      EnvOk π' (x :: D) (upd ρ x (some (s.cells x).length)) (upd ρ' x (some (t.cells x).length)) := by
  refine ⟨fun y n m => π y n m ∨ (y = x ∧ n = (s.cells x).length ∧ m = (t.cells x).length), ⟨hs.heap, ?_, ?_, hs.length, ?_⟩,
    ⟨fun _ _ _ h => Or.inl h, ?_, ?_, ?_, ?_⟩, ?_⟩
  · rintro y n m (h | ⟨rfl, rfl, rfl⟩)
    · obtain ⟨u, h1, h2⟩ := hs.cells y n m h
      refine ⟨u, ?_, ?_⟩
      · by_cases hy : y = x
        · subst hy
          simp only [upd_self]
          rw [List.getElem?_append_left (hs.ltS h)]; exact h1
        · simp only [upd_of_ne _ _ hy]; exact h1
      · by_cases hy : y = x
        · subst hy
          simp only [upd_self]
          rw [List.getElem?_append_left (hs.ltT h)]; exact h2
        · simp only [upd_of_ne _ _ hy]; exact h2
    · exact ⟨v, by simp [upd_self], by simp [upd_self]⟩
  · rintro y n m n' m' (h | ⟨rfl, rfl, rfl⟩) (h' | ⟨h1, h2, h3⟩)
    · exact hs.inj y n m n' m' h h'
    · subst h1 h2 h3
      have := hs.ltS h
      have := hs.ltT h
      constructor <;> intro <;> omega
    · have := hs.ltS h'
      have := hs.ltT h'
      constructor <;> intro <;> omega
    · subst h2 h3; simp
  · intro i f hf
    obtain ⟨f', h1, h2⟩ := hs.clos i f hf
    exact ⟨f', h1, h2.mono fun _ _ _ h => Or.inl h⟩
  · rintro y n m (h | ⟨rfl, rfl, rfl⟩)
    · exact Or.inl h
    · exact Or.inr ⟨Nat.le_refl _, Nat.le_refl _⟩
  · intro y
    by_cases hy : y = x
    · subst hy; simp [upd_self]
    · simp [upd_of_ne _ _ hy]
  · intro y
    by_cases hy : y = x
    · subst hy; simp [upd_self]
    · simp [upd_of_ne _ _ hy]
  · intro y n hn _
    by_cases hy : y = x
    · subst hy; simp only [upd_self]; rw [List.getElem?_append_left hn]
    · simp [upd_of_ne _ _ hy]
  · intro y hy
    by_cases h : y = x
    · subst h
      exact ⟨_, _, upd_self _ _ _, upd_self _ _ _, Or.inr ⟨rfl, rfl, rfl⟩⟩
    · obtain ⟨n, m, h1, h2, h3⟩ := he y (by simpa [h] using hy)
      exact ⟨n, m, by rw [upd_of_ne _ _ h, h1], by rw [upd_of_ne _ _ h, h2], Or.inl h3⟩

theorem alloc_sim : ∀ (xs : List Nat) (vs : List V) {π : Inst} {s t : State H} {D : List Nat} {ρ ρ' : Env}, Sim π s t → EnvOk π D ρ ρ' →
    ∃ π', Sim π' (alloc xs vs ρ s).2 (alloc xs vs ρ' t).2 ∧ Ext π s t π' (alloc xs vs ρ s).2 (alloc xs vs ρ' t).2 ∧
      EnvOk π' (xs ++ D) (alloc xs vs ρ s).1 (alloc xs vs ρ' t).1
  | [], vs, π, s, t, D, ρ, ρ', hs, he => ⟨π, hs, Ext.refl _ _ _, he⟩
  | x :: xs, vs, π, s, t, D, ρ, ρ', hs, he => by
    obtain ⟨π1, h1, h2, h3⟩ := grow hs he x (first vs)
    obtain ⟨π2, g1, g2, g3⟩ := alloc_sim xs vs.tail h1 h3
    refine ⟨π2, g1, h2.trans g2, g3.mono (fun _ _ _ h => h) ?_⟩
    intro y hy
    simp only [List.cons_append, List.mem_cons, List.mem_append] at hy ⊢
    rcases hy with h | h | h
    · exact Or.inr (Or.inl h)
    · exact Or.inl h
    · exact Or.inr (Or.inr h)

/-- Both sides create a function. -/
theorem addClo {π : Inst} {s t : State H} {f f' : Clo} (hs : Sim π s t) (hf : CloOk π f f') :
    Sim π { s with clos := s.clos ++ [f] } { t with clos := t.clos ++ [f'] } := by
  refine ⟨hs.heap, hs.cells, hs.inj, by simp [hs.length], ?_⟩
  intro i g hg
  simp only at hg
  rcases Nat.lt_trichotomy i s.clos.length with h | h | h
  · rw [List.getElem?_append_left h] at hg
    obtain ⟨g', h1, h2⟩ := hs.clos i g hg
    refine ⟨g', ?_, h2⟩
    simp only
    rw [List.getElem?_append_left (by rw [hs.length]; exact h)]; exact h1
  · subst h
    simp only [List.getElem?_concat_length, Option.some.injEq] at hg
    subst hg
    refine ⟨f', ?_, hf⟩
    simp only
    rw [← hs.length, List.getElem?_concat_length]
  · rw [List.getElem?_eq_none (by simp; omega)] at hg
    cases hg

theorem ext_clo {π : Inst} {s t : State H} (l l' : List Clo) : Ext π s t π { s with clos := l } { t with clos := l' } :=
  ⟨fun _ _ _ h => h, fun _ _ _ h => Or.inl h, fun _ => Nat.le_refl _, fun _ => Nat.le_refl _, fun _ _ _ _ => rfl⟩

/-- Both sides assign to a local variable. -/
theorem set_sim {π : Inst} {s t : State H} {x n m : Nat} {v : V} (hs : Sim π s t) (hx : π x n m) :
    Sim π { s with cells := upd s.cells x ((s.cells x).set n v) } { t with cells := upd t.cells x ((t.cells x).set m v) } ∧
    Ext π s t π { s with cells := upd s.cells x ((s.cells x).set n v) } { t with cells := upd t.cells x ((t.cells x).set m v) } := by
  refine ⟨⟨hs.heap, ?_, hs.inj, hs.length, hs.clos⟩, ⟨fun _ _ _ h => h, fun _ _ _ h => Or.inl h, ?_, ?_, ?_⟩⟩
  · intro y n' m' h
    obtain ⟨u, h1, h2⟩ := hs.cells y n' m' h
    by_cases hy : y = x
    · subst hy
      simp only [upd_self]
      have hi := hs.inj y n m n' m' hx h
      by_cases hn : n = n'
      · subst hn
        have := hi.mp rfl
        subst this
        exact ⟨v, by simp [hs.ltS hx], by simp [hs.ltT hx]⟩
      · have hm : m ≠ m' := fun e => hn (hi.mpr e)
        exact ⟨u, by rw [List.getElem?_set_ne hn]; exact h1, by rw [List.getElem?_set_ne hm]; exact h2⟩
    · simp only [upd_of_ne _ _ hy]; exact ⟨u, h1, h2⟩
  · intro y
    by_cases hy : y = x
    · subst hy; simp [upd_self]
    · simp [upd_of_ne _ _ hy]
  · intro y
    by_cases hy : y = x
    · subst hy; simp [upd_self]
    · simp [upd_of_ne _ _ hy]
  · intro y k hk hp
    by_cases hy : y = x
    · subst hy
      simp only [upd_self]
      rw [List.getElem?_set_ne]
      intro e
      subst e
      exact hp m hx
    · simp [upd_of_ne _ _ hy]

/-- The declaration that comes later in the merged program. -/
theorem late {π : Inst} {s t : State H} (xs : List Nat) (vs : List V) (ρ : Env) (hn : xs.Nodup) (hs : Sim π s t) :
    Sim π (alloc xs vs ρ s).2 t ∧ Ext π s t π (alloc xs vs ρ s).2 t := by
  have hc := alloc_cells xs vs ρ s hn
  have get : ∀ y n, n < (s.cells y).length → ((alloc xs vs ρ s).2.cells y)[n]? = (s.cells y)[n]? := by
    intro y n h
    rw [hc y]
    split
    · exact List.getElem?_append_left h
    · rfl
  refine ⟨⟨by rw [hs.heap, alloc_heap], ?_, hs.inj, by rw [hs.length, alloc_clos], ?_⟩,
    ⟨fun _ _ _ h => h, fun _ _ _ h => Or.inl h, ?_, fun _ => Nat.le_refl _, fun y n h _ => get y n h⟩⟩
  · intro y n m h
    rw [get y n (hs.ltS h)]
    exact hs.cells y n m h
  · intro i f hf
    rw [alloc_clos] at hf
    exact hs.clos i f hf
  · intro y
    rw [hc y]
    split <;> simp

/-- The end of the merged declaration. -/
theorem merge_alloc {π1 π2 : Inst} {s1 t1 s2 t2 : State H} {xs ys D : List Nat} {es fs : List Ex} {vs us : List V} {ρ ρ' : Env}
    (hm : May nm xs es ys fs) (hv : lastMany es = false → vs.length = es.length) (hu : lastMany fs = false → us.length = fs.length)
    (hs1 : Sim π1 s1 t1) (hs2 : Sim π2 s2 t2) (hx : Ext π1 (alloc xs vs ρ s1).2 t1 π2 s2 t2) (he : EnvOk π1 D ρ ρ') :
    ∃ π3, Sim π3 (alloc ys us (alloc xs vs ρ s1).1 s2).2 (alloc (both xs es.length ys) (adjust es.length vs ++ us) ρ' t2).2 ∧
      Ext π1 s1 t1 π3 (alloc ys us (alloc xs vs ρ s1).1 s2).2 (alloc (both xs es.length ys) (adjust es.length vs ++ us) ρ' t2).2 ∧
      EnvOk π3 (ys ++ (xs ++ D)) (alloc ys us (alloc xs vs ρ s1).1 s2).1
        (alloc (both xs es.length ys) (adjust es.length vs ++ us) ρ' t2).1 := by
  obtain ⟨nx, ny, ndis⟩ := List.nodup_append.mp hm.nodup
  have dis : ∀ z, z ∈ xs → z ∈ ys → False := fun z h1 h2 => ndis z h1 z h2 rfl
  have nb := both_nodup (n := es.length) hm.nodup
  have c1 := alloc_cells xs vs ρ s1 nx
  have c2 := alloc_cells ys us (alloc xs vs ρ s1).1 s2 ny
  have c3 := alloc_cells (both xs es.length ys) (adjust es.length vs ++ us) ρ' t2 nb
  have e1 := alloc_env xs vs ρ s1 nx
  have e2 := alloc_env ys us (alloc xs vs ρ s1).1 s2 ny
  have e3 := alloc_env (both xs es.length ys) (adjust es.length vs ++ us) ρ' t2 nb
  have hl := look_both hm hv hu
  have hlate := late xs vs ρ nx hs1
  have hE := hlate.2.trans hx
  -- the pending instance of a variable of the first declaration
  have pend : ∀ x ∈ xs, (s2.cells x)[(s1.cells x).length]? = some (look xs vs x) ∧ (∀ m, ¬ π2 x (s1.cells x).length m) := by
    intro x hxx
    have hno : ∀ m, ¬ π1 x (s1.cells x).length m := fun m h => Nat.lt_irrefl _ (hs1.ltS h)
    have hlt : (s1.cells x).length < ((alloc xs vs ρ s1).2.cells x).length := by rw [c1 x, if_pos hxx]; simp
    refine ⟨?_, ?_⟩
    · rw [hx.keep x _ hlt hno, c1 x, if_pos hxx]; simp
    · intro m h
      rcases hx.fresh _ _ _ h with h1 | ⟨h1, _⟩
      · exact hno m h1
      · omega
  refine ⟨fun x n m => π2 x n m ∨ (x ∈ xs ∧ n = (s1.cells x).length ∧ m = (t2.cells x).length) ∨
    (x ∈ ys ∧ n = (s2.cells x).length ∧ m = (t2.cells x).length), ⟨?_, ?_, ?_, ?_, ?_⟩, ⟨?_, ?_, ?_, ?_, ?_⟩, ?_⟩
  · rw [alloc_heap, alloc_heap]; exact hs2.heap
  · rintro x n m (h | ⟨h, rfl, rfl⟩ | ⟨h, rfl, rfl⟩)
    · obtain ⟨v, g1, g2⟩ := hs2.cells x n m h
      refine ⟨v, ?_, ?_⟩
      · rw [c2 x]
        split
        · rw [List.getElem?_append_left (hs2.ltS h)]; exact g1
        · exact g1
      · rw [c3 x]
        split
        · rw [List.getElem?_append_left (hs2.ltT h)]; exact g2
        · exact g2
    · refine ⟨look xs vs x, ?_, ?_⟩
      · rw [c2 x, if_neg (fun h' => dis x h h')]; exact (pend x h).1
      · rw [c3 x, if_pos (mem_both.mpr (Or.inl h)), (hl x).1 h]; simp
    · refine ⟨look ys us x, ?_, ?_⟩
      · rw [c2 x, if_pos h]; simp
      · rw [c3 x, if_pos (mem_both.mpr (Or.inr h)), (hl x).2 h]; simp
  · rintro x n m n' m' (h | ⟨h, rfl, rfl⟩ | ⟨h, rfl, rfl⟩) (h' | ⟨h', rfl, rfl⟩ | ⟨h', rfl, rfl⟩)
    · exact hs2.inj x n m n' m' h h'
    · have := hs2.ltT h
      refine ⟨fun e => ?_, fun e => by omega⟩
      subst e
      exact absurd h ((pend x h').2 _)
    · have := hs2.ltT h
      have := hs2.ltS h
      constructor <;> intro <;> omega
    · have := hs2.ltT h'
      refine ⟨fun e => ?_, fun e => by omega⟩
      rw [← e] at h'
      exact absurd h' ((pend x h).2 _)
    · simp
    · exact (dis x h h').elim
    · have := hs2.ltT h'
      have := hs2.ltS h'
      constructor <;> intro <;> omega
    · exact (dis x h' h).elim
    · simp
  · rw [alloc_clos, alloc_clos]; exact hs2.length
  · intro i f hf
    rw [alloc_clos] at hf
    obtain ⟨f', g1, g2⟩ := hs2.clos i f hf
    exact ⟨f', by rw [alloc_clos]; exact g1, g2.mono fun _ _ _ h => Or.inl h⟩
  · exact fun x n m h => Or.inl (hE.sub _ _ _ h)
  · rintro x n m (h | ⟨h, rfl, rfl⟩ | ⟨h, rfl, rfl⟩)
    · exact hE.fresh _ _ _ h
    · exact Or.inr ⟨Nat.le_refl _, hE.lenT x⟩
    · exact Or.inr ⟨hE.lenS x, hE.lenT x⟩
  · intro x
    refine Nat.le_trans (hE.lenS x) ?_
    rw [c2 x]; split <;> simp
  · intro x
    refine Nat.le_trans (hE.lenT x) ?_
    rw [c3 x]; split <;> simp
  · intro x n hn hp
    rw [← hE.keep x n hn hp, c2 x]
    split
    · exact List.getElem?_append_left (Nat.lt_of_lt_of_le hn (hE.lenS x))
    · rfl
  · intro x hx'
    rw [e2 x, e3 x, e1 x]
    by_cases hy : x ∈ ys
    · exact ⟨_, _, if_pos hy, if_pos (mem_both.mpr (Or.inr hy)), Or.inr (Or.inr ⟨hy, rfl, rfl⟩)⟩
    · by_cases hxx : x ∈ xs
      · exact ⟨_, _, by rw [if_neg hy, if_pos hxx], if_pos (mem_both.mpr (Or.inl hxx)), Or.inr (Or.inl ⟨hxx, rfl, rfl⟩)⟩
      · obtain ⟨n, m, g1, g2, g3⟩ := he x (by
          simp only [List.mem_append] at hx'
          exact (hx'.resolve_left hy).resolve_left hxx)
        refine ⟨n, m, by rw [if_neg hy, if_neg hxx, g1], ?_, Or.inl (hE.sub _ _ _ g3)⟩
        rw [if_neg (fun h => (mem_both.mp h).elim hxx hy), g2]

end Verif.Core.Mrg
