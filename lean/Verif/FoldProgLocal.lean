import Verif.FoldProgLemmas
/-
Helpers for C74: `local` statements that lose constant variables.
-/
namespace Verif.Core
open Spec

variable {H : Type} {α β : Type} {c : Fold} {G : Nat → Option LV}

/-- Exactly `n` values. -/
def adjust : Nat → List V → List V
  | 0, _ => []
  | n + 1, vs => first vs :: adjust n vs.tail

theorem adjust_length (n : Nat) (vs : List V) : (adjust n vs).length = n := by
  induction n generalizing vs with
  | zero => rfl
  | succ n ih => simp [adjust, ih]

theorem adjust_nil (n : Nat) : adjust n [] = List.replicate n .nil := by
  induction n with
  | zero => rfl
  | succ n ih => simp only [adjust, List.tail_nil, ih, List.replicate_succ]; rfl

theorem alloc_adjust (xs : List Nat) (vs : List V) (ρ : Env) (s : State H) : alloc xs vs ρ s = alloc xs (adjust xs.length vs) ρ s := by
  induction xs generalizing vs ρ s with
  | nil => rfl
  | cons x xs ih =>
    simp only [alloc, List.length_cons, adjust, List.tail_cons]
    rw [ih]
    rfl

theorem upd_self {α : Type} (f : Nat → α) (x : Nat) (a : α) : upd f x a x = a := by simp [upd]

theorem upd_of_ne {α : Type} (f : Nat → α) {x y : Nat} (a : α) (h : y ≠ x) : upd f x a y = f y := by simp [upd, h]

theorem le_grow (s : State H) (x : Nat) (v : V) : Le s { s with cells := upd s.cells x (s.cells x ++ [v]) } := by
  intro y
  by_cases h : y = x
  · subst h; simp [upd_self]
  · simp [upd_of_ne _ _ h]

/-- A new instance of a constant variable, in the original only. -/
theorem grow_left {s s' : State H} {D : List Nat} {ρ ρ' : Env} {x : Nat} {v : V} (hs : Sim c G s s') (he : EnvOk G D s ρ ρ')
    (hx : G x ≠ none) (hv : ∀ u, G x = some u → v = lit c.lang u) :
    Sim c G { s with cells := upd s.cells x (s.cells x ++ [v]) } s' ∧
      EnvOk G (x :: D) { s with cells := upd s.cells x (s.cells x ++ [v]) } (upd ρ x (some (s.cells x).length)) ρ' := by
  refine ⟨⟨hs.heap, ?_, ?_, hs.length, ?_⟩, ?_⟩
  · intro y hy
    have : y ≠ x := fun h => hx (h ▸ hy)
    simp only [upd_of_ne _ _ this]
    exact hs.cells y hy
  · intro y u hu w hw
    by_cases h : y = x
    · subst h
      simp only [upd_self, List.mem_append, List.mem_singleton] at hw
      rcases hw with hw | hw
      · exact hs.consts y u hu w hw
      · rw [hw]; exact hv u hu
    · simp only [upd_of_ne _ _ h] at hw
      exact hs.consts y u hu w hw
  · intro i f hf
    obtain ⟨f', h1, h2⟩ := hs.clos i f hf
    exact ⟨f', h1, h2.mono (le_grow s x v)⟩
  · intro y hy
    by_cases h : y = x
    · subst h
      exact ⟨fun hn => absurd hn hx, (s.cells y).length, by simp [upd_self], by simp [upd_self]⟩
    · have hy : y ∈ D := by simpa [h] using hy
      have := he.mono (le_grow s x v) (fun _ h => h) y hy
      simpa only [upd_of_ne _ _ h] using this

/-- A new instance on both sides. -/
theorem grow_both {s s' : State H} {D : List Nat} {ρ ρ' : Env} {x : Nat} {v : V} (hs : Sim c G s s') (he : EnvOk G D s ρ ρ')
    (hv : ∀ u, G x = some u → v = lit c.lang u) :
    Sim c G { s with cells := upd s.cells x (s.cells x ++ [v]) } { s' with cells := upd s'.cells x (s'.cells x ++ [v]) } ∧
      EnvOk G (x :: D) { s with cells := upd s.cells x (s.cells x ++ [v]) } (upd ρ x (some (s.cells x).length))
        (upd ρ' x (some (s'.cells x).length)) := by
  refine ⟨⟨hs.heap, ?_, ?_, hs.length, ?_⟩, ?_⟩
  · intro y hy
    by_cases h : y = x
    · subst h; simp only [upd_self, hs.cells y hy]
    · simp only [upd_of_ne _ _ h]
      exact hs.cells y hy
  · intro y u hu w hw
    by_cases h : y = x
    · subst h
      simp only [upd_self, List.mem_append, List.mem_singleton] at hw
      rcases hw with hw | hw
      · exact hs.consts y u hu w hw
      · rw [hw]; exact hv u hu
    · simp only [upd_of_ne _ _ h] at hw
      exact hs.consts y u hu w hw
  · intro i f hf
    obtain ⟨f', h1, h2⟩ := hs.clos i f hf
    exact ⟨f', h1, h2.mono (le_grow s x v)⟩
  · intro y hy
    by_cases h : y = x
    · subst h
      exact ⟨fun hn => by simp only [upd_self, hs.cells y hn], (s.cells y).length, by simp [upd_self], by simp [upd_self]⟩
    · have hy : y ∈ D := by simpa [h] using hy
      have := he.mono (le_grow s x v) (fun _ h => h) y hy
      simpa only [upd_of_ne _ _ h] using this

/-- Constant variables are given their constants, and only those may be left out. -/
def Given (c : Fold) (G : Nat → Option LV) : List Nat → List Bool → List V → Prop
  | x :: xs, m :: ms, v :: vs => (m = true → G x ≠ none) ∧ (∀ u, G x = some u → v = lit c.lang u) ∧ Given c G xs ms vs
  | _, _, _ => True

theorem alloc_sim : ∀ (xs : List Nat) {ms : List Bool} {vs : List V} {D : List Nat} {s s' : State H} {ρ ρ' : Env},
    ms.length = xs.length → vs.length = xs.length → Given c G xs ms vs → Sim c G s s' → EnvOk G D s ρ ρ' →
    Sim c G (alloc xs vs ρ s).2 (alloc (unmarked ms xs) (unmarked ms vs) ρ' s').2 ∧ Le s (alloc xs vs ρ s).2 ∧
      EnvOk G (xs ++ D) (alloc xs vs ρ s).2 (alloc xs vs ρ s).1 (alloc (unmarked ms xs) (unmarked ms vs) ρ' s').1
  | [], ms, vs, D, s, s', ρ, ρ', h1, h2, _, hs, he => by
    have e1 : ms = [] := List.eq_nil_of_length_eq_zero h1
    have e2 : vs = [] := List.eq_nil_of_length_eq_zero h2
    subst e1 e2
    exact ⟨hs, Le.refl s, he⟩
  | x :: xs, [], _, _, _, _, _, _, h1, _, _, _, _ => by simp at h1
  | x :: xs, m :: ms, [], _, _, _, _, _, _, h2, _, _, _ => by simp at h2
  | x :: xs, m :: ms, v :: vs, D, s, s', ρ, ρ', h1, h2, hg, hs, he => by
    have sub : ∀ y ∈ (x :: xs) ++ D, y ∈ xs ++ x :: D := by
      intro y hy
      simp only [List.cons_append, List.mem_cons, List.mem_append] at hy ⊢
      rcases hy with h | h | h
      · exact Or.inr (Or.inl h)
      · exact Or.inl h
      · exact Or.inr (Or.inr h)
    cases m with
    | true =>
      obtain ⟨g1, g2⟩ := grow_left (x := x) (v := v) hs he (hg.1 rfl) hg.2.1
      obtain ⟨k1, k2, k3⟩ := alloc_sim xs (by simpa using h1) (by simpa using h2) hg.2.2 g1 g2
      exact ⟨k1, (le_grow s x v).trans k2, k3.mono (Le.refl _) sub⟩
    | false =>
      obtain ⟨g1, g2⟩ := grow_both (x := x) (v := v) hs he hg.2.1
      obtain ⟨k1, k2, k3⟩ := alloc_sim xs (by simpa using h1) (by simpa using h2) hg.2.2 g1 g2
      exact ⟨k1, (le_grow s x v).trans k2, k3.mono (Le.refl _) sub⟩

theorem unmarked_false {β : Type} : ∀ (ms : List Bool) (l : List β), (∀ m ∈ ms, m = false) → l.length ≤ ms.length → unmarked ms l = l
  | [], l, _, _ => rfl
  | m :: ms, [], _, _ => by cases m <;> rfl
  | m :: ms, x :: l, h, hl => by
    have := h m (by simp)
    subst this
    simp only [unmarked, unmarked_false ms l (fun m hm => h m (List.mem_cons_of_mem _ hm)) (by simpa using hl)]

/-- Variables that are not constants. -/
theorem alloc_plain {xs : List Nat} {vs : List V} {D : List Nat} {s s' : State H} {ρ ρ' : Env} (hx : ∀ x ∈ xs, G x = none)
    (hs : Sim c G s s') (he : EnvOk G D s ρ ρ') :
    Sim c G (alloc xs vs ρ s).2 (alloc xs vs ρ' s').2 ∧ Le s (alloc xs vs ρ s).2 ∧
      EnvOk G (xs ++ D) (alloc xs vs ρ s).2 (alloc xs vs ρ s).1 (alloc xs vs ρ' s').1 := by
  have hall : ∀ m ∈ List.replicate xs.length false, m = false := fun m hm => (List.mem_replicate.mp hm).2
  have hg : ∀ (xs : List Nat) (vs : List V), (∀ x ∈ xs, G x = none) → Given c G xs (List.replicate xs.length false) vs := by
    intro xs
    induction xs with
    | nil => intro vs _; simp [Given]
    | cons x xs ih =>
      intro vs h
      cases vs with
      | nil => simp [Given, List.replicate_succ]
      | cons v vs =>
        simp only [List.length_cons, List.replicate_succ, Given]
        refine ⟨fun h => by (cases h), fun u hu => ?_, ih vs fun y hy => h y (List.mem_cons_of_mem _ hy)⟩
        rw [h x (by simp)] at hu; cases hu
  have := alloc_sim xs (by simp) (adjust_length xs.length vs) (hg xs (adjust xs.length vs) hx) hs he
  rw [unmarked_false _ xs hall (by simp), unmarked_false _ (adjust xs.length vs) hall (by simp [adjust_length]), ← alloc_adjust,
    ← alloc_adjust] at this
  exact this

/-! ### The values reaching the remaining targets -/

/-- Known sources give their constants, missing ones `nil`. -/
def Known (c : Fold) (many : Bool) : List (Option LV) → List V → Prop
  | k :: ks, v :: vs => (∀ u, k = some u → v = lit c.lang u) ∧ Known c many ks vs
  | _ :: _, [] => True
  | [], vs => many = false → ∀ v ∈ vs, v = .nil

/-- Only known sources are left out, and targets without a source only if they are `nil`. -/
def Marked (many : Bool) : List Bool → List (Option LV) → Prop
  | m :: ms, k :: ks => (m = true → ∃ u, k = some u) ∧ Marked many ms ks
  | [], _ => True
  | ms, [] => many = true → ∀ m ∈ ms, m = false

theorem lastMany_cons (e e' : Ex) (es : List Ex) : lastMany (e :: e' :: es) = lastMany (e' :: es) := by
  simp [lastMany, List.getLast?_cons_cons]

theorem unmarked_nil {β : Type} (ms : List Bool) : unmarked ms ([] : List β) = [] := by
  cases ms with
  | nil => rfl
  | cons m _ => cases m <;> rfl

theorem known_nil (ks : List (Option LV)) (many : Bool) : Known c many ks [] := by
  cases ks with
  | nil => intro _ v h; cases h
  | cons k ks => trivial

section
variable {cx : Cx H} {D : List Nat} {Γ : Nat → Option LV}

theorem erase_sim (hl : cx.lang = c.lang) {ρ ρ' : Env} {va : List V} : ∀ (ms : List Bool) (xs : List Nat) {es es' : List Ex} {ks : List (Option LV)}
    {s s' : State H}, ms.length = xs.length → SrcOk c G cx D Γ es es' ks → FineEs c G D Γ es → Marked (lastMany es') ms ks →
    NoExpose ms xs es' → Sim c G s s' → EnvOk G D s ρ ρ' →
    RelR c G s (fun vs vs' _ => adjust (unmarked ms xs).length vs' = unmarked ms (adjust xs.length vs) ∧
        Known c (lastMany es') ks (adjust xs.length vs))
      (args cx ρ va es s) (args cx ρ' va (unmarked ms es') s')
  | [], [], es, es', ks, s, s', _, h, hf, _, _, hs, he => by
    refine (args_sim h hf va s s' ρ ρ' hs he).weaken fun a a' t _ ha => ?_
    exact ⟨rfl, known_nil _ _⟩
  | [], x :: xs, _, _, _, _, _, hlen, _, _, _, _, _, _ => by simp at hlen
  | m :: ms, [], _, _, _, _, _, hlen, _, _, _, _, _, _ => by simp at hlen
  | m :: ms, x :: xs, es, es', ks, s, s', hlen, h, hf, hm, hn, hs, he => by
    have hlen' : ms.length = xs.length := by simpa using hlen
    cases h with
    | nil =>
      rw [unmarked_nil]
      simp only [args]
      refine .ok _ _ _ _ hs (Le.refl s) ⟨?_, ?_⟩
      · rw [adjust_nil, adjust_nil]
        exact (unmarked_replicate (m :: ms) (x :: xs) _ hlen).symm
      · rw [adjust_nil]
        exact fun _ v hv => (List.mem_replicate.mp hv).2
    | @cons e e' k es es' ks h1 h =>
      cases h with
      | nil =>
        have hf : e.Fine c G true D Γ := by simpa only [FineEs] using hf
        have hmany : lastMany [e'] = e'.multi := rfl
        rw [hmany] at hm ⊢
        cases m with
        | true =>
          obtain ⟨u, hu⟩ := hm.1 rfl
          simp only [unmarked, unmarked_nil, args, h1.known u hu va s s' ρ ρ' hs he]
          refine .ok _ _ _ _ hs (Le.refl s) ⟨?_, ?_⟩
          · simp only [List.length_cons, adjust, List.tail_cons, unmarked, adjust_nil]
            exact (unmarked_replicate ms xs _ hlen').symm
          · simp only [List.length_cons, adjust, List.tail_cons, adjust_nil, Known]
            refine ⟨fun u' hu' => ?_, fun _ v hv => (List.mem_replicate.mp hv).2⟩
            rw [hu] at hu'; cases hu'; rfl
        | false =>
          simp only [unmarked, unmarked_nil, args]
          refine (((h1.all hf va s s' ρ ρ' hs he).right (P := fun a => e'.multi = false → a = [first a])
            fun a t h hm => single_of_not_multi hm h).left (P := fun a => ∀ u, k = some u → first a = lit c.lang u)
            fun a t h u hu => ?_).weaken fun a a' t _ ha => ?_
          · rw [h1.known u hu va s s' ρ ρ' hs he] at h
            cases h; rfl
          · obtain ⟨⟨rfl, hone⟩, hk⟩ := ha
            simp only [List.length_cons, adjust, unmarked, List.cons.injEq, true_and, Known]
            cases hb : e'.multi with
            | false =>
              rw [hone hb]
              simp only [List.tail_cons, adjust_nil]
              refine ⟨(unmarked_replicate ms xs _ hlen').symm, ?_, fun _ v hv => (List.mem_replicate.mp hv).2⟩
              intro u hu; rw [← hk u hu]; rfl
            | true =>
              have hall : ∀ m ∈ ms, m = false := by
                have := hm.2
                rw [hb] at this
                cases ms with
                | nil => intro m h; cases h
                | cons m ms => exact this rfl
              rw [unmarked_false ms xs hall (by omega), unmarked_false ms _ hall (by rw [adjust_length]; omega)]
              exact ⟨rfl, hk, fun h => by cases h⟩
      | @cons f f' k2 es2 es2' ks2 h2 h =>
        have hsrc : SrcOk c G cx D Γ (f :: es2) (f' :: es2') (k2 :: ks2) := .cons h2 h
        have hf : e.Fine c G false D Γ ∧ FineEs c G D Γ (f :: es2) := by simpa only [FineEs] using hf
        rw [lastMany_cons] at hm ⊢
        simp only [NoExpose] at hn
        cases m with
        | true =>
          obtain ⟨u, hu⟩ := hm.1 rfl
          simp only [args, h1.known u hu va s s' ρ ρ' hs he, R.bind, unmarked]
          rw [← bind_self (args cx ρ' va (unmarked ms (f' :: es2')) s')]
          refine (erase_sim hl ms xs hlen' hsrc hf.2 hm.2 hn.2 hs he).bind fun b b' t t' ht _ hb => ?_
          refine .ok _ _ _ _ ht (Le.refl t) ⟨?_, ?_⟩
          · simpa only [List.length_cons, adjust, List.tail_cons, unmarked] using hb.1
          · simp only [List.length_cons, adjust, List.tail_cons, Known]
            refine ⟨fun u' hu' => ?_, hb.2⟩
            rw [hu] at hu'; cases hu'; rfl
        | false =>
          simp only [unmarked, args]
          have h1' := ((h1.one va s s' ρ ρ' hs he).right (P := fun a => e'.multi = false → a = [first a])
            fun a t h hm => single_of_not_multi hm h).left (P := fun a => ∀ u, k = some u → first a = lit c.lang u)
            fun a t h u hu => by
              rw [h1.known u hu va s s' ρ ρ' hs he] at h
              cases h; rfl
          cases hu : unmarked ms (f' :: es2') with
          | cons g gs =>
            simp only [args]
            refine h1'.bind fun a a' t t' ht hle ha => ?_
            have ih := erase_sim (va := va) hl ms xs hlen' hsrc hf.2 hm.2 hn.2 ht (he.mono hle fun _ h => h)
            rw [hu] at ih
            refine ih.bind fun b b' z z' hz _ hb => .ok _ _ _ _ hz (Le.refl z) ⟨?_, ?_⟩
            · simp only [List.length_cons, adjust, List.tail_cons, unmarked, first, List.headD, List.cons.injEq]
              exact ⟨ha.1.1.symm, hb.1⟩
            · simp only [List.length_cons, adjust, List.tail_cons, Known]
              exact ⟨ha.2, hb.2⟩
          | nil =>
            simp only [args]
            rw [← bind_self (vals cx ρ' va e' s')]
            refine h1'.bind fun a a' t t' ht hle ha => ?_
            have ih := erase_sim (va := va) hl ms xs hlen' hsrc hf.2 hm.2 hn.2 ht (he.mono hle fun _ h => h)
            rw [hu] at ih
            simp only [args] at ih
            have e2 : R.ok (H := H) a' t' = (R.ok (H := H) ([] : List V) t').bind fun _ z => .ok a' z := rfl
            rw [e2]
            refine (ih.right (P := fun l => l = []) fun l _ h => by cases h; rfl).bind fun b b' z z' hz _ hb =>
              .ok _ _ _ _ hz (Le.refl z) ⟨?_, ?_⟩
            · obtain ⟨⟨hb, _⟩, rfl⟩ := hb
              simp only [List.length_cons, adjust, List.tail_cons, unmarked, List.cons.injEq]
              refine ⟨ha.1.1.symm, ?_⟩
              rw [← hb]
              cases hb : e'.multi with
              | false => rw [ha.1.2 hb]; rfl
              | true => rw [hn.1 rfl hu hb]; rfl
            · simp only [List.length_cons, adjust, List.tail_cons, Known]
              exact ⟨ha.2, hb.1.2⟩
end

end Verif.Core
