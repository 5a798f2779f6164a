import Verif.FoldProgFine
/-
Helpers for C74: in the folded program every use of a variable still lies in the scope of its declaration.
-/
namespace Verif.Core
open Spec

/-- A world that computes with constants, records what is printed and assigned, and fails at everything else. -/
def console (lang : Lang) (arith : Bool) : World (List (Nat × List V)) where
  un o v h := match v with
    | .base x => match rtUn lang o x with
      | some r => .ret [.base r] h
      | none => .fail h
    | _ => .fail h
  bin o v u h := match v, u with
    | .base x, .base y => match rtBin arith o x y with
      | some r => .ret [.base r] h
      | none => .fail h
    | _, _ => .fail h
  builtin f vs h := match vs.mapM (fun v => match v with | .base x => some x | _ => none) with
    | some xs => match rtCall arith f xs with
      | some r => .ret [.base r] h
      | none => .fail h
    | none => .fail h
  index _ _ h := .fail h
  op k vs h := .ret [.obj k, .obj (k + 1)] (h ++ [(k, vs)])
  put k us v h := .ret [] (h ++ [(k, us ++ [v])])
  call v vs h := match v with
    | .obj k => .ret vs (h ++ [(k, vs)])
    | _ => .fail h
  range vs i := match vs with
    | [.base (.num a), .base (.num b)] => if a.toInt + i * 65536 ≤ b.toInt then some (some (.base (.num (a + BitVec.ofNat 32 (i * 65536))))) else some none
    | _ => none

theorem mapM_base : ∀ xs : List Val, (xs.map V.base).mapM (fun v => match v with | .base x => some x | _ => none) = some xs
  | [] => rfl
  | x :: xs => by
    have := mapM_base xs
    simp only [List.map_cons, List.mapM_cons, this]
    rfl

theorem console_ok (lang : Lang) (arith : Bool) : (console lang arith).Ok lang arith where
  un o x r h e := by simp [console, e]
  bin o x y r h e := by simp [console, e]
  builtin f xs r h e := by simp only [console, mapM_base, e]

variable {c : Fold} {G : Nat → Option LV}

theorem st_ctx (st : St) {D : List Nat} {Γ : Nat → Option LV} {p : (Nat → Option LV) × List St} (hΓ : CtxOk c G D Γ) (hf : st.Fine c G D Γ)
    (h : c.st Γ st = some p) : CtxOk c G (st.decls ++ D) p.1 :=
  (st_sim (cx := ⟨console c.lang false, c.lang, 0, fun _ _ s => .out s⟩) rfl (console_ok c.lang false) (fun _ _ _ _ hs => .out _ _ hs) st hΓ hf h).1

theorem bl_ctx (b : List St) {D : List Nat} {Γ : Nat → Option LV} {p : (Nat → Option LV) × List St} (hΓ : CtxOk c G D Γ) (hf : FineBl c G D Γ b)
    (h : c.bl Γ b = some p) : CtxOk c G (scope D b) p.1 :=
  (bl_sim (cx := ⟨console c.lang false, c.lang, 0, fun _ _ s => .out s⟩) rfl (console_ok c.lang false) (fun _ _ _ _ hs => .out _ _ hs) b hΓ hf h).1

/-- Of the variables of `D`, those that are no constants are in `D'`. -/
def Keeps (G : Nat → Option LV) (D D' : List Nat) : Prop := ∀ x ∈ D, G x = none → x ∈ D'

theorem Keeps.add {D D' : List Nat} (h : Keeps G D D') (xs : List Nat) : Keeps G (xs ++ D) (xs ++ D') := by
  intro x hx hg
  rcases List.mem_append.mp hx with hx | hx
  · exact List.mem_append_left _ hx
  · exact List.mem_append_right _ (h x hx hg)

theorem scopedEs_unmarked {D : List Nat} : ∀ (ms : List Bool) (es : List Ex), ScopedEs D es → ScopedEs D (unmarked ms es)
  | [], _, h => h
  | true :: _, [], h => h
  | false :: _, [], h => h
  | true :: ms, _ :: es, h => scopedEs_unmarked ms es h.2
  | false :: ms, _ :: es, h => ⟨h.1, scopedEs_unmarked ms es h.2⟩

theorem unmarked_keeps {many : Bool} : ∀ (xs : List Nat) {us ms : List Bool} {ks : List (Option LV)}, Agree G xs ms ks → Sub us ms → Marked many ms ks →
    ms.length = xs.length → ∀ x ∈ xs, G x = none → x ∈ unmarked us xs
  | [], _, _, _, _, _, _, _, x, hx, _ => by simp at hx
  | _ :: _, _, [], _, _, _, _, hl, _, _, _ => by simp at hl
  | _ :: _, [], _ :: _, _, _, hs, _, _, _, _, _ => hs.elim
  | y :: xs, u :: us, m :: ms, ks, ha, hs, hm, hl, x, hx, hg => by
    have hm' : Marked many ms ks.tail := by
      cases ks with
      | nil =>
        cases ms with
        | nil => trivial
        | cons => exact fun h b hb => hm h b (List.mem_cons_of_mem _ hb)
      | cons k ks => exact hm.2
    have ih := unmarked_keeps xs ha.2 hs.2 hm' (by simpa using hl)
    cases u with
    | true =>
      have hmt := hs.1 rfl
      simp only [unmarked]
      rcases List.mem_cons.mp hx with rfl | hx
      · exfalso
        have h1 := ha.1
        rw [hmt, hg] at h1
        cases ks with
        | nil => simp at h1
        | cons k ks =>
          have := hm.1 hmt
          simp only [List.headD_cons, if_true] at h1
          rw [← h1] at this
          exact absurd this (by simp)
      · exact ih x hx hg
    | false =>
      simp only [unmarked]
      rcases List.mem_cons.mp hx with rfl | hx
      · exact List.mem_cons_self
      · exact List.mem_cons_of_mem _ (ih x hx hg)

theorem scope_append : ∀ (a b : List St) (D : List Nat), scope D (a ++ b) = scope (scope D a) b
  | [], _, _ => rfl
  | _ :: a, b, _ => scope_append a b _

theorem scopedBl_append : ∀ (a b : List St) (D : List Nat), ScopedBl D (a ++ b) ↔ ScopedBl D a ∧ ScopedBl (scope D a) b
  | [], _, _ => by simp [ScopedBl, scope]
  | s :: a, b, D => by simp only [List.cons_append, ScopedBl, scopedBl_append a b, scope, and_assoc]

theorem doIfNeeded_scoped {b : List St} {D : List Nat} (h : ScopedBl D b) : ScopedBl D (doIfNeeded b) ∧ ∀ x ∈ D, x ∈ scope D (doIfNeeded b) := by
  unfold doIfNeeded
  split
  · exact ⟨⟨h, trivial⟩, fun x hx => hx⟩
  · exact ⟨h, fun x hx => scope_sub b hx⟩

theorem set_scoped {D : List Nat} {node : Ex} (v : LV) (h : node.Scoped D) : (c.set node v).1.Scoped D := by
  unfold Fold.set
  split
  · exact h
  · trivial

mutual
theorem Ex.fold_scoped : ∀ (e : Ex) {m : Bool} {D D' : List Nat} {Γ : Nat → Option LV} {p : Ex × Option LV}, CtxOk c G D Γ → Keeps G D D' →
    e.Fine c G m D Γ → c.ex Γ e = some p → p.1.Scoped D'
  | .const _, _, _, _, _, p, _, _, _, h => by simp only [Fold.ex, Option.some.injEq] at h; subst h; trivial
  | .var x, _, _, _, Γ, p, hΓ, hk, hf, h => by
    simp only [Fold.ex, Option.some.injEq] at h; subst h
    have hx := (hΓ x hf).1
    split
    · trivial
    · rename_i hn
      exact hk x hf (hx ▸ hn)
  | .dots, _, _, _, _, p, _, _, _, h => by simp only [Fold.ex, Option.some.injEq] at h; subst h; trivial
  | .group e, _, _, _, _, p, hΓ, hk, hf, h => by
    simp only [Fold.ex, Option.map_eq_some_iff] at h
    obtain ⟨q, hq, rfl⟩ := h
    have ih := e.fold_scoped hΓ hk hf hq
    exact ih
  | .un o e, _, _, _, _, p, hΓ, hk, hf, h => by
    simp only [Fold.ex, Option.bind_eq_some_iff] at h
    obtain ⟨q, hq, h⟩ := h
    have ih := e.fold_scoped hΓ hk hf hq
    unfold Fold.stepUn at h
    split at h
    · simp only [Option.some.injEq] at h; subst h; exact ih
    · simp only [Option.map_eq_some_iff] at h
      obtain ⟨r, _, rfl⟩ := h
      cases r with
      | none => exact ih
      | some x => exact set_scoped x ih
  | .bin o l r, _, _, _, _, p, hΓ, hk, hf, h => by
    simp only [Fold.ex, Option.bind_eq_some_iff] at h
    obtain ⟨q, hq, z, hz, h⟩ := h
    have il := l.fold_scoped hΓ hk hf.1 hq
    have ir := r.fold_scoped hΓ hk hf.2.1 hz
    have ib : (Ex.bin o q.1 z.1).Scoped _ := ⟨il, ir⟩
    unfold Fold.stepBin at h
    split at h
    · simp only [Option.some.injEq] at h; subst h; exact ib
    · simp only [Option.map_eq_some_iff] at h
      obtain ⟨r, _, rfl⟩ := h
      cases r with
      | none => exact ib
      | some x => exact set_scoped x ib
    · split at h
      · simp only [Option.some.injEq] at h; subst h
        split
        · exact ir
        · exact set_scoped _ ib
      · split at h
        · simp only [Option.some.injEq] at h; subst h
          split
          · exact set_scoped _ ib
          · exact ir
        · simp only [Option.some.injEq] at h; subst h; exact ib
  | .builtin f es, _, _, _, _, p, hΓ, hk, hf, h => by
    simp only [Fold.ex, Option.bind_eq_some_iff] at h
    obtain ⟨q, hq, h⟩ := h
    have ih : (Ex.builtin f q.1).Scoped _ := foldEs_scoped es hΓ hk hf hq
    unfold Fold.stepBuiltin at h
    split at h
    · simp only [Option.some.injEq] at h; subst h; exact ih
    · simp only [Option.map_eq_some_iff] at h
      obtain ⟨r, _, rfl⟩ := h
      cases r with
      | none => exact ih
      | some x => exact set_scoped x ih
  | .call f es, _, _, _, _, p, hΓ, hk, hf, h => by
    simp only [Fold.ex, Option.bind_eq_some_iff, Option.map_eq_some_iff] at h
    obtain ⟨q, hq, z, hz, rfl⟩ := h
    exact ⟨f.fold_scoped hΓ hk hf.1 hq, foldEs_scoped es hΓ hk hf.2 hz⟩
  | .index e k, _, _, _, _, p, hΓ, hk, hf, h => by
    simp only [Fold.ex, Option.bind_eq_some_iff, Option.map_eq_some_iff] at h
    obtain ⟨q, hq, z, hz, rfl⟩ := h
    exact ⟨e.fold_scoped hΓ hk hf.1 hq, k.fold_scoped hΓ hk hf.2 hz⟩
  | .op k m es, _, _, _, _, p, hΓ, hk, hf, h => by
    simp only [Fold.ex, Option.map_eq_some_iff] at h
    obtain ⟨q, hq, rfl⟩ := h
    exact foldEs_scoped es hΓ hk hf hq
  | .func ps d b, _, _, _, _, p, hΓ, hk, hf, h => by
    simp only [Fold.ex, Option.map_eq_some_iff] at h
    obtain ⟨q, hq, rfl⟩ := h
    exact (foldBl_scoped b (ctx_forget hΓ hf.1) (hk.add ps) hf.2 hq).1
theorem foldEs_scoped : ∀ (es : List Ex) {D D' : List Nat} {Γ : Nat → Option LV} {p : List Ex × List (Option LV)}, CtxOk c G D Γ → Keeps G D D' →
    FineEs c G D Γ es → c.exs Γ es = some p → ScopedEs D' p.1
  | [], _, _, _, p, _, _, _, h => by simp only [Fold.exs, Option.some.injEq] at h; subst h; trivial
  | [e], _, _, _, p, hΓ, hk, hf, h => by
    simp only [Fold.exs, Option.bind_eq_some_iff, Option.map_eq_some_iff] at h
    obtain ⟨q, hq, z, hz, rfl⟩ := h
    simp only [Option.some.injEq] at hz; subst hz
    exact ⟨e.fold_scoped hΓ hk hf hq, trivial⟩
  | e :: e' :: es, _, _, _, p, hΓ, hk, hf, h => by
    rw [Fold.exs] at h
    simp only [Option.bind_eq_some_iff, Option.map_eq_some_iff] at h
    obtain ⟨q, hq, z, hz, rfl⟩ := h
    exact ⟨e.fold_scoped hΓ hk hf.1 hq, foldEs_scoped (e' :: es) hΓ hk hf.2 hz⟩
theorem St.fold_scoped : ∀ (s : St) {D D' : List Nat} {Γ : Nat → Option LV} {p : (Nat → Option LV) × List St}, CtxOk c G D Γ → Keeps G D D' →
    s.Fine c G D Γ → c.st Γ s = some p → ScopedBl D' p.2 ∧ Keeps G (s.decls ++ D) (scope D' p.2)
  | .locals xs es, D, D', Γ, p, hΓ, hk, hf, h => by
    simp only [Fold.st, Option.map_eq_some_iff] at h
    obtain ⟨q, hq, rfl⟩ := h
    have ie := foldEs_scoped es hΓ hk hf.1 hq
    have hu := unmarked_keeps (many := lastMany q.1) xs (hf.2 q hq).2 (sub_used (c.marks xs q.1 q.2) q.1.length) (marks_marked _ _ _ _) (marks_len _ _ _)
    have hkeep : Keeps G (xs ++ D) (unmarked (usedMarks (c.marks xs q.1 q.2) q.1.length) xs ++ D') := by
      intro x hx hg
      rcases List.mem_append.mp hx with hx | hx
      · exact List.mem_append_left _ (hu x hx hg)
      · exact List.mem_append_right _ (hk x hx hg)
    simp only [Fold.stepLocal]
    rw [eraseAssign_eq _ _ _ _ _ (marks_len _ _ _)]
    simp only []
    split
    · rename_i h
      split at h
      · rename_i hc
        simp only [Bool.and_eq_true, List.isEmpty_iff] at hc
        rw [hc.1] at hkeep
        exact ⟨trivial, hkeep⟩
      · simp at h
    · rename_i xs' es' h
      split at h
      · cases h
      · simp only [Bool.not_true, Bool.and_false, Bool.false_eq_true, if_false, Option.some.injEq, Prod.mk.injEq] at h
        rw [← h.1, ← h.2]
        exact ⟨⟨scopedEs_unmarked _ _ ie, trivial⟩, hkeep⟩
  | .localFn x ps d b, _, _, _, p, hΓ, hk, hf, h => by
    simp only [Fold.st, Option.map_eq_some_iff] at h
    obtain ⟨q, hq, rfl⟩ := h
    obtain ⟨f1, f2, f3⟩ := hf
    have hx : ∀ y ∈ [x], G y = none := by simpa using f1
    exact ⟨⟨(foldBl_scoped b (ctx_forget (ctx_forget hΓ hx) f2) ((hk.add [x]).add ps) f3 hq).1, trivial⟩, hk.add [x]⟩
  | .assign ts es, _, _, _, p, hΓ, hk, hf, h => by
    simp only [Fold.st, Option.bind_eq_some_iff, Option.map_eq_some_iff] at h
    obtain ⟨us, hu, q, hq, rfl⟩ := h
    exact ⟨⟨⟨foldTs_scoped ts hΓ hk hf.1 hu, foldEs_scoped es hΓ hk hf.2 hq⟩, trivial⟩, hk⟩
  | .eval e, _, _, _, p, hΓ, hk, hf, h => by
    simp only [Fold.st, Option.map_eq_some_iff] at h
    obtain ⟨q, hq, rfl⟩ := h
    exact ⟨⟨e.fold_scoped hΓ hk hf hq, trivial⟩, hk⟩
  | .ret es, _, _, _, p, hΓ, hk, hf, h => by
    simp only [Fold.st, Option.map_eq_some_iff] at h
    obtain ⟨q, hq, rfl⟩ := h
    exact ⟨⟨foldEs_scoped es hΓ hk hf hq, trivial⟩, hk⟩
  | .brk, _, _, _, p, _, hk, _, h => by
    simp only [Fold.st, Option.some.injEq] at h; subst h
    exact ⟨⟨trivial, trivial⟩, hk⟩
  | .doB b, _, _, _, p, hΓ, hk, hf, h => by
    simp only [Fold.st, Option.map_eq_some_iff] at h
    obtain ⟨q, hq, rfl⟩ := h
    exact ⟨⟨(foldBl_scoped b hΓ hk hf hq).1, trivial⟩, hk⟩
  | .whileS e b, _, _, _, p, hΓ, hk, hf, h => by
    simp only [Fold.st, Option.bind_eq_some_iff, Option.map_eq_some_iff] at h
    obtain ⟨q, hq, r, hr, rfl⟩ := h
    exact ⟨⟨⟨e.fold_scoped hΓ hk hf.1 hq, (foldBl_scoped b hΓ hk hf.2 hr).1⟩, trivial⟩, hk⟩
  | .repeatS b e, _, _, _, p, hΓ, hk, hf, h => by
    simp only [Fold.st, Option.bind_eq_some_iff, Option.map_eq_some_iff] at h
    obtain ⟨q, hq, r, hr, rfl⟩ := h
    obtain ⟨i1, i2⟩ := foldBl_scoped b hΓ hk hf.1 hq
    exact ⟨⟨⟨i1, e.fold_scoped (bl_ctx b hΓ hf.1 hq) i2 (hf.2 q hq) hr⟩, trivial⟩, hk⟩
  | .forNum x es b, _, _, _, p, hΓ, hk, hf, h => by
    simp only [Fold.st, Option.bind_eq_some_iff, Option.map_eq_some_iff] at h
    obtain ⟨q, hq, r, hr, rfl⟩ := h
    obtain ⟨f1, f2, f3⟩ := hf
    have hx : ∀ y ∈ [x], G y = none := by simpa using f1
    exact ⟨⟨⟨foldEs_scoped es hΓ hk f2 hq, (foldBl_scoped b (ctx_forget hΓ hx) (hk.add [x]) f3 hr).1⟩, trivial⟩, hk⟩
  | .forIn xs es b, _, _, _, p, hΓ, hk, hf, h => by
    simp only [Fold.st, Option.bind_eq_some_iff, Option.map_eq_some_iff] at h
    obtain ⟨q, hq, r, hr, rfl⟩ := h
    obtain ⟨f1, f2, f3⟩ := hf
    exact ⟨⟨⟨foldEs_scoped es hΓ hk f2 hq, (foldBl_scoped b (ctx_forget hΓ f1) (hk.add xs) f3 hr).1⟩, trivial⟩, hk⟩
  | .ifS e t f, D, D', _, p, hΓ, hk, hf, h => by
    simp only [Fold.st, Option.bind_eq_some_iff, Option.map_eq_some_iff] at h
    obtain ⟨q, hq, r, hr, g, hg, rfl⟩ := h
    obtain ⟨f1, f2, f3⟩ := hf
    have i1 := e.fold_scoped hΓ hk f1 hq
    have i2 := (foldBl_scoped t hΓ hk f2 hr).1
    have i3 := f.fold_scoped hΓ hk f3 hg
    have key : ∀ b : List St, ScopedBl D' b → ScopedBl D' (doIfNeeded b) ∧ Keeps G D (scope D' (doIfNeeded b)) := fun b hb =>
      ⟨(doIfNeeded_scoped hb).1, fun x hx hg => (doIfNeeded_scoped hb).2 x (hk x hx hg)⟩
    unfold stepIf
    split
    · exact ⟨⟨⟨i1, i2, i3⟩, trivial⟩, hk⟩
    · split
      · exact key _ i2
      · cases g with
        | none => exact ⟨trivial, hk⟩
        | else_ b => exact key b i3
        | elseif e' t' f' => exact ⟨⟨i3, trivial⟩, hk⟩
theorem foldBl_scoped : ∀ (b : List St) {D D' : List Nat} {Γ : Nat → Option LV} {p : (Nat → Option LV) × List St}, CtxOk c G D Γ → Keeps G D D' →
    FineBl c G D Γ b → c.bl Γ b = some p → ScopedBl D' p.2 ∧ Keeps G (scope D b) (scope D' p.2)
  | [], _, _, _, p, _, hk, _, h => by
    simp only [Fold.bl, Option.some.injEq] at h; subst h
    exact ⟨trivial, hk⟩
  | s :: b, _, _, _, p, hΓ, hk, hf, h => by
    simp only [Fold.bl, Option.bind_eq_some_iff, Option.map_eq_some_iff] at h
    obtain ⟨q, hq, r, hr, rfl⟩ := h
    simp only [FineBl] at hf
    obtain ⟨i1, i2⟩ := s.fold_scoped hΓ hk hf.1 hq
    obtain ⟨i3, i4⟩ := foldBl_scoped b (st_ctx s hΓ hf.1 hq) i2 (hf.2 q hq) hr
    simp only [scopedBl_append, scope_append, scope]
    exact ⟨⟨i1, i3⟩, i4⟩
theorem El.fold_scoped : ∀ (e : El) {D D' : List Nat} {Γ : Nat → Option LV} {p : El}, CtxOk c G D Γ → Keeps G D D' →
    e.Fine c G D Γ → c.el Γ e = some p → p.Scoped D'
  | .none, _, _, _, p, _, _, _, h => by simp only [Fold.el, Option.some.injEq] at h; subst h; trivial
  | .else_ b, _, _, _, p, hΓ, hk, hf, h => by
    simp only [Fold.el, Option.map_eq_some_iff] at h
    obtain ⟨q, hq, rfl⟩ := h
    exact (foldBl_scoped b hΓ hk hf hq).1
  | .elseif e t f, _, _, _, p, hΓ, hk, hf, h => by
    simp only [Fold.el, Option.bind_eq_some_iff, Option.map_eq_some_iff] at h
    obtain ⟨q, hq, r, hr, g, hg, rfl⟩ := h
    obtain ⟨f1, f2, f3⟩ := hf
    have i1 := e.fold_scoped hΓ hk f1 hq
    have i2 := (foldBl_scoped t hΓ hk f2 hr).1
    have i3 := f.fold_scoped hΓ hk f3 hg
    unfold stepElseif
    split
    · exact ⟨i1, i2, i3⟩
    · split
      · exact i2
      · exact i3
theorem foldTs_scoped : ∀ (ts : List Tg) {D D' : List Nat} {Γ : Nat → Option LV} {p : List Tg}, CtxOk c G D Γ → Keeps G D D' →
    FineTs c G D Γ ts → c.tgs Γ ts = some p → ScopedTs D' p
  | [], _, _, _, p, _, _, _, h => by simp only [Fold.tgs, Option.some.injEq] at h; subst h; trivial
  | .loc x :: ts, _, _, _, p, hΓ, hk, hf, h => by
    simp only [Fold.tgs, Fold.tg, Option.bind_some, Option.map_eq_some_iff] at h
    obtain ⟨q, hq, rfl⟩ := h
    exact ⟨hk x hf.1.1 hf.1.2, foldTs_scoped ts hΓ hk hf.2 hq⟩
  | .put k es :: ts, _, _, _, p, hΓ, hk, hf, h => by
    simp only [Fold.tgs, Fold.tg, Option.bind_eq_some_iff, Option.map_eq_some_iff] at h
    obtain ⟨t, ⟨z, hz, rfl⟩, q, hq, rfl⟩ := h
    exact ⟨foldEs_scoped es hΓ hk hf.1 hz, foldTs_scoped ts hΓ hk hf.2 hq⟩
end

end Verif.Core
