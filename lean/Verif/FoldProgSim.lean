import Verif.FoldProgLocal
/-
Helpers for C74: statements, calls and whole programs.
-/
namespace Verif.Core
open Spec

variable {H : Type} {α β : Type} {c : Fold} {G : Nat → Option LV}

/-! ### `local` -/

theorem marks_length (chars many : Bool) (ts : List AssignTarget) (ks : List (Option LV)) : (marks chars many ts ks).length = ts.length := by
  induction ts generalizing ks with
  | nil => simp [marks]
  | cons t ts ih => cases ks <;> simp [marks, ih]

theorem marks_marked (chars many : Bool) (ts : List AssignTarget) (ks : List (Option LV)) : Marked many (marks chars many ts ks) ks := by
  induction ts generalizing ks with
  | nil => simp [marks, Marked]
  | cons t ts ih =>
    cases ks with
    | cons k ks =>
      simp only [marks, Marked]
      refine ⟨fun h => ?_, ih ks⟩
      cases k with
      | none => simp [markable] at h
      | some u => exact ⟨u, rfl⟩
    | nil =>
      simp only [marks, Marked]
      intro hm m h
      subst hm
      rcases List.mem_cons.mp h with h | h
      · simp [h]
      · have := ih []
        cases hms : marks chars true ts [] with
        | nil => rw [hms] at h; cases h
        | cons m' ms' =>
          rw [hms] at this h
          exact this rfl m h

/-- Fewer marks. -/
def Sub : List Bool → List Bool → Prop
  | u :: us, m :: ms => (u = true → m = true) ∧ Sub us ms
  | [], [] => True
  | _, _ => False

theorem Sub.refl : ∀ ms : List Bool, Sub ms ms
  | [] => trivial
  | _ :: ms => ⟨fun h => h, Sub.refl ms⟩

theorem sub_used (ms : List Bool) (n : Nat) : Sub (usedMarks ms n) ms := by
  unfold usedMarks
  split
  · rename_i hc
    clear hc
    induction ms with
    | nil => trivial
    | cons m ms ih =>
      cases ms with
      | nil => exact ⟨fun h => (by cases h), trivial⟩
      | cons m' ms =>
        simp only [reduceCtorEq, if_false] at ih ⊢
        rw [List.dropLast_cons_of_ne_nil (by simp), List.cons_append]
        exact ⟨fun h => h, ih⟩
  · exact Sub.refl ms

theorem Marked.sub {many : Bool} : ∀ {us ms : List Bool} {ks : List (Option LV)}, Sub us ms → Marked many ms ks → Marked many us ks
  | [], [], _, _, _ => by simp [Marked]
  | [], _ :: _, _, h, _ => h.elim
  | _ :: _, [], _, h, _ => h.elim
  | u :: us, m :: ms, k :: ks, h, hm => ⟨fun hu => hm.1 (h.1 hu), Marked.sub h.2 hm.2⟩
  | u :: us, m :: ms, [], h, hm => by
    intro ht
    have hall := hm ht
    have key : ∀ (us ms : List Bool), Sub us ms → (∀ m ∈ ms, m = false) → ∀ u ∈ us, u = false := by
      intro us
      induction us with
      | nil => intro _ _ _ u h; cases h
      | cons u us ih =>
        intro ms hs ha v hv
        cases ms with
        | nil => exact hs.elim
        | cons m ms =>
          rcases List.mem_cons.mp hv with rfl | hv
          · cases hv' : v with
            | false => rfl
            | true => exact absurd (hs.1 hv') (by simp [ha m (by simp)])
          · exact ih ms hs.2 (fun m hm => ha m (List.mem_cons_of_mem _ hm)) v hv
    exact key _ _ h hall

theorem lit_nil (lang : Lang) : lit lang .nil = .nil := rfl

theorem given_of {many : Bool} : ∀ (xs : List Nat) {ms us : List Bool} {ks : List (Option LV)} {vs : List V}, Agree G xs ms ks →
    Sub us ms → Marked many ms ks → Known c many ks vs → Given c G xs us vs
  | [], _, _, _, _, _, _, _, _ => by simp [Given]
  | _ :: _, _, [], _, _, _, _, _, _ => by simp [Given]
  | _ :: _, _, _ :: _, _, [], _, _, _, _ => by simp [Given]
  | _ :: _, [], _ :: _, _, _ :: _, _, h, _, _ => h.elim
  | x :: xs, m :: ms, u :: us, [], v :: vs, ha, hs, hm, hk => by
    refine ⟨fun hu => ?_, ?_, given_of (many := many) xs ha.2 hs.2 ?_ ?_⟩
    · rw [ha.1, hs.1 hu]; simp
    · intro w hw
      rw [ha.1] at hw
      cases hmt : m with
      | false => rw [hmt] at hw; cases hw
      | true =>
        rw [hmt] at hw
        simp only [if_true, List.headD_nil, Option.some.injEq] at hw
        have : many = false := by
          cases many with
          | false => rfl
          | true => exact absurd (hm rfl m (by simp)) (by simp [hmt])
        rw [hk this v (by simp), ← hw, lit_nil]
    · cases ms with
      | nil => trivial
      | cons m' ms => exact fun h m hm' => hm h m (List.mem_cons_of_mem _ hm')
    · exact fun h v hv => hk h v (List.mem_cons_of_mem _ hv)
  | x :: xs, m :: ms, u :: us, k :: ks, v :: vs, ha, hs, hm, hk => by
    refine ⟨fun hu => ?_, ?_, given_of xs ha.2 hs.2 hm.2 hk.2⟩
    · obtain ⟨w, hw⟩ := hm.1 (hs.1 hu)
      rw [ha.1, hs.1 hu]; simp [hw]
    · intro w hw
      rw [ha.1] at hw
      cases hmt : m with
      | false => rw [hmt] at hw; cases hw
      | true =>
        rw [hmt] at hw
        exact hk.1 w (by simpa using hw)

theorem nil_good (lang : Lang) : LV.Good lang .nil := ⟨⟨.nil, rfl⟩, fun _ _ h => by cases h⟩

theorem ctx_record : ∀ (xs : List Nat) {ms : List Bool} {ks : List (Option LV)} {D : List Nat} {Γ : Nat → Option LV},
    ms.length = xs.length → Agree G xs ms ks → (∀ v, some v ∈ ks → v.Good c.lang) → CtxOk c G D Γ → CtxOk c G (xs ++ D) (record Γ xs ms ks)
  | [], ms, ks, D, Γ, h, _, _, hΓ => by
    have : ms = [] := List.eq_nil_of_length_eq_zero h
    subst this; exact hΓ
  | x :: xs, [], _, _, _, h, _, _, _ => by simp at h
  | x :: xs, m :: ms, ks, D, Γ, h, ha, hg, hΓ => by
    have h1 : CtxOk c G (x :: D) (upd Γ x (if m then ks.headD (some .nil) else none)) := by
      intro y hy
      by_cases hyx : y = x
      · subst hyx
        rw [upd_self]
        refine ⟨ha.1.symm, ?_⟩
        intro v hv
        cases m with
        | false => cases hv
        | true =>
          cases ks with
          | nil => cases hv; exact nil_good _
          | cons k ks => exact hg v (by rw [← show k = some v from hv]; simp)
      · rw [upd_of_ne _ _ hyx]
        exact hΓ y (by simpa [hyx] using hy)
    have h2 := ctx_record xs (by simpa using h) ha.2 (fun v hv => hg v (List.mem_of_mem_tail hv)) h1
    intro y hy
    apply h2 y
    simp only [List.cons_append, List.mem_cons, List.mem_append] at hy ⊢
    rcases hy with h | h | h
    · exact Or.inr (Or.inl h)
    · exact Or.inl h
    · exact Or.inr (Or.inr h)

theorem run_single (cx : Cx H) (va : List V) (st : St) (ρ : Env) (s : State H) : run cx va [st] ρ s = exec cx va st ρ s := by
  simp only [run]
  cases exec cx va st ρ s with
  | out t => rfl
  | err t => rfl
  | ok p t =>
    obtain ⟨ρ', k⟩ := p
    simp only [R.bind]
    cases k <;> rfl

theorem run_append (cx : Cx H) (va : List V) (x y : List St) (ρ : Env) (s : State H) : run cx va (x ++ y) ρ s =
    (run cx va x ρ s).bind fun p t => match p.2 with
      | .next => run cx va y p.1 t
      | k => .ok (p.1, k) t := by
  induction x generalizing ρ s with
  | nil => rfl
  | cons st x ih =>
    simp only [List.cons_append, run]
    cases exec cx va st ρ s with
    | out t => rfl
    | err t => rfl
    | ok p t =>
      obtain ⟨ρ', k⟩ := p
      simp only [R.bind]
      cases k with
      | next => rw [ih]; rfl
      | brk => rfl
      | ret vs => rfl

theorem run_stepLocal (cx : Cx H) (va : List V) (xs : List Nat) (es : List Ex) (ks : List (Option LV)) (ρ : Env) (s : State H) :
    run cx va (c.stepLocal xs es ks) ρ s =
      (args cx ρ va (unmarked (usedMarks (c.marks xs es ks) es.length) es) s).bind fun vs t =>
        .ok ((alloc (unmarked (usedMarks (c.marks xs es ks) es.length) xs) vs ρ t).1, .next)
          (alloc (unmarked (usedMarks (c.marks xs es ks) es.length) xs) vs ρ t).2 := by
  have hlen : (c.marks xs es ks).length = xs.length := by simp [Fold.marks, marks_length]
  unfold Fold.stepLocal
  rw [eraseAssign_eq _ _ _ _ _ hlen]
  simp only []
  split
  · rename_i h
    split at h
    · rename_i hc
      simp only [Bool.and_eq_true, List.isEmpty_iff] at hc
      rw [hc.1, hc.2]
      rfl
    · simp at h
  · rename_i xs' es' h
    split at h
    · cases h
    · simp only [Bool.not_true, Bool.and_false, Bool.false_eq_true, if_false, Option.some.injEq, Prod.mk.injEq] at h
      rw [h.1, h.2, run_single]
      simp only [exec]

/-! ### Statements -/

/-- Control leaves in the same way, and if it goes on, the visible variables are related. -/
def QE (G : Nat → Option LV) (D : List Nat) (a a' : Env × Ctl) (t : State H) : Prop := a'.2 = a.2 ∧ (a.2 = .next → EnvOk G D t a.1 a'.1)

section
variable {cx : Cx H} {D : List Nat} {Γ : Nat → Option LV} {arith : Bool}

theorem run_env : ∀ (b : List St), needsDo b = false → ∀ {va ρ s p t}, run cx va b ρ s = .ok p t → p.1 = ρ
  | [], _, va, ρ, s, p, t, h => by simp only [run, R.ok.injEq] at h; rw [← h.1]
  | st :: b, hn, va, ρ, s, p, t, h => by
    simp only [run] at h
    obtain ⟨q, u, h1, h2⟩ := bind_ok h
    have hq : q.1 = ρ ∧ needsDo b = false := by
      cases st <;> simp only [needsDo, Bool.true_eq_false] at hn <;> refine ⟨?_, hn⟩ <;> simp only [exec] at h1
      case assign ts es =>
        obtain ⟨_, _, _, h1⟩ := bind_ok h1
        obtain ⟨_, _, _, h1⟩ := bind_ok h1
        obtain ⟨_, _, _, h1⟩ := bind_ok h1
        cases h1; rfl
      case eval e => obtain ⟨_, _, _, h1⟩ := bind_ok h1; cases h1; rfl
      case doB b => obtain ⟨_, _, _, h1⟩ := bind_ok h1; cases h1; rfl
      case whileS e b => obtain ⟨_, _, _, h1⟩ := bind_ok h1; cases h1; rfl
      case repeatS b e => obtain ⟨_, _, _, h1⟩ := bind_ok h1; cases h1; rfl
      case forNum x es b =>
        obtain ⟨_, _, _, h1⟩ := bind_ok h1
        obtain ⟨_, _, _, h1⟩ := bind_ok h1
        cases h1; rfl
      case forIn xs es b =>
        obtain ⟨_, _, _, h1⟩ := bind_ok h1
        obtain ⟨_, _, _, h1⟩ := bind_ok h1
        cases h1; rfl
      case ifS e t f =>
        obtain ⟨_, _, _, h1⟩ := bind_ok h1
        split at h1
        · obtain ⟨_, _, _, h1⟩ := bind_ok h1; cases h1; rfl
        · obtain ⟨_, _, _, h1⟩ := bind_ok h1; cases h1; rfl
    split at h2
    · rw [run_env b hq.2 h2, hq.1]
    · cases h2; exact hq.1

theorem run_doIfNeeded (b : List St) (va : List V) (ρ : Env) (s : State H) :
    run cx va (doIfNeeded b) ρ s = (run cx va b ρ s).bind fun p t => .ok (ρ, p.2) t := by
  unfold doIfNeeded
  split
  · rw [run_single]; simp only [exec]
  · rename_i hn
    have := @run_env H cx b (by simpa using hn) va ρ s
    revert this
    cases run cx va b ρ s with
    | out t => intro _; rfl
    | err t => intro _; rfl
    | ok p t => intro h; rw [← h rfl]; rfl

theorem loop_sim {α : Type} {step step' : α → State H → R H (α ⊕ Ctl)} {s0 : State H}
    (h : ∀ a t t', Sim c G t t' → Le s0 t → RelV c G t (step a t) (step' a t')) :
    ∀ n a t t', Sim c G t t' → Le s0 t → RelV c G t (loop step n a t) (loop step' n a t')
  | 0, a, t, t', ht, _ => .out _ _ ht
  | n + 1, a, t, t', ht, hl => by
    simp only [loop]
    refine (h a t t' ht hl).bind fun r r' u u' hu hle hr => ?_
    subst hr
    cases r with
    | inl b => exact loop_sim h n b u u' hu (hl.trans hle)
    | inr k => exact .ok _ _ _ _ hu (Le.refl u) rfl

theorem places_loc {ρ : Env} {va : List V} : ∀ (ts : List Tg) {s t : State H} {ps : List Place}, places cx ρ va ts s = .ok ps t →
    ∀ x, .loc x ∈ ps → .loc x ∈ ts
  | [], s, t, ps, h, x, hx => by simp only [places, R.ok.injEq] at h; rw [← h.1] at hx; cases hx
  | .loc y :: ts, s, t, ps, h, x, hx => by
    simp only [places] at h
    obtain ⟨qs, u, h1, h2⟩ := bind_ok h
    cases h2
    rcases List.mem_cons.mp hx with h | h
    · cases h; simp
    · exact List.mem_cons_of_mem _ (places_loc ts h1 x h)
  | .put k es :: ts, s, t, ps, h, x, hx => by
    simp only [places] at h
    obtain ⟨vs, u, _, h⟩ := bind_ok h
    obtain ⟨qs, u, h1, h2⟩ := bind_ok h
    cases h2
    rcases List.mem_cons.mp hx with h | h
    · cases h
    · exact List.mem_cons_of_mem _ (places_loc ts h1 x h)

theorem fineTs_loc : ∀ (ts : List Tg), FineTs c G D Γ ts → ∀ x, .loc x ∈ ts → x ∈ D ∧ G x = none
  | [], _, x, h => by cases h
  | t :: ts, hf, x, h => by
    simp only [FineTs] at hf
    rcases List.mem_cons.mp h with h | h
    · subst h; exact hf.1
    · exact fineTs_loc ts hf.2 x h

theorem tgs_sim (hl : cx.lang = c.lang) (hw : cx.w.Ok c.lang arith) (hap : ApOk c G cx.ap) (hΓ : CtxOk c G D Γ) :
    ∀ (ts : List Tg) {ts' : List Tg}, FineTs c G D Γ ts → c.tgs Γ ts = some ts' →
    ∀ va s s' ρ ρ', Sim c G s s' → EnvOk G D s ρ ρ' → RelV c G s (places cx ρ va ts s) (places cx ρ' va ts' s')
  | [], ts', _, h, va, s, s', ρ, ρ', h1, h2 => by
    simp only [Fold.tgs, Option.some.injEq] at h; subst h
    simp only [places]
    exact .ok _ _ _ _ h1 (Le.refl s) rfl
  | .loc x :: ts, ts', hf, h, va, s, s', ρ, ρ', h1, h2 => by
    simp only [Fold.tgs, Fold.tg, Option.bind_some, Option.map_eq_some_iff] at h
    obtain ⟨us, hu, rfl⟩ := h
    simp only [FineTs] at hf
    simp only [places]
    exact (tgs_sim hl hw hap hΓ ts hf.2 hu va s s' ρ ρ' h1 h2).bind fun a a' t t' ht _ ha => .ok _ _ _ _ ht (Le.refl t) (by rw [ha])
  | .put k es :: ts, ts', hf, h, va, s, s', ρ, ρ', h1, h2 => by
    simp only [Fold.tgs, Fold.tg, Option.bind_eq_some_iff, Option.map_eq_some_iff] at h
    obtain ⟨t, ⟨p, hp, rfl⟩, us, hu, rfl⟩ := h
    simp only [FineTs, Tg.Fine] at hf
    simp only [places]
    refine (args_sim (exs_sim hl hw hap hΓ es hf.1 hp) hf.1 va s s' ρ ρ' h1 h2).bind fun a a' t t' ht hle ha => ?_
    exact (tgs_sim hl hw hap hΓ ts hf.2 hu va t t' ρ ρ' ht (h2.mono hle fun _ h => h)).bind fun b b' u u' hu _ hb =>
      .ok _ _ _ _ hu (Le.refl u) (by rw [ha, hb])

theorem set_sim {s s' : State H} {x n : Nat} {v : V} (hs : Sim c G s s') (hx : G x = none) :
    Sim c G { s with cells := upd s.cells x ((s.cells x).set n v) } { s' with cells := upd s'.cells x ((s'.cells x).set n v) } ∧
      Le s { s with cells := upd s.cells x ((s.cells x).set n v) } := by
  have hle : Le s { s with cells := upd s.cells x ((s.cells x).set n v) } := by
    intro y
    by_cases h : y = x
    · subst h; simp [upd_self]
    · simp [upd_of_ne _ _ h]
  refine ⟨⟨hs.heap, ?_, ?_, hs.length, ?_⟩, hle⟩
  · intro y hy
    by_cases h : y = x
    · subst h; simp only [upd_self, hs.cells y hy]
    · simp only [upd_of_ne _ _ h]; exact hs.cells y hy
  · intro y u hu w hw
    have h : y ≠ x := fun h => by rw [h, hx] at hu; cases hu
    simp only [upd_of_ne _ _ h] at hw
    exact hs.consts y u hu w hw
  · intro i f hf
    obtain ⟨f', h1, h2⟩ := hs.clos i f hf
    exact ⟨f', h1, h2.mono hle⟩

theorem store_sim (hap : ApOk c G cx.ap) {ρ ρ' : Env} : ∀ (ps : List Place) (vs : List V) {s s' : State H},
    (∀ x, .loc x ∈ ps → x ∈ D ∧ G x = none) → Sim c G s s' → EnvOk G D s ρ ρ' → RelV c G s (store cx ρ ps vs s) (store cx ρ' ps vs s')
  | [], vs, s, s', _, hs, _ => by simp only [store]; exact .ok _ _ _ _ hs (Le.refl s) rfl
  | .loc x :: ps, vs, s, s', hp, hs, he => by
    obtain ⟨hd, hG⟩ := hp x (by simp)
    obtain ⟨h1, n, h2, _⟩ := he x hd
    simp only [store, h1 hG, h2]
    obtain ⟨g1, g2⟩ := set_sim (n := n) (v := first vs) hs hG
    exact (store_sim hap ps vs.tail (fun y hy => hp y (List.mem_cons_of_mem _ hy)) g1 (he.mono g2 fun _ h => h)).from g2
  | .put k us :: ps, vs, s, s', hp, hs, he => by
    simp only [store, hs.heap]
    refine (perform_sim hap _ hs).bind fun a a' t t' ht hle _ => ?_
    exact store_sim hap ps vs.tail (fun y hy => hp y (List.mem_cons_of_mem _ hy)) ht (he.mono hle fun _ h => h)

theorem scope_sub : ∀ (b : List St) {D : List Nat} {x : Nat}, x ∈ D → x ∈ scope D b
  | [], _, _, h => h
  | _ :: b, _, _, h => scope_sub b (List.mem_append_right _ h)

theorem QE.drop {D' : List Nat} {s t : State H} {ρ ρ' : Env} {k : Ctl} (he : EnvOk G D s ρ ρ') (hle : Le s t) (hd : ∀ x ∈ D', x ∈ D) :
    QE G D' (ρ, k) (ρ', k) t := ⟨rfl, fun _ => he.mono hle hd⟩

mutual
theorem st_sim (hl : cx.lang = c.lang) (hw : cx.w.Ok c.lang arith) (hap : ApOk c G cx.ap) :
    ∀ (st : St) {D : List Nat} {Γ : Nat → Option LV} {p : (Nat → Option LV) × List St}, CtxOk c G D Γ → st.Fine c G D Γ → c.st Γ st = some p →
      CtxOk c G (st.decls ++ D) p.1 ∧ ∀ va s s' ρ ρ', Sim c G s s' → EnvOk G D s ρ ρ' →
        RelR c G s (QE G (st.decls ++ D)) (exec cx va st ρ s) (run cx va p.2 ρ' s')
  | .locals xs es, D, Γ, p, hΓ, hf, h => by
    simp only [Fold.st, Option.map_eq_some_iff] at h
    obtain ⟨q, hq, rfl⟩ := h
    obtain ⟨hf, hn⟩ := hf
    obtain ⟨hn, ha⟩ := hn q hq
    have hsrc := exs_sim hl hw hap hΓ es hf hq
    have hlen : (c.marks xs q.1 q.2).length = xs.length := by simp [Fold.marks, marks_length]
    have hmk : Marked (lastMany q.1) (c.marks xs q.1 q.2) q.2 := marks_marked _ _ _ _
    have hsub := sub_used (c.marks xs q.1 q.2) q.1.length
    refine ⟨ctx_record xs hlen ha hsrc.good hΓ, ?_⟩
    intro va s s' ρ ρ' h1 h2
    rw [run_stepLocal]
    simp only [exec]
    refine (erase_sim hl _ xs (by rw [usedMarks_length, hlen]) hsrc hf (hmk.sub hsub) hn h1 h2).bind fun a a' t t' ht hle hab => ?_
    obtain ⟨k1, k2, k3⟩ := alloc_sim xs (by rw [usedMarks_length, hlen]) (adjust_length _ _) (given_of xs ha hsub hmk hab.2) ht
      (h2.mono hle fun _ h => h)
    rw [← alloc_adjust, ← hab.1, ← alloc_adjust] at k1
    rw [← alloc_adjust] at k2
    rw [← alloc_adjust, ← hab.1, ← alloc_adjust] at k3
    exact .ok _ _ _ _ k1 k2 ⟨rfl, fun _ => k3⟩
  | .localFn x ps d b, D, Γ, p, hΓ, hf, h => by
    simp only [Fold.st, Option.map_eq_some_iff] at h
    obtain ⟨q, hq, rfl⟩ := h
    obtain ⟨f1, f2, f3⟩ := hf
    have hx : ∀ y ∈ [x], G y = none := by simpa using f1
    refine ⟨ctx_forget hΓ hx, ?_⟩
    intro va s s' ρ ρ' h1 h2
    rw [run_single]
    simp only [exec, h1.length]
    obtain ⟨k1, k2, k3⟩ := alloc_plain (vs := [.clo s.clos.length]) hx h1 h2
    have hc : CloOk c G (alloc [x] [.clo s.clos.length] ρ s).2 ⟨ps, d, b, (alloc [x] [.clo s.clos.length] ρ s).1⟩
        ⟨ps, d, q.2, (alloc [x] [.clo s.clos.length] ρ' s').1⟩ :=
      ⟨rfl, rfl, [x] ++ D, forget (forget Γ [x]) ps, q.1, f2, k3, ctx_forget (ctx_forget hΓ hx) f2, f3, hq⟩
    exact .ok _ _ _ _ (addClo k1 hc) (fun y => k2 y) ⟨rfl, fun _ => k3.mono (fun _ => Nat.le_refl _) fun _ h => h⟩
  | .assign ts es, D, Γ, p, hΓ, hf, h => by
    simp only [Fold.st, Option.bind_eq_some_iff, Option.map_eq_some_iff] at h
    obtain ⟨us, hu, q, hq, rfl⟩ := h
    refine ⟨hΓ, ?_⟩
    intro va s s' ρ ρ' h1 h2
    rw [run_single]
    simp only [exec]
    refine ((tgs_sim hl hw hap hΓ ts hf.1 hu va s s' ρ ρ' h1 h2).left fun a t h => places_loc ts h).bind fun a a' t t' ht hle ha => ?_
    obtain ⟨rfl, ha⟩ := ha
    refine (args_sim (exs_sim hl hw hap hΓ es hf.2 hq) hf.2 va t t' ρ ρ' ht (h2.mono hle fun _ h => h)).bind fun b b' u u' hu hle2 hb => ?_
    subst hb
    refine (store_sim hap a b (fun x hx => fineTs_loc ts hf.1 x (ha x hx)) hu (h2.mono (hle.trans hle2) fun _ h => h)).bind
      fun _ _ z z' hz hle3 _ => ?_
    exact .ok _ _ _ _ hz (Le.refl z) (QE.drop h2 ((hle.trans hle2).trans hle3) fun _ h => h)
  | .eval e, D, Γ, p, hΓ, hf, h => by
    simp only [Fold.st, Option.map_eq_some_iff] at h
    obtain ⟨q, hq, rfl⟩ := h
    refine ⟨hΓ, ?_⟩
    intro va s s' ρ ρ' h1 h2
    rw [run_single]
    simp only [exec]
    exact ((ex_sim hl hw hap hΓ e hf hq).one va s s' ρ ρ' h1 h2).bind fun a a' t t' ht hle _ =>
      .ok _ _ _ _ ht (Le.refl t) (QE.drop h2 hle fun _ h => h)
  | .ret es, D, Γ, p, hΓ, hf, h => by
    simp only [Fold.st, Option.map_eq_some_iff] at h
    obtain ⟨q, hq, rfl⟩ := h
    refine ⟨hΓ, ?_⟩
    intro va s s' ρ ρ' h1 h2
    rw [run_single]
    simp only [exec]
    exact (args_sim (exs_sim hl hw hap hΓ es hf hq) hf va s s' ρ ρ' h1 h2).bind fun a a' t t' ht hle ha =>
      .ok _ _ _ _ ht (Le.refl t) (ha ▸ QE.drop h2 hle fun _ h => h)
  | .brk, D, Γ, p, hΓ, _, h => by
    simp only [Fold.st, Option.some.injEq] at h
    subst h
    refine ⟨hΓ, ?_⟩
    intro va s s' ρ ρ' h1 h2
    rw [run_single]
    simp only [exec]
    exact .ok _ _ _ _ h1 (Le.refl s) (QE.drop h2 (Le.refl s) fun _ h => h)
  | .doB b, D, Γ, p, hΓ, hf, h => by
    simp only [Fold.st, Option.map_eq_some_iff] at h
    obtain ⟨q, hq, rfl⟩ := h
    refine ⟨hΓ, ?_⟩
    intro va s s' ρ ρ' h1 h2
    rw [run_single]
    simp only [exec]
    exact ((bl_sim hl hw hap b hΓ hf hq).2 va s s' ρ ρ' h1 h2).bind fun a a' t t' ht hle ha =>
      .ok _ _ _ _ ht (Le.refl t) (ha.1 ▸ QE.drop h2 hle fun _ h => h)
  | .whileS e b, D, Γ, p, hΓ, hf, h => by
    simp only [Fold.st, Option.bind_eq_some_iff, Option.map_eq_some_iff] at h
    obtain ⟨q, hq, r, hr, rfl⟩ := h
    refine ⟨hΓ, ?_⟩
    intro va s s' ρ ρ' h1 h2
    rw [run_single]
    simp only [exec]
    refine (loop_sim (s0 := s) ?_ cx.steps () s s' h1 (Le.refl s)).bind fun a a' t t' ht hle ha =>
      .ok _ _ _ _ ht (Le.refl t) (ha ▸ QE.drop h2 hle fun _ h => h)
    intro _ t t' ht hle
    refine ((ex_sim hl hw hap hΓ e hf.1 hq).one va t t' ρ ρ' ht (h2.mono hle fun _ h => h)).bind fun a a' u u' hu hle2 ha => ?_
    rw [ha]
    split
    · exact ((bl_sim hl hw hap b hΓ hf.2 hr).2 va u u' ρ ρ' hu (h2.mono (hle.trans hle2) fun _ h => h)).bind fun b b' z z' hz _ hb =>
        .ok _ _ _ _ hz (Le.refl z) (by rw [hb.1])
    · exact .ok _ _ _ _ hu (Le.refl u) rfl
  | .repeatS b e, D, Γ, p, hΓ, hf, h => by
    simp only [Fold.st, Option.bind_eq_some_iff, Option.map_eq_some_iff] at h
    obtain ⟨q, hq, r, hr, rfl⟩ := h
    refine ⟨hΓ, ?_⟩
    intro va s s' ρ ρ' h1 h2
    rw [run_single]
    simp only [exec]
    refine (loop_sim (s0 := s) ?_ cx.steps () s s' h1 (Le.refl s)).bind fun a a' t t' ht hle ha =>
      .ok _ _ _ _ ht (Le.refl t) (ha ▸ QE.drop h2 hle fun _ h => h)
    intro _ t t' ht hle
    obtain ⟨i1, i2⟩ := bl_sim hl hw hap b hΓ hf.1 hq
    refine (i2 va t t' ρ ρ' ht (h2.mono hle fun _ h => h)).bind fun a a' u u' hu hle2 ha => ?_
    obtain ⟨a1, a2⟩ := a
    obtain ⟨a1', a2'⟩ := a'
    obtain ⟨ha1, ha2⟩ := ha
    simp only at ha1
    subst ha1
    cases a2' with
    | next =>
      exact ((ex_sim hl hw hap i1 e (hf.2 q hq) hr).one va u u' a1 a1' hu (ha2 rfl)).bind fun d d' z z' hz _ hd =>
        .ok _ _ _ _ hz (Le.refl z) (by rw [hd])
    | brk => exact .ok _ _ _ _ hu (Le.refl u) rfl
    | ret vs => exact .ok _ _ _ _ hu (Le.refl u) rfl
  | .forNum x es b, D, Γ, p, hΓ, hf, h => by
    simp only [Fold.st, Option.bind_eq_some_iff, Option.map_eq_some_iff] at h
    obtain ⟨q, hq, r, hr, rfl⟩ := h
    obtain ⟨f1, f2, f3⟩ := hf
    have hx : ∀ y ∈ [x], G y = none := by simpa using f1
    refine ⟨hΓ, ?_⟩
    intro va s s' ρ ρ' h1 h2
    rw [run_single]
    simp only [exec]
    refine (args_sim (exs_sim hl hw hap hΓ es f2 hq) f2 va s s' ρ ρ' h1 h2).bind fun a a' s1 s1' hs1 hle0 ha => ?_
    subst ha
    refine (loop_sim (s0 := s1) ?_ cx.steps 0 s1 s1' hs1 (Le.refl s1)).bind fun a a' t t' ht hle ha =>
      .ok _ _ _ _ ht (Le.refl t) (ha ▸ QE.drop h2 (hle0.trans hle) fun _ h => h)
    intro i t t' ht hle
    cases cx.w.range a i with
    | none => exact .err _ _ ht (Le.refl t)
    | some v =>
      cases v with
      | none => exact .ok _ _ _ _ ht (Le.refl t) rfl
      | some v =>
        obtain ⟨k1, k2, k3⟩ := alloc_plain (vs := [v]) hx ht (h2.mono (hle0.trans hle) fun _ h => h)
        refine RelR.from ?_ k2
        exact ((bl_sim hl hw hap b (ctx_forget hΓ hx) f3 hr).2 va _ _ _ _ k1 k3).bind fun b b' z z' hz _ hb =>
          .ok _ _ _ _ hz (Le.refl z) (by rw [hb.1])
  | .forIn xs es b, D, Γ, p, hΓ, hf, h => by
    simp only [Fold.st, Option.bind_eq_some_iff, Option.map_eq_some_iff] at h
    obtain ⟨q, hq, r, hr, rfl⟩ := h
    obtain ⟨f1, f2, f3⟩ := hf
    refine ⟨hΓ, ?_⟩
    intro va s s' ρ ρ' h1 h2
    rw [run_single]
    simp only [exec]
    refine (args_sim (exs_sim hl hw hap hΓ es f2 hq) f2 va s s' ρ ρ' h1 h2).bind fun a a' s1 s1' hs1 hle0 ha => ?_
    subst ha
    refine (loop_sim (s0 := s1) ?_ cx.steps _ s1 s1' hs1 (Le.refl s1)).bind fun a a' t t' ht hle ha =>
      .ok _ _ _ _ ht (Le.refl t) (ha ▸ QE.drop h2 (hle0.trans hle) fun _ h => h)
    intro v t t' ht hle
    refine (hap _ _ _ _ ht).bind fun us us' u u' hu hle2 he => ?_
    subst he
    split
    · exact .ok _ _ _ _ hu (Le.refl u) rfl
    · obtain ⟨k1, k2, k3⟩ := alloc_plain (vs := us) f1 hu (h2.mono ((hle0.trans hle).trans hle2) fun _ h => h)
      refine RelR.from ?_ k2
      exact ((bl_sim hl hw hap b (ctx_forget hΓ f1) f3 hr).2 va _ _ _ _ k1 k3).bind fun b b' z z' hz _ hb =>
        .ok _ _ _ _ hz (Le.refl z) (by rw [hb.1])
  | .ifS e t f, D, Γ, p, hΓ, hf, h => by
    simp only [Fold.st, Option.bind_eq_some_iff, Option.map_eq_some_iff] at h
    obtain ⟨q, hq, r, hr, g, hg, rfl⟩ := h
    obtain ⟨f1, f2, f3⟩ := hf
    refine ⟨hΓ, ?_⟩
    intro va s s' ρ ρ' h1 h2
    have ie := ex_sim hl hw hap hΓ e f1 hq
    have it := (bl_sim hl hw hap t hΓ f2 hr).2
    have if' := el_sim hl hw hap f hΓ f3 hg
    have full : RelR c G s (QE G (St.decls (.ifS e t f) ++ D)) (exec cx va (.ifS e t f) ρ s) (exec cx va (.ifS q.1 r.2 g) ρ' s') := by
      simp only [exec]
      refine (ie.one va s s' ρ ρ' h1 h2).bind fun a a' u u' hu hle ha => ?_
      rw [ha]
      split
      · exact (it va u u' ρ ρ' hu (h2.mono hle fun _ h => h)).bind fun b b' z z' hz hle2 hb =>
          .ok _ _ _ _ hz (Le.refl z) (hb.1 ▸ QE.drop h2 (hle.trans hle2) fun _ h => h)
      · exact (if' va u u' ρ ρ' hu (h2.mono hle fun _ h => h)).bind fun b b' z z' hz hle2 hb =>
          .ok _ _ _ _ hz (Le.refl z) (hb ▸ QE.drop h2 (hle.trans hle2) fun _ h => h)
    unfold stepIf
    split
    · rw [run_single]; exact full
    · rename_i v hv
      have hk := ie.known v hv va s s' ρ ρ' h1 h2
      obtain ⟨x, hx⟩ := (ie.good v hv).1
      split
      · rename_i htr
        rw [run_doIfNeeded]
        simp only [exec, hk, R.bind, lit_repr hx, first, List.headD, V.truthy, ← repr_truthy hx, htr, if_true]
        exact (it va s s' ρ ρ' h1 h2).bind fun b b' z z' hz hle2 hb => .ok _ _ _ _ hz (Le.refl z) (hb.1 ▸ QE.drop h2 hle2 fun _ h => h)
      · rename_i htr
        have e1 : exec cx va (.ifS e t f) ρ s = (otherwise cx va f ρ s).bind fun k s => .ok (ρ, k) s := by
          simp only [exec, hk, R.bind, lit_repr hx, first, List.headD, V.truthy, ← repr_truthy hx, htr]; rfl
        rw [e1]
        have key : ∀ sts : List St, run cx va sts ρ' s' = ((otherwise cx va g ρ' s').bind fun k s => .ok (ρ', k) s) →
            RelR c G s (QE G (St.decls (.ifS e t f) ++ D)) ((otherwise cx va f ρ s).bind fun k s => .ok (ρ, k) s) (run cx va sts ρ' s') := by
          intro sts hsts
          rw [hsts]
          exact (if' va s s' ρ ρ' h1 h2).bind fun b b' z z' hz hle2 hb => .ok _ _ _ _ hz (Le.refl z) (hb ▸ QE.drop h2 hle2 fun _ h => h)
        apply key
        cases g with
        | none => simp only [otherwise, run, R.bind]
        | else_ b =>
          simp only [run_doIfNeeded, otherwise]
          cases run cx va b ρ' s' <;> rfl
        | elseif e' t' f' =>
          simp only [run_single, exec, otherwise]
          cases vals cx ρ' va e' s' with
          | out _ => rfl
          | err _ => rfl
          | ok vs u =>
            simp only [R.bind]
            split
            · cases run cx va t' ρ' u <;> rfl
            · rfl
theorem bl_sim (hl : cx.lang = c.lang) (hw : cx.w.Ok c.lang arith) (hap : ApOk c G cx.ap) :
    ∀ (b : List St) {D : List Nat} {Γ : Nat → Option LV} {p : (Nat → Option LV) × List St}, CtxOk c G D Γ → FineBl c G D Γ b →
      c.bl Γ b = some p → CtxOk c G (scope D b) p.1 ∧ ∀ va s s' ρ ρ', Sim c G s s' → EnvOk G D s ρ ρ' →
        RelR c G s (QE G (scope D b)) (run cx va b ρ s) (run cx va p.2 ρ' s')
  | [], D, Γ, p, hΓ, _, h => by
    simp only [Fold.bl, Option.some.injEq] at h; subst h
    refine ⟨hΓ, fun va s s' ρ ρ' h1 h2 => ?_⟩
    simp only [run]
    exact .ok _ _ _ _ h1 (Le.refl s) ⟨rfl, fun _ => h2⟩
  | st :: b, D, Γ, p, hΓ, hf, h => by
    simp only [Fold.bl, Option.bind_eq_some_iff, Option.map_eq_some_iff] at h
    obtain ⟨q, hq, r, hr, rfl⟩ := h
    simp only [FineBl] at hf
    obtain ⟨i1, i2⟩ := st_sim hl hw hap st hΓ hf.1 hq
    obtain ⟨i3, i4⟩ := bl_sim hl hw hap b i1 (hf.2 q hq) hr
    refine ⟨i3, fun va s s' ρ ρ' h1 h2 => ?_⟩
    rw [run_append]
    simp only [run]
    refine (i2 va s s' ρ ρ' h1 h2).bind fun a a' t t' ht _ ha => ?_
    obtain ⟨a1, a2⟩ := a
    obtain ⟨a1', a2'⟩ := a'
    obtain ⟨ha1, ha2⟩ := ha
    simp only at ha1
    subst ha1
    cases a2' with
    | next => exact i4 va t t' a1 a1' ht (ha2 rfl)
    | brk => exact .ok _ _ _ _ ht (Le.refl t) ⟨rfl, fun h => by cases h⟩
    | ret vs => exact .ok _ _ _ _ ht (Le.refl t) ⟨rfl, fun h => by cases h⟩
theorem el_sim (hl : cx.lang = c.lang) (hw : cx.w.Ok c.lang arith) (hap : ApOk c G cx.ap) :
    ∀ (e : El) {D : List Nat} {Γ : Nat → Option LV} {e' : El}, CtxOk c G D Γ → e.Fine c G D Γ → c.el Γ e = some e' →
      ∀ va s s' ρ ρ', Sim c G s s' → EnvOk G D s ρ ρ' → RelV c G s (otherwise cx va e ρ s) (otherwise cx va e' ρ' s')
  | .none, D, Γ, e', _, _, h, va, s, s', ρ, ρ', h1, _ => by
    simp only [Fold.el, Option.some.injEq] at h; subst h
    simp only [otherwise]
    exact .ok _ _ _ _ h1 (Le.refl s) rfl
  | .else_ b, D, Γ, e', hΓ, hf, h, va, s, s', ρ, ρ', h1, h2 => by
    simp only [Fold.el, Option.map_eq_some_iff] at h
    obtain ⟨q, hq, rfl⟩ := h
    simp only [otherwise]
    exact ((bl_sim hl hw hap b hΓ hf hq).2 va s s' ρ ρ' h1 h2).bind fun a a' t t' ht _ ha => .ok _ _ _ _ ht (Le.refl t) ha.1.symm
  | .elseif e t f, D, Γ, e', hΓ, hf, h, va, s, s', ρ, ρ', h1, h2 => by
    simp only [Fold.el, Option.bind_eq_some_iff, Option.map_eq_some_iff] at h
    obtain ⟨q, hq, r, hr, g, hg, rfl⟩ := h
    obtain ⟨f1, f2, f3⟩ := hf
    have ie := ex_sim hl hw hap hΓ e f1 hq
    have it := (bl_sim hl hw hap t hΓ f2 hr).2
    have if' := el_sim hl hw hap f hΓ f3 hg
    unfold stepElseif
    split
    · simp only [otherwise]
      refine (ie.one va s s' ρ ρ' h1 h2).bind fun a a' u u' hu hle ha => ?_
      rw [ha]
      split
      · exact (it va u u' ρ ρ' hu (h2.mono hle fun _ h => h)).bind fun b b' z z' hz hle2 hb => .ok _ _ _ _ hz (Le.refl z) hb.1.symm
      · exact if' va u u' ρ ρ' hu (h2.mono hle fun _ h => h)
    · rename_i v hv
      have hk := ie.known v hv va s s' ρ ρ' h1 h2
      obtain ⟨x, hx⟩ := (ie.good v hv).1
      split
      · rename_i htr
        simp only [otherwise, hk, R.bind, lit_repr hx, first, List.headD, V.truthy, ← repr_truthy hx, htr, if_true]
        exact (it va s s' ρ ρ' h1 h2).bind fun b b' z z' hz hle2 hb => .ok _ _ _ _ hz (Le.refl z) hb.1.symm
      · rename_i htr
        simp only [otherwise, hk, R.bind, lit_repr hx, first, List.headD, V.truthy, ← repr_truthy hx, htr]
        exact if' va s s' ρ ρ' h1 h2
end

end

/-! ### Calls and programs -/

theorem apply_sim {w : World H} {arith : Bool} (hw : w.Ok c.lang arith) : ∀ n, ApOk c G (apply w c.lang n)
  | 0 => fun f vs s s' hs => .out _ _ hs
  | n + 1 => by
    have ih := apply_sim hw n
    intro f vs s s' hs
    cases f with
    | base x => simp only [apply, hs.heap]; exact perform_sim ih _ hs
    | obj k => simp only [apply, hs.heap]; exact perform_sim ih _ hs
    | clo i =>
      simp only [apply]
      cases hf : s.clos[i]? with
      | none =>
        have : s'.clos[i]? = none := by
          rw [List.getElem?_eq_none_iff] at hf ⊢
          rw [hs.length]; exact hf
        rw [this]
        exact .err _ _ hs (Le.refl s)
      | some f =>
        obtain ⟨f', h1, h2, h3, D, Γ, Γ', h4, h5, h6, h7, h8⟩ := hs.clos i f hf
        rw [h1]
        simp only [h2, h3]
        obtain ⟨k1, k2, k3⟩ := alloc_plain (vs := vs) h4 hs h5
        refine RelR.from ?_ k2
        refine ((bl_sim (cx := ⟨w, c.lang, n, apply w c.lang n⟩) rfl hw ih f.body h6 h7 h8).2 _ _ _ _ _ k1 k3).bind
          fun a a' t t' ht _ ha => .ok _ _ _ _ ht (Le.refl t) (by rw [ha.1])

theorem seen_eq {s0 : State H} {r r' : R H (List V)} (h : RelV c G s0 r r') : r'.seen = r.seen := by
  cases h with
  | out t t' h => simp only [R.seen, h.heap]
  | err t t' h _ => simp only [R.seen, h.heap]
  | ok a a' t t' h _ ha => simp only [R.seen, h.heap, ha]

theorem play_sim {w : World H} {arith : Bool} (hw : w.Ok c.lang arith) {b b' : List St} {Γ' : Nat → Option LV}
    (hf : FineBl c G [] (fun _ => none) b) (h : c.bl (fun _ => none) b = some (Γ', b')) (n : Nat) (va : List V)
    (drive : List V → H → Act H) (hp : H) : (play w c.lang n va drive b' hp).seen = (play w c.lang n va drive b hp).seen := by
  have hs : Sim c G (⟨fun _ => [], [], hp⟩ : State H) ⟨fun _ => [], [], hp⟩ :=
    ⟨rfl, fun _ _ => rfl, fun _ _ _ u h => (by simp at h), rfl, fun i f h => by simp at h⟩
  unfold play
  refine seen_eq (c := c) (G := G) (s0 := ⟨fun _ => [], [], hp⟩) ?_
  refine ((bl_sim (cx := ⟨w, c.lang, n, apply w c.lang n⟩) rfl hw (apply_sim hw n) b (fun x h => by cases h) hf h).2 va _ _ _ _ hs
    (fun x h => by cases h)).bind fun a a' t t' ht _ ha => ?_
  rw [ha.1, ht.heap]
  exact perform_sim (apply_sim hw n) _ ht

end Verif.Core
