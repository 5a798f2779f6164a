import Verif.MergeProgSim
/-
Helpers for C75: expressions, statements, calls and whole programs.
-/
namespace Verif.Core.Mrg
open Spec

variable {H : Type} {α : Type} {nm : Nat → Nat}

/-! ### Variables that are not used need not be visible -/

theorem scope_at {x : Nat} : ∀ (b : List St) {D D' : List Nat}, (x ∈ D → x ∈ D') → x ∈ scope D b → x ∈ scope D' b
  | [], _, _, h, hx => h hx
  | s :: b, D, D', h, hx => by
    simp only [scope] at hx ⊢
    refine scope_at b ?_ hx
    simp only [List.mem_append]
    exact fun h' => h'.imp id h

theorem app_at {ps D D' : List Nat} {x : Nat} (h : x ∈ D → x ∈ D') : x ∈ ps ++ D → x ∈ ps ++ D' := by
  simp only [List.mem_append]
  exact fun h' => h'.imp id h

mutual
theorem scopedEx_at : ∀ (e : Ex) {D D' : List Nat}, e.Scoped D → (∀ x ∈ e.uses, x ∈ D → x ∈ D') → e.Scoped D'
  | .const _, _, _, _, _ => trivial
  | .var x, _, _, h, hu => hu x (by simp [Ex.uses]) h
  | .dots, _, _, _, _ => trivial
  | .group e, _, _, h, hu => scopedEx_at e h hu
  | .un _ e, _, _, h, hu => scopedEx_at e h hu
  | .bin _ l r, _, _, h, hu =>
    ⟨scopedEx_at l h.1 fun x hx => hu x (List.mem_append_left _ hx), scopedEx_at r h.2 fun x hx => hu x (List.mem_append_right _ hx)⟩
  | .builtin _ es, _, _, h, hu => scopedEs_at es h hu
  | .call f es, _, _, h, hu =>
    ⟨scopedEx_at f h.1 fun x hx => hu x (List.mem_append_left _ hx), scopedEs_at es h.2 fun x hx => hu x (List.mem_append_right _ hx)⟩
  | .index e k, _, _, h, hu =>
    ⟨scopedEx_at e h.1 fun x hx => hu x (List.mem_append_left _ hx), scopedEx_at k h.2 fun x hx => hu x (List.mem_append_right _ hx)⟩
  | .op _ _ es, _, _, h, hu => scopedEs_at es h hu
  | .func _ _ b, _, _, h, hu => scopedBl_at b h fun x hx => app_at (hu x hx)
theorem scopedEs_at : ∀ (es : List Ex) {D D' : List Nat}, ScopedEs D es → (∀ x ∈ usesEs es, x ∈ D → x ∈ D') → ScopedEs D' es
  | [], _, _, _, _ => trivial
  | e :: es, _, _, h, hu =>
    ⟨scopedEx_at e h.1 fun x hx => hu x (List.mem_append_left _ hx), scopedEs_at es h.2 fun x hx => hu x (List.mem_append_right _ hx)⟩
theorem scopedSt_at : ∀ (s : St) {D D' : List Nat}, s.Scoped D → (∀ x ∈ s.uses, x ∈ D → x ∈ D') → s.Scoped D'
  | .locals _ es, _, _, h, hu => scopedEs_at es h hu
  | .localFn x _ _ b, _, _, h, hu => scopedBl_at b h fun y hy => app_at (app_at (ps := [x]) (hu y hy))
  | .assign ts es, _, _, h, hu =>
    ⟨scopedTs_at ts h.1 fun x hx => hu x (List.mem_append_left _ hx), scopedEs_at es h.2 fun x hx => hu x (List.mem_append_right _ hx)⟩
  | .eval e, _, _, h, hu => scopedEx_at e h hu
  | .ret es, _, _, h, hu => scopedEs_at es h hu
  | .brk, _, _, _, _ => trivial
  | .doB b, _, _, h, hu => scopedBl_at b h hu
  | .whileS e b, _, _, h, hu =>
    ⟨scopedEx_at e h.1 fun x hx => hu x (List.mem_append_left _ hx), scopedBl_at b h.2 fun x hx => hu x (List.mem_append_right _ hx)⟩
  | .repeatS b e, _, _, h, hu =>
    ⟨scopedBl_at b h.1 fun x hx => hu x (List.mem_append_left _ hx),
      scopedEx_at e h.2 fun x hx => scope_at b (hu x (List.mem_append_right _ hx))⟩
  | .forNum y es b, _, _, h, hu =>
    ⟨scopedEs_at es h.1 fun x hx => hu x (List.mem_append_left _ hx),
      scopedBl_at b h.2 fun x hx => app_at (ps := [y]) (hu x (List.mem_append_right _ hx))⟩
  | .forIn _ es b, _, _, h, hu =>
    ⟨scopedEs_at es h.1 fun x hx => hu x (List.mem_append_left _ hx),
      scopedBl_at b h.2 fun x hx => app_at (hu x (List.mem_append_right _ hx))⟩
  | .ifS e t f, _, _, h, hu =>
    ⟨scopedEx_at e h.1 fun x hx => hu x (List.mem_append_left _ (List.mem_append_left _ hx)),
      scopedBl_at t h.2.1 fun x hx => hu x (List.mem_append_left _ (List.mem_append_right _ hx)),
      scopedEl_at f h.2.2 fun x hx => hu x (List.mem_append_right _ hx)⟩
theorem scopedBl_at : ∀ (b : List St) {D D' : List Nat}, ScopedBl D b → (∀ x ∈ usesBl b, x ∈ D → x ∈ D') → ScopedBl D' b
  | [], _, _, _, _ => trivial
  | s :: b, _, _, h, hu =>
    ⟨scopedSt_at s h.1 fun x hx => hu x (List.mem_append_left _ hx),
      scopedBl_at b h.2 fun x hx => app_at (hu x (List.mem_append_right _ hx))⟩
theorem scopedEl_at : ∀ (f : El) {D D' : List Nat}, f.Scoped D → (∀ x ∈ f.uses, x ∈ D → x ∈ D') → f.Scoped D'
  | .none, _, _, _, _ => trivial
  | .else_ b, _, _, h, hu => scopedBl_at b h hu
  | .elseif e t f, _, _, h, hu =>
    ⟨scopedEx_at e h.1 fun x hx => hu x (List.mem_append_left _ (List.mem_append_left _ hx)),
      scopedBl_at t h.2.1 fun x hx => hu x (List.mem_append_left _ (List.mem_append_right _ hx)),
      scopedEl_at f h.2.2 fun x hx => hu x (List.mem_append_right _ hx)⟩
theorem scopedTg_at : ∀ (t : Tg) {D D' : List Nat}, t.Scoped D → (∀ x ∈ t.uses, x ∈ D → x ∈ D') → t.Scoped D'
  | .loc x, _, _, h, hu => hu x (by simp [Tg.uses]) h
  | .put _ es, _, _, h, hu => scopedEs_at es h hu
theorem scopedTs_at : ∀ (ts : List Tg) {D D' : List Nat}, ScopedTs D ts → (∀ x ∈ usesTs ts, x ∈ D → x ∈ D') → ScopedTs D' ts
  | [], _, _, _, _ => trivial
  | t :: ts, _, _, h, hu =>
    ⟨scopedTg_at t h.1 fun x hx => hu x (List.mem_append_left _ hx), scopedTs_at ts h.2 fun x hx => hu x (List.mem_append_right _ hx)⟩
end

/-! ### Running side by side -/

section
variable {cx : Cx H}

theorem vals_sim_var {π : Inst} {s t : State H} {D : List Nat} {ρ ρ' : Env} {x : Nat} (hx : x ∈ D) (hs : Sim π s t) (he : EnvOk π D ρ ρ')
    (va : List V) : RelV π s t (vals cx ρ va (.var x) s) (vals cx ρ' va (.var x) t) := by
  obtain ⟨n, m, h1, h2, h3⟩ := he x hx
  obtain ⟨v, h4, h5⟩ := hs.cells x n m h3
  simp only [vals, read, h1, h2, Option.bind_some, h4, h5]
  exact .ok _ _ _ _ _ hs (Ext.refl _ _ _) rfl

mutual
theorem ex_sim (hap : ApOk cx.ap) : ∀ (e : Ex) {e' : Ex} {D : List Nat}, PEx nm e e' → e.Scoped D → ∀ va π s t ρ ρ', Sim π s t →
    EnvOk π D ρ ρ' → RelV π s t (vals cx ρ va e s) (vals cx ρ' va e' t)
  | .const v, e', D, h, hd, va, π, s, t, ρ, ρ', hs, he => by
    cases h; simp only [vals]; exact .ok _ _ _ _ _ hs (Ext.refl _ _ _) rfl
  | .var x, e', D, h, hd, va, π, s, t, ρ, ρ', hs, he => by
    cases h; exact vals_sim_var hd hs he va
  | .dots, e', D, h, hd, va, π, s, t, ρ, ρ', hs, he => by
    cases h; simp only [vals]; exact .ok _ _ _ _ _ hs (Ext.refl _ _ _) rfl
  | .group e, e', D, h, hd, va, π, s, t, ρ, ρ', hs, he => by
    cases h with
    | group h =>
      simp only [vals]
      exact (ex_sim hap e h hd va π s t ρ ρ' hs he).bind fun π1 a a' s1 t1 h1 _ ha => .ok _ _ _ _ _ h1 (Ext.refl _ _ _) (by rw [ha])
  | .un o e, e', D, h, hd, va, π, s, t, ρ, ρ', hs, he => by
    cases h with
    | un _ h =>
      simp only [vals]
      refine (ex_sim hap e h hd va π s t ρ ρ' hs he).bind fun π1 a a' s1 t1 h1 _ ha => ?_
      rw [ha, h1.heap]
      exact (perform_sim hap _ h1).bind fun π2 b b' s2 t2 h2 _ hb => .ok _ _ _ _ _ h2 (Ext.refl _ _ _) (by rw [hb])
  | .bin o l r, e', D, h, hd, va, π, s, t, ρ, ρ', hs, he => by
    cases h with
    | bin _ hl hr =>
      simp only [vals]
      refine (ex_sim hap l hl hd.1 va π s t ρ ρ' hs he).bind fun π1 a a' s1 t1 h1 x1 ha => ?_
      rw [ha]
      split
      · exact .ok _ _ _ _ _ h1 (Ext.refl _ _ _) rfl
      · refine (ex_sim hap r hr hd.2 va π1 s1 t1 ρ ρ' h1 (he.mono x1.sub fun _ h => h)).bind fun π2 b b' s2 t2 h2 _ hb => ?_
        rw [hb]
        split
        · exact .ok _ _ _ _ _ h2 (Ext.refl _ _ _) rfl
        · rw [h2.heap]
          exact (perform_sim hap _ h2).bind fun π3 d d' s3 t3 h3 _ hd => .ok _ _ _ _ _ h3 (Ext.refl _ _ _) (by rw [hd])
  | .builtin f es, e', D, h, hd, va, π, s, t, ρ, ρ', hs, he => by
    cases h with
    | builtin _ h =>
      simp only [vals]
      refine (es_sim hap es h hd va π s t ρ ρ' hs he).bind fun π1 a a' s1 t1 h1 _ ha => ?_
      rw [ha, h1.heap]
      exact perform_sim hap _ h1
  | .call f es, e', D, h, hd, va, π, s, t, ρ, ρ', hs, he => by
    cases h with
    | call hf h =>
      simp only [vals]
      refine (ex_sim hap f hf hd.1 va π s t ρ ρ' hs he).bind fun π1 a a' s1 t1 h1 x1 ha => ?_
      rw [ha]
      refine (es_sim hap es h hd.2 va π1 s1 t1 ρ ρ' h1 (he.mono x1.sub fun _ h => h)).bind fun π2 b b' s2 t2 h2 _ hb => ?_
      rw [hb]
      exact hap _ _ _ _ _ h2
  | .index e k, e', D, h, hd, va, π, s, t, ρ, ρ', hs, he => by
    cases h with
    | index h1 h2 =>
      simp only [vals]
      refine (ex_sim hap e h1 hd.1 va π s t ρ ρ' hs he).bind fun π1 a a' s1 t1 h1 x1 ha => ?_
      rw [ha]
      refine (ex_sim hap k h2 hd.2 va π1 s1 t1 ρ ρ' h1 (he.mono x1.sub fun _ h => h)).bind fun π2 b b' s2 t2 h2 _ hb => ?_
      rw [hb, h2.heap]
      exact (perform_sim hap _ h2).bind fun π3 d d' s3 t3 h3 _ hd => .ok _ _ _ _ _ h3 (Ext.refl _ _ _) (by rw [hd])
  | .op k m es, e', D, h, hd, va, π, s, t, ρ, ρ', hs, he => by
    cases h with
    | op _ _ h =>
      simp only [vals]
      refine (es_sim hap es h hd va π s t ρ ρ' hs he).bind fun π1 a a' s1 t1 h1 _ ha => ?_
      rw [ha, h1.heap]
      exact (perform_sim hap _ h1).bind fun π2 b b' s2 t2 h2 _ hb => .ok _ _ _ _ _ h2 (Ext.refl _ _ _) (by rw [hb])
  | .func ps d b, e', D, h, hd, va, π, s, t, ρ, ρ', hs, he => by
    cases h with
    | func _ _ h =>
      simp only [vals, hs.length]
      exact .ok _ _ _ _ _ (addClo hs ⟨rfl, rfl, nm, D, he, hd, h⟩) (ext_clo _ _) rfl
theorem es_sim (hap : ApOk cx.ap) : ∀ (es : List Ex) {es' : List Ex} {D : List Nat}, PEs nm es es' → ScopedEs D es → ∀ va π s t ρ ρ', Sim π s t →
    EnvOk π D ρ ρ' → RelV π s t (args cx ρ va es s) (args cx ρ' va es' t)
  | [], es', D, h, hd, va, π, s, t, ρ, ρ', hs, he => by
    cases h; simp only [args]; exact .ok _ _ _ _ _ hs (Ext.refl _ _ _) rfl
  | e :: es, es', D, h, hd, va, π, s, t, ρ, ρ', hs, he => by
    cases h with
    | cons h1 h2 =>
      have i1 := ex_sim hap e h1 hd.1
      have i2 := es_sim hap es h2 hd.2
      cases h2 with
      | nil => simp only [args]; exact i1 va π s t ρ ρ' hs he
      | cons g1 g2 =>
        simp only [args]
        refine (i1 va π s t ρ ρ' hs he).bind fun π1 a a' s1 t1 h1 x1 ha => ?_
        refine (i2 va π1 s1 t1 ρ ρ' h1 (he.mono x1.sub fun _ h => h)).bind fun π2 b b' s2 t2 h2 _ hb => ?_
        exact .ok _ _ _ _ _ h2 (Ext.refl _ _ _) (by rw [ha, hb])
end

theorem ts_sim (hap : ApOk cx.ap) : ∀ (ts : List Tg) {ts' : List Tg} {D : List Nat}, PTs nm ts ts' → ScopedTs D ts → ∀ va π s t ρ ρ', Sim π s t →
    EnvOk π D ρ ρ' → RelR π s t (fun _ a a' => a' = a ∧ ∀ x, .loc x ∈ a → x ∈ D) (places cx ρ va ts s) (places cx ρ' va ts' t)
  | [], ts', D, h, hd, va, π, s, t, ρ, ρ', hs, he => by
    cases h; simp only [places]; exact .ok _ _ _ _ _ hs (Ext.refl _ _ _) ⟨rfl, fun x h => by cases h⟩
  | .loc x :: ts, ts', D, h, hd, va, π, s, t, ρ, ρ', hs, he => by
    cases h with
    | cons h1 h2 =>
      cases h1
      simp only [places]
      refine (ts_sim hap ts h2 hd.2 va π s t ρ ρ' hs he).bind fun π1 a a' s1 t1 h1 x1 ha => ?_
      refine .ok _ _ _ _ _ h1 (Ext.refl _ _ _) ⟨by rw [ha.1], ?_⟩
      intro y hy
      rcases List.mem_cons.mp hy with h | h
      · cases h; exact hd.1
      · exact ha.2 y h
  | .put k es :: ts, ts', D, h, hd, va, π, s, t, ρ, ρ', hs, he => by
    cases h with
    | cons h1 h2 =>
      cases h1 with
      | put _ h1 =>
        simp only [places]
        refine (es_sim hap es h1 hd.1 va π s t ρ ρ' hs he).bind fun π1 a a' s1 t1 h1 x1 ha => ?_
        refine (ts_sim hap ts h2 hd.2 va π1 s1 t1 ρ ρ' h1 (he.mono x1.sub fun _ h => h)).bind fun π2 b b' s2 t2 h2 x2 hb => ?_
        refine .ok _ _ _ _ _ h2 (Ext.refl _ _ _) ⟨by rw [ha, hb.1], ?_⟩
        intro y hy
        rcases List.mem_cons.mp hy with h | h
        · cases h
        · exact hb.2 y h

theorem store_sim (hap : ApOk cx.ap) {D : List Nat} {ρ ρ' : Env} : ∀ (ps : List Place) (vs : List V) {π : Inst} {s t : State H},
    (∀ x, .loc x ∈ ps → x ∈ D) → Sim π s t → EnvOk π D ρ ρ' → RelV π s t (store cx ρ ps vs s) (store cx ρ' ps vs t)
  | [], vs, π, s, t, _, hs, _ => by simp only [store]; exact .ok _ _ _ _ _ hs (Ext.refl _ _ _) rfl
  | .loc x :: ps, vs, π, s, t, hp, hs, he => by
    obtain ⟨n, m, h1, h2, h3⟩ := he x (hp x (by simp))
    simp only [store, h1, h2]
    obtain ⟨g1, g2⟩ := set_sim (v := first vs) hs h3
    exact (store_sim hap ps vs.tail (fun y hy => hp y (List.mem_cons_of_mem _ hy)) g1 he).from g2
  | .put k us :: ps, vs, π, s, t, hp, hs, he => by
    simp only [store, hs.heap]
    refine (perform_sim hap _ hs).bind fun π1 a a' s1 t1 h1 x1 _ => ?_
    exact store_sim hap ps vs.tail (fun y hy => hp y (List.mem_cons_of_mem _ hy)) h1 (he.mono x1.sub fun _ h => h)

theorem loop_sim {step step' : α → State H → R H (α ⊕ Ctl)} {π0 : Inst} {s0 t0 : State H}
    (h : ∀ a π s t, Sim π s t → Ext π0 s0 t0 π s t → RelV π s t (step a s) (step' a t)) :
    ∀ n a π s t, Sim π s t → Ext π0 s0 t0 π s t → RelV π s t (loop step n a s) (loop step' n a t)
  | 0, a, π, s, t, hs, _ => .out _ _ hs.heap
  | n + 1, a, π, s, t, hs, hx => by
    simp only [loop]
    refine (h a π s t hs hx).bind fun π1 r r' s1 t1 h1 x1 hr => ?_
    subst hr
    cases r' with
    | inl b => exact loop_sim h n b π1 s1 t1 h1 (hx.trans x1)
    | inr k => exact .ok _ _ _ _ _ h1 (Ext.refl _ _ _) rfl

/-- Control leaves in the same way, and if it goes on, the visible variables are related. -/
def QE (D : List Nat) (π : Inst) (a a' : Env × Ctl) : Prop := a'.2 = a.2 ∧ (a.2 = .next → EnvOk π D a.1 a'.1)

theorem QE.keep {D D' : List Nat} {π π' : Inst} {ρ ρ' : Env} {k : Ctl} (he : EnvOk π D ρ ρ') (hp : ∀ x n m, π x n m → π' x n m)
    (hd : ∀ x ∈ D', x ∈ D) : QE D' π' (ρ, k) (ρ', k) := ⟨rfl, fun _ => he.mono hp hd⟩

/-- The two declarations and the merged one, with what comes after them. -/
theorem merge_sim {xs ys D : List Nat} {es fs es' fs' : List Ex} {b b' : List St} (hm : May nm xs es ys fs)
    (pe : PEs nm es es') (pf : PEs nm fs fs')
    (ie : ∀ {D : List Nat}, ScopedEs D es → ∀ va π s t ρ ρ', Sim π s t → EnvOk π D ρ ρ' → RelV π s t (args cx ρ va es s) (args cx ρ' va es' t))
    (jf : ∀ {D : List Nat}, ScopedEs D fs → ∀ va π s t ρ ρ', Sim π s t → EnvOk π D ρ ρ' → RelV π s t (args cx ρ va fs s) (args cx ρ' va fs' t))
    (ib : ∀ {D : List Nat}, ScopedBl D b → ∀ va π s t ρ ρ', Sim π s t → EnvOk π D ρ ρ' →
      RelR π s t (QE (scope D b)) (run cx va b ρ s) (run cx va b' ρ' t))
    (h1 : ScopedEs D es) (h2 : ScopedEs (xs ++ D) fs) (h3 : ScopedBl (ys ++ (xs ++ D)) b) (va : List V) (π : Inst) (s t : State H) (ρ ρ' : Env)
    (hs : Sim π s t) (he : EnvOk π D ρ ρ') :
    RelR π s t (QE (scope (ys ++ (xs ++ D)) b)) (run cx va (.locals xs es :: .locals ys fs :: b) ρ s)
      (run cx va (.locals (both xs es.length ys) (es' ++ fs') :: b') ρ' t) := by
  have nx := (List.nodup_append.mp hm.nodup).1
  have e1 : run cx va (.locals xs es :: .locals ys fs :: b) ρ s = (args cx ρ va es s).bind fun vs s1 =>
      (args cx (alloc xs vs ρ s1).1 va fs (alloc xs vs ρ s1).2).bind fun us s2 =>
        run cx va b (alloc ys us (alloc xs vs ρ s1).1 s2).1 (alloc ys us (alloc xs vs ρ s1).1 s2).2 := by
    simp only [run, exec]
    cases args cx ρ va es s with
    | out u => rfl
    | err u => rfl
    | ok vs s1 =>
      simp only [R.bind]
      cases args cx (alloc xs vs ρ s1).1 va fs (alloc xs vs ρ s1).2 <;> rfl
  have e2 : run cx va (.locals (both xs es.length ys) (es' ++ fs') :: b') ρ' t = (args cx ρ' va es' t).bind fun vs t1 =>
      (args cx ρ' va fs' t1).bind fun us t2 =>
        run cx va b' (alloc (both xs es.length ys) (adjust es.length vs ++ us) ρ' t2).1
          (alloc (both xs es.length ys) (adjust es.length vs ++ us) ρ' t2).2 := by
    simp only [run, exec]
    rw [args_append es' t (fun h => by
      rw [pe.last]
      refine hm.bare ?_
      have := pf.length
      rw [h] at this
      exact List.eq_nil_of_length_eq_zero this.symm)]
    rw [pe.length]
    cases args cx ρ' va es' t with
    | out u => rfl
    | err u => rfl
    | ok vs t1 =>
      simp only [R.bind]
      cases args cx ρ' va fs' t1 <;> rfl
  rw [e1, e2]
  have hle : ∀ vs u, args cx ρ va es s = .ok vs u → lastMany es = false → vs.length = es.length := fun vs u h hl => args_length hl h
  have r1 := ie h1 va π s t ρ ρ' hs he
  generalize args cx ρ va es s = r at r1 hle
  generalize args cx ρ' va es' t = r' at r1
  cases r1 with
  | out s' t' h => exact .out _ _ h
  | err π' s' t' h1 h2 => exact .err _ _ _ h1 h2
  | ok π1 vs vs' s1 t1 g1 g2 g3 =>
    subst g3
    refine RelR.from ?_ g2
    simp only [R.bind]
    obtain ⟨l1, l2⟩ := late xs vs' ρ nx g1
    have he1 : EnvOk π1 (D.filter fun x => !xs.contains x) (alloc xs vs' ρ s1).1 ρ' := by
      intro x hx
      simp only [List.mem_filter, List.contains_iff_mem, Bool.not_eq_eq_eq_not, Bool.not_true,
        ← Bool.not_eq_true] at hx
      obtain ⟨n, m, q1, q2, q3⟩ := he x hx.1
      refine ⟨n, m, ?_, q2, g2.sub _ _ _ q3⟩
      rw [alloc_env xs vs' ρ s1 nx x, if_neg hx.2, q1]
    have hfd : ScopedEs (D.filter fun x => !xs.contains x) fs := by
      refine scopedEs_at fs h2 ?_
      intro x hx hd
      have hn := hm.unused x hx
      simp only [List.mem_filter, List.contains_iff_mem, Bool.not_eq_eq_eq_not, Bool.not_true,
        ← Bool.not_eq_true]
      exact ⟨(List.mem_append.mp hd).resolve_left hn, hn⟩
    have hlf : ∀ us u, args cx (alloc xs vs' ρ s1).1 va fs (alloc xs vs' ρ s1).2 = .ok us u → lastMany fs = false → us.length = fs.length :=
      fun us u h hl => args_length hl h
    have r2 := jf hfd va π1 _ t1 _ ρ' l1 he1
    generalize args cx (alloc xs vs' ρ s1).1 va fs (alloc xs vs' ρ s1).2 = r at r2 hlf
    generalize args cx ρ' va fs' t1 = r' at r2
    cases r2 with
    | out s' t' h => exact .out _ _ h
    | err π' s' t' k1 k2 => exact .err _ _ _ k1 (l2.trans k2)
    | ok π2 us us' s2 t2 k1 k2 k3 =>
      subst k3
      simp only
      obtain ⟨π3, m1, m2, m3⟩ := merge_alloc hm (hle _ _ rfl) (hlf _ _ rfl) g1 k1 k2 (he.mono g2.sub fun _ h => h)
      exact (ib h3 va π3 _ _ _ _ m1 m3).from m2

mutual
theorem st_sim (hap : ApOk cx.ap) : ∀ (st : St) {st' : St} {D : List Nat}, PSt nm st st' → st.Scoped D → ∀ va π s t ρ ρ', Sim π s t →
    EnvOk π D ρ ρ' → RelR π s t (QE (st.decls ++ D)) (exec cx va st ρ s) (exec cx va st' ρ' t)
  | .locals xs es, st', D, h, hd, va, π, s, t, ρ, ρ', hs, he => by
    cases h with
    | locals _ h =>
      simp only [exec]
      refine (es_sim hap es h hd va π s t ρ ρ' hs he).bind fun π1 a a' s1 t1 h1 x1 ha => ?_
      subst ha
      obtain ⟨π2, k1, k2, k3⟩ := alloc_sim xs a' h1 (he.mono x1.sub fun _ h => h)
      exact .ok _ _ _ _ _ k1 k2 ⟨rfl, fun _ => k3⟩
  | .localFn x ps d b, st', D, h, hd, va, π, s, t, ρ, ρ', hs, he => by
    cases h with
    | localFn _ _ _ h =>
      simp only [exec, hs.length]
      obtain ⟨π2, k1, k2, k3⟩ := alloc_sim [x] [.clo s.clos.length] hs he
      have hc : CloOk π2 ⟨ps, d, b, (alloc [x] [.clo s.clos.length] ρ s).1⟩ ⟨ps, d, _, (alloc [x] [.clo s.clos.length] ρ' t).1⟩ :=
        ⟨rfl, rfl, nm, [x] ++ D, k3, hd, h⟩
      exact .ok _ _ _ _ _ (addClo k1 hc) (k2.trans (ext_clo _ _)) ⟨rfl, fun _ => k3⟩
  | .assign ts es, st', D, h, hd, va, π, s, t, ρ, ρ', hs, he => by
    cases h with
    | assign h1 h2 =>
      simp only [exec]
      refine (ts_sim hap ts h1 hd.1 va π s t ρ ρ' hs he).bind fun π1 a a' s1 t1 h1 x1 ha => ?_
      obtain ⟨rfl, ha⟩ := ha
      refine (es_sim hap es h2 hd.2 va π1 s1 t1 ρ ρ' h1 (he.mono x1.sub fun _ h => h)).bind fun π2 b b' s2 t2 h2 x2 hb => ?_
      subst hb
      refine (store_sim hap a' b' ha h2 (he.mono (x1.trans x2).sub fun _ h => h)).bind fun π3 _ _ s3 t3 h3 x3 _ => ?_
      exact .ok _ _ _ _ _ h3 (Ext.refl _ _ _) (QE.keep he ((x1.trans x2).trans x3).sub fun _ h => h)
  | .eval e, st', D, h, hd, va, π, s, t, ρ, ρ', hs, he => by
    cases h with
    | eval h =>
      simp only [exec]
      exact (ex_sim hap e h hd va π s t ρ ρ' hs he).bind fun π1 a a' s1 t1 h1 x1 ha =>
        .ok _ _ _ _ _ h1 (Ext.refl _ _ _) (QE.keep he x1.sub fun _ h => h)
  | .ret es, st', D, h, hd, va, π, s, t, ρ, ρ', hs, he => by
    cases h with
    | ret h =>
      simp only [exec]
      exact (es_sim hap es h hd va π s t ρ ρ' hs he).bind fun π1 a a' s1 t1 h1 x1 ha =>
        .ok _ _ _ _ _ h1 (Ext.refl _ _ _) (ha ▸ QE.keep he x1.sub fun _ h => h)
  | .brk, st', D, h, hd, va, π, s, t, ρ, ρ', hs, he => by
    cases h
    simp only [exec]
    exact .ok _ _ _ _ _ hs (Ext.refl _ _ _) (QE.keep he (fun _ _ _ h => h) fun _ h => h)
  | .doB b, st', D, h, hd, va, π, s, t, ρ, ρ', hs, he => by
    cases h with
    | doB h =>
      simp only [exec]
      exact (bl_sim hap b h hd va π s t ρ ρ' hs he).bind fun π1 a a' s1 t1 h1 x1 ha =>
        .ok _ _ _ _ _ h1 (Ext.refl _ _ _) (ha.1 ▸ QE.keep he x1.sub fun _ h => h)
  | .whileS e b, st', D, h, hd, va, π, s, t, ρ, ρ', hs, he => by
    cases h with
    | whileS he' hb =>
      simp only [exec]
      refine (loop_sim (π0 := π) (s0 := s) (t0 := t) ?_ cx.steps () π s t hs (Ext.refl _ _ _)).bind fun π1 a a' s1 t1 h1 x1 ha =>
        .ok _ _ _ _ _ h1 (Ext.refl _ _ _) (ha ▸ QE.keep he x1.sub fun _ h => h)
      intro _ π1 s1 t1 h1 x1
      refine (ex_sim hap e he' hd.1 va π1 s1 t1 ρ ρ' h1 (he.mono x1.sub fun _ h => h)).bind fun π2 a a' s2 t2 h2 x2 ha => ?_
      rw [ha]
      split
      · exact (bl_sim hap b hb hd.2 va π2 s2 t2 ρ ρ' h2 (he.mono (x1.trans x2).sub fun _ h => h)).bind fun π3 d d' s3 t3 h3 _ hd' =>
          .ok _ _ _ _ _ h3 (Ext.refl _ _ _) (by rw [hd'.1])
      · exact .ok _ _ _ _ _ h2 (Ext.refl _ _ _) rfl
  | .repeatS b e, st', D, h, hd, va, π, s, t, ρ, ρ', hs, he => by
    cases h with
    | repeatS hb he' =>
      simp only [exec]
      refine (loop_sim (π0 := π) (s0 := s) (t0 := t) ?_ cx.steps () π s t hs (Ext.refl _ _ _)).bind fun π1 a a' s1 t1 h1 x1 ha =>
        .ok _ _ _ _ _ h1 (Ext.refl _ _ _) (ha ▸ QE.keep he x1.sub fun _ h => h)
      intro _ π1 s1 t1 h1 x1
      refine (bl_sim hap b hb hd.1 va π1 s1 t1 ρ ρ' h1 (he.mono x1.sub fun _ h => h)).bind fun π2 a a' s2 t2 h2 x2 ha => ?_
      obtain ⟨a1, a2⟩ := a
      obtain ⟨a1', a2'⟩ := a'
      obtain ⟨ha1, ha2⟩ := ha
      simp only at ha1
      subst ha1
      cases a2' with
      | next =>
        exact (ex_sim hap e he' hd.2 va π2 s2 t2 a1 a1' h2 (ha2 rfl)).bind fun π3 d d' s3 t3 h3 _ hd' =>
          .ok _ _ _ _ _ h3 (Ext.refl _ _ _) (by rw [hd'])
      | brk => exact .ok _ _ _ _ _ h2 (Ext.refl _ _ _) rfl
      | ret vs => exact .ok _ _ _ _ _ h2 (Ext.refl _ _ _) rfl
  | .forNum x es b, st', D, h, hd, va, π, s, t, ρ, ρ', hs, he => by
    cases h with
    | forNum _ hes hb =>
      simp only [exec]
      refine (es_sim hap es hes hd.1 va π s t ρ ρ' hs he).bind fun π0 a a' s0 t0 h0 x0 ha => ?_
      subst ha
      refine (loop_sim (π0 := π0) (s0 := s0) (t0 := t0) ?_ cx.steps 0 π0 s0 t0 h0 (Ext.refl _ _ _)).bind fun π1 a a' s1 t1 h1 x1 ha =>
        .ok _ _ _ _ _ h1 (Ext.refl _ _ _) (ha ▸ QE.keep he (x0.trans x1).sub fun _ h => h)
      intro i π1 s1 t1 h1 x1
      cases cx.w.range a' i with
      | none => exact .err _ _ _ h1 (Ext.refl _ _ _)
      | some v =>
        cases v with
        | none => exact .ok _ _ _ _ _ h1 (Ext.refl _ _ _) rfl
        | some v =>
          obtain ⟨π2, k1, k2, k3⟩ := alloc_sim [x] [v] h1 (he.mono (x0.trans x1).sub fun _ h => h)
          refine RelR.from ?_ k2
          exact (bl_sim hap b hb hd.2 va _ _ _ _ _ k1 k3).bind fun π3 d d' s3 t3 h3 _ hd' =>
            .ok _ _ _ _ _ h3 (Ext.refl _ _ _) (by rw [hd'.1])
  | .forIn xs es b, st', D, h, hd, va, π, s, t, ρ, ρ', hs, he => by
    cases h with
    | forIn _ hes hb =>
      simp only [exec]
      refine (es_sim hap es hes hd.1 va π s t ρ ρ' hs he).bind fun π0 a a' s0 t0 h0 x0 ha => ?_
      subst ha
      refine (loop_sim (π0 := π0) (s0 := s0) (t0 := t0) ?_ cx.steps _ π0 s0 t0 h0 (Ext.refl _ _ _)).bind fun π1 a a' s1 t1 h1 x1 ha =>
        .ok _ _ _ _ _ h1 (Ext.refl _ _ _) (ha ▸ QE.keep he (x0.trans x1).sub fun _ h => h)
      intro v π1 s1 t1 h1 x1
      refine (hap _ _ _ _ _ h1).bind fun π2 us us' s2 t2 h2 x2 hu => ?_
      subst hu
      split
      · exact .ok _ _ _ _ _ h2 (Ext.refl _ _ _) rfl
      · obtain ⟨π3, k1, k2, k3⟩ := alloc_sim xs us' h2 (he.mono ((x0.trans x1).trans x2).sub fun _ h => h)
        refine RelR.from ?_ k2
        exact (bl_sim hap b hb hd.2 va _ _ _ _ _ k1 k3).bind fun π3 d d' s3 t3 h3 _ hd' =>
          .ok _ _ _ _ _ h3 (Ext.refl _ _ _) (by rw [hd'.1])
  | .ifS e b f, st', D, h, hd, va, π, s, t, ρ, ρ', hs, he => by
    cases h with
    | ifS h1 h2 h3 =>
      simp only [exec]
      refine (ex_sim hap e h1 hd.1 va π s t ρ ρ' hs he).bind fun π1 a a' s1 t1 g1 x1 ha => ?_
      rw [ha]
      split
      · exact (bl_sim hap b h2 hd.2.1 va π1 s1 t1 ρ ρ' g1 (he.mono x1.sub fun _ h => h)).bind fun π2 d d' s2 t2 g2 x2 hd' =>
          .ok _ _ _ _ _ g2 (Ext.refl _ _ _) (hd'.1 ▸ QE.keep he (x1.trans x2).sub fun _ h => h)
      · exact (el_sim hap f h3 hd.2.2 va π1 s1 t1 ρ ρ' g1 (he.mono x1.sub fun _ h => h)).bind fun π2 d d' s2 t2 g2 x2 hd' =>
          .ok _ _ _ _ _ g2 (Ext.refl _ _ _) (hd' ▸ QE.keep he (x1.trans x2).sub fun _ h => h)
theorem bl_sim (hap : ApOk cx.ap) : ∀ (b : List St) {b' : List St} {D : List Nat}, PBl nm b b' → ScopedBl D b → ∀ va π s t ρ ρ', Sim π s t →
    EnvOk π D ρ ρ' → RelR π s t (QE (scope D b)) (run cx va b ρ s) (run cx va b' ρ' t)
  | [], b', D, h, hd, va, π, s, t, ρ, ρ', hs, he => by
    cases h
    simp only [run]
    exact .ok _ _ _ _ _ hs (Ext.refl _ _ _) ⟨rfl, fun _ => he⟩
  | st :: b, b', D, h, hd, va, π, s, t, ρ, ρ', hs, he => by
    cases h with
    | cons h1 h2 =>
      simp only [run]
      refine (st_sim hap st h1 hd.1 va π s t ρ ρ' hs he).bind fun π1 a a' s1 t1 g1 x1 ha => ?_
      obtain ⟨a1, a2⟩ := a
      obtain ⟨a1', a2'⟩ := a'
      obtain ⟨ha1, ha2⟩ := ha
      simp only at ha1
      subst ha1
      cases a2' with
      | next => exact bl_sim hap b h2 hd.2 va π1 s1 t1 a1 a1' g1 (ha2 rfl)
      | brk => exact .ok _ _ _ _ _ g1 (Ext.refl _ _ _) ⟨rfl, fun h => by cases h⟩
      | ret vs => exact .ok _ _ _ _ _ g1 (Ext.refl _ _ _) ⟨rfl, fun h => by cases h⟩
    | @merge xs es ys fs es' fs' b2 b2' hm pe pf pb =>
      exact merge_sim hm pe pf (fun h => es_sim hap es pe h) (fun h => es_sim hap fs pf h) (fun h => bl_sim hap b2 pb h) hd.1 hd.2.1 hd.2.2
        va π s t ρ ρ' hs he
theorem el_sim (hap : ApOk cx.ap) : ∀ (f : El) {f' : El} {D : List Nat}, PEl nm f f' → f.Scoped D → ∀ va π s t ρ ρ', Sim π s t →
    EnvOk π D ρ ρ' → RelV π s t (otherwise cx va f ρ s) (otherwise cx va f' ρ' t)
  | .none, f', D, h, hd, va, π, s, t, ρ, ρ', hs, he => by
    cases h
    simp only [otherwise]
    exact .ok _ _ _ _ _ hs (Ext.refl _ _ _) rfl
  | .else_ b, f', D, h, hd, va, π, s, t, ρ, ρ', hs, he => by
    cases h with
    | else_ h =>
      simp only [otherwise]
      exact (bl_sim hap b h hd va π s t ρ ρ' hs he).bind fun π1 a a' s1 t1 g1 _ ha => .ok _ _ _ _ _ g1 (Ext.refl _ _ _) ha.1
  | .elseif e b f, f', D, h, hd, va, π, s, t, ρ, ρ', hs, he => by
    cases h with
    | elseif h1 h2 h3 =>
      simp only [otherwise]
      refine (ex_sim hap e h1 hd.1 va π s t ρ ρ' hs he).bind fun π1 a a' s1 t1 g1 x1 ha => ?_
      rw [ha]
      split
      · exact (bl_sim hap b h2 hd.2.1 va π1 s1 t1 ρ ρ' g1 (he.mono x1.sub fun _ h => h)).bind fun π2 d d' s2 t2 g2 x2 hd' =>
          .ok _ _ _ _ _ g2 (Ext.refl _ _ _) hd'.1
      · exact el_sim hap f h3 hd.2.2 va π1 s1 t1 ρ ρ' g1 (he.mono x1.sub fun _ h => h)
end

end

/-! ### Calls and programs -/

theorem apply_sim (w : World H) (lang : Lang) : ∀ n, ApOk (apply w lang n)
  | 0 => fun f vs π s t hs => .out _ _ hs.heap
  | n + 1 => by
    have ih := apply_sim w lang n
    intro f vs π s t hs
    cases f with
    | base x => simp only [apply, hs.heap]; exact perform_sim ih _ hs
    | obj k => simp only [apply, hs.heap]; exact perform_sim ih _ hs
    | clo i =>
      simp only [apply]
      cases hf : s.clos[i]? with
      | none =>
        have : t.clos[i]? = none := by
          rw [List.getElem?_eq_none_iff] at hf ⊢
          rw [hs.length]; exact hf
        rw [this]
        exact .err _ _ _ hs (Ext.refl _ _ _)
      | some f =>
        obtain ⟨f', h1, h2, h3, nm, D, h4, h5, h6⟩ := hs.clos i f hf
        rw [h1]
        simp only [h2, h3]
        obtain ⟨π1, k1, k2, k3⟩ := alloc_sim f.ps vs hs h4
        refine RelR.from ?_ k2
        exact (bl_sim (cx := ⟨w, lang, n, apply w lang n⟩) ih f.body h6 h5 _ _ _ _ _ _ k1 k3).bind
          fun π2 a a' s2 t2 g2 _ ha => .ok _ _ _ _ _ g2 (Ext.refl _ _ _) (by rw [ha.1])

theorem play_sim (w : World H) (lang : Lang) {b b' : List St} (hd : ScopedBl [] b) (h : PBl nm b b') (n : Nat) (va : List V)
    (drive : List V → H → Act H) (hp : H) : (play w lang n va drive b' hp).seen = (play w lang n va drive b hp).seen := by
  have hs : Sim (fun _ _ _ => False) (⟨fun _ => [], [], hp⟩ : State H) ⟨fun _ => [], [], hp⟩ :=
    ⟨rfl, fun _ _ _ h => h.elim, fun _ _ _ _ _ h => h.elim, rfl, fun i f h => by simp at h⟩
  have key : RelV (fun _ _ _ => False) (⟨fun _ => [], [], hp⟩ : State H) ⟨fun _ => [], [], hp⟩ (play w lang n va drive b hp)
      (play w lang n va drive b' hp) := by
    unfold play
    refine (bl_sim (cx := ⟨w, lang, n, apply w lang n⟩) (apply_sim w lang n) b h hd va _ _ _ _ _ hs (fun x h => by cases h)).bind
      fun π1 a a' s1 t1 g1 _ ha => ?_
    rw [ha.1, g1.heap]
    exact perform_sim (apply_sim w lang n) _ g1
  revert key
  generalize play w lang n va drive b hp = r
  generalize play w lang n va drive b' hp = r'
  intro key
  cases key with
  | out s t h => simp only [R.seen, h]
  | err π s t h _ => simp only [R.seen, h.heap]
  | ok π a a' s t h _ ha => simp only [R.seen, h.heap, ha]

end Verif.Core.Mrg
