import Verif.MergeProgRun
import Verif.Spec.LuaNames
/-
Helpers for C75: merging keeps scopes and what names mean.
-/
namespace Verif.Core.Mrg
open Spec

variable {nm : Nat → Nat}

theorem append_scoped {D : List Nat} : ∀ {es fs : List Ex}, ScopedEs D es → ScopedEs D fs → ScopedEs D (es ++ fs)
  | [], _, _, h => h
  | _ :: _, _, h, h' => ⟨h.1, append_scoped h.2 h'⟩

theorem both_scoped {xs ys D D' : List Nat} {es fs : List Ex} {x : Nat} (_ : May nm xs es ys fs) (h : x ∈ D → x ∈ D') :
    x ∈ ys ++ (xs ++ D) → x ∈ both xs es.length ys ++ D' := by
  simp only [List.mem_append, mem_both]
  rintro (h' | h' | h')
  · exact Or.inl (Or.inr h')
  · exact Or.inl (Or.inl h')
  · exact Or.inr (h h')

mutual
theorem pEx_scoped : ∀ (e : Ex) {e' : Ex} {D D' : List Nat}, PEx nm e e' → e.Scoped D → (∀ x, x ∈ D → x ∈ D') → e'.Scoped D'
  | .const _, _, _, _, h, hd, hx => by cases h; trivial
  | .var x, _, _, _, h, hd, hx => by cases h; exact hx _ hd
  | .dots, _, _, _, h, hd, hx => by cases h; trivial
  | .group e, _, _, _, h, hd, hx => by cases h with | group h => have := pEx_scoped e h hd hx; exact this
  | .un _ e, _, _, _, h, hd, hx => by cases h with | un _ h => have := pEx_scoped e h hd hx; exact this
  | .bin _ l r, _, _, _, h, hd, hx => by cases h with | bin _ h1 h2 => exact ⟨pEx_scoped l h1 hd.1 hx, pEx_scoped r h2 hd.2 hx⟩
  | .builtin _ es, _, _, _, h, hd, hx => by cases h with | builtin _ h => exact pEs_scoped es h hd hx
  | .call f es, _, _, _, h, hd, hx => by cases h with | call h1 h2 => exact ⟨pEx_scoped f h1 hd.1 hx, pEs_scoped es h2 hd.2 hx⟩
  | .index e k, _, _, _, h, hd, hx => by cases h with | index h1 h2 => exact ⟨pEx_scoped e h1 hd.1 hx, pEx_scoped k h2 hd.2 hx⟩
  | .op _ _ es, _, _, _, h, hd, hx => by cases h with | op _ _ h => exact pEs_scoped es h hd hx
  | .func ps _ b, _, _, _, h, hd, hx => by cases h with | func _ _ h => exact (pBl_scoped b h hd fun x => app_at (hx x)).1
theorem pEs_scoped : ∀ (es : List Ex) {es' : List Ex} {D D' : List Nat}, PEs nm es es' → ScopedEs D es → (∀ x, x ∈ D → x ∈ D') → ScopedEs D' es'
  | [], _, _, _, h, hd, hx => by cases h; trivial
  | e :: es, _, _, _, h, hd, hx => by cases h with | cons h1 h2 => exact ⟨pEx_scoped e h1 hd.1 hx, pEs_scoped es h2 hd.2 hx⟩
theorem pSt_scoped : ∀ (s : St) {s' : St} {D D' : List Nat}, PSt nm s s' → s.Scoped D → (∀ x, x ∈ D → x ∈ D') → s'.Scoped D'
  | .locals _ es, _, _, _, h, hd, hx => by cases h with | locals _ h => exact pEs_scoped es h hd hx
  | .localFn y ps _ b, _, _, _, h, hd, hx => by
    cases h with | localFn _ _ _ h => exact (pBl_scoped b h hd fun x => app_at (app_at (ps := [y]) (hx x))).1
  | .assign ts es, _, _, _, h, hd, hx => by cases h with | assign h1 h2 => exact ⟨pTs_scoped ts h1 hd.1 hx, pEs_scoped es h2 hd.2 hx⟩
  | .eval e, _, _, _, h, hd, hx => by cases h with | eval h => exact pEx_scoped e h hd hx
  | .ret es, _, _, _, h, hd, hx => by cases h with | ret h => exact pEs_scoped es h hd hx
  | .brk, _, _, _, h, hd, hx => by cases h; trivial
  | .doB b, _, _, _, h, hd, hx => by cases h with | doB h => exact (pBl_scoped b h hd hx).1
  | .whileS e b, _, _, _, h, hd, hx => by cases h with | whileS h1 h2 => exact ⟨pEx_scoped e h1 hd.1 hx, (pBl_scoped b h2 hd.2 hx).1⟩
  | .repeatS b e, _, _, _, h, hd, hx => by
    cases h with
    | repeatS h1 h2 =>
      obtain ⟨i1, i2⟩ := pBl_scoped b h1 hd.1 hx
      exact ⟨i1, pEx_scoped e h2 hd.2 i2⟩
  | .forNum y es b, _, _, _, h, hd, hx => by
    cases h with | forNum _ h1 h2 => exact ⟨pEs_scoped es h1 hd.1 hx, (pBl_scoped b h2 hd.2 fun x => app_at (ps := [y]) (hx x)).1⟩
  | .forIn _ es b, _, _, _, h, hd, hx => by
    cases h with | forIn _ h1 h2 => exact ⟨pEs_scoped es h1 hd.1 hx, (pBl_scoped b h2 hd.2 fun x => app_at (hx x)).1⟩
  | .ifS e t f, _, _, _, h, hd, hx => by
    cases h with | ifS h1 h2 h3 => exact ⟨pEx_scoped e h1 hd.1 hx, (pBl_scoped t h2 hd.2.1 hx).1, pEl_scoped f h3 hd.2.2 hx⟩
theorem pBl_scoped : ∀ (b : List St) {b' : List St} {D D' : List Nat}, PBl nm b b' → ScopedBl D b → (∀ x, x ∈ D → x ∈ D') →
    ScopedBl D' b' ∧ ∀ x, x ∈ scope D b → x ∈ scope D' b'
  | [], _, _, _, h, hd, hx => by cases h; exact ⟨trivial, hx⟩
  | s :: b, _, D, D', h, hd, hx => by
    cases h with
    | cons h1 h2 =>
      rename_i s' b'
      have h0 : s'.decls = s.decls := by cases h1 <;> rfl
      have i1 := pSt_scoped s h1 hd.1 hx
      obtain ⟨i2, i3⟩ := pBl_scoped b (D' := s.decls ++ D') h2 hd.2 (fun x => app_at (hx x))
      refine ⟨⟨i1, by rw [h0]; exact i2⟩, fun x hx' => ?_⟩
      have := i3 x hx'
      simp only [scope]
      rw [h0]
      exact this
    | @merge xs es ys fs es' fs' b2 b2' hm pe pf pb =>
      obtain ⟨d1, d2, d3⟩ := hd
      have i1 := pEs_scoped es pe d1 hx
      have i2 := pEs_scoped fs pf (scopedEs_at fs d2 (D' := D) fun x hx hd => ((List.mem_append.mp hd).resolve_left (hm.unused x hx))) hx
      obtain ⟨i3, i4⟩ := pBl_scoped b2 (D' := both xs es.length ys ++ D') pb d3 (fun x => both_scoped hm (hx x))
      exact ⟨⟨append_scoped i1 i2, i3⟩, i4⟩
theorem pEl_scoped : ∀ (f : El) {f' : El} {D D' : List Nat}, PEl nm f f' → f.Scoped D → (∀ x, x ∈ D → x ∈ D') → f'.Scoped D'
  | .none, _, _, _, h, hd, hx => by cases h; trivial
  | .else_ b, _, _, _, h, hd, hx => by cases h with | else_ h => exact (pBl_scoped b h hd hx).1
  | .elseif e t f, _, _, _, h, hd, hx => by
    cases h with | elseif h1 h2 h3 => exact ⟨pEx_scoped e h1 hd.1 hx, (pBl_scoped t h2 hd.2.1 hx).1, pEl_scoped f h3 hd.2.2 hx⟩
theorem pTg_scoped : ∀ (t : Tg) {t' : Tg} {D D' : List Nat}, PTg nm t t' → t.Scoped D → (∀ x, x ∈ D → x ∈ D') → t'.Scoped D'
  | .loc x, _, _, _, h, hd, hx => by cases h; exact hx _ hd
  | .put _ es, _, _, _, h, hd, hx => by cases h with | put _ h => exact pEs_scoped es h hd hx
theorem pTs_scoped : ∀ (ts : List Tg) {ts' : List Tg} {D D' : List Nat}, PTs nm ts ts' → ScopedTs D ts → (∀ x, x ∈ D → x ∈ D') → ScopedTs D' ts'
  | [], _, _, _, h, hd, hx => by cases h; trivial
  | t :: ts, _, _, _, h, hd, hx => by cases h with | cons h1 h2 => exact ⟨pTg_scoped t h1 hd.1 hx, pTs_scoped ts h2 hd.2 hx⟩
end

/-! ### Names -/

theorem means_app {ps D D' : List Nat} {x : Nat} (h : Means nm D x → Means nm D' x) : Means nm (ps ++ D) x → Means nm (ps ++ D') x := by
  unfold Means at *
  rw [List.find?_append, List.find?_append]
  cases ps.find? (fun y => decide (nm y = nm x)) with
  | none => simpa using h
  | some z => exact fun h => h

theorem inner_at {x : Nat} : ∀ (b : List St) {D D' : List Nat}, (Means nm D x → Means nm D' x) → Means nm (inner D b) x → Means nm (inner D' b) x
  | [], _, _, h, hx => h hx
  | _ :: b, _, _, h, hx => inner_at b (means_app h) hx

mutual
theorem namedEx_at : ∀ (e : Ex) {D D' : List Nat}, e.Named nm D → (∀ x ∈ e.uses, Means nm D x → Means nm D' x) → e.Named nm D'
  | .const _, _, _, _, _ => trivial
  | .var x, _, _, h, hu => hu x (by simp [Ex.uses]) h
  | .dots, _, _, _, _ => trivial
  | .group e, _, _, h, hu => namedEx_at e h hu
  | .un _ e, _, _, h, hu => namedEx_at e h hu
  | .bin _ l r, _, _, h, hu =>
    ⟨namedEx_at l h.1 fun x hx => hu x (List.mem_append_left _ hx), namedEx_at r h.2 fun x hx => hu x (List.mem_append_right _ hx)⟩
  | .builtin _ es, _, _, h, hu => namedEs_at es h hu
  | .call f es, _, _, h, hu =>
    ⟨namedEx_at f h.1 fun x hx => hu x (List.mem_append_left _ hx), namedEs_at es h.2 fun x hx => hu x (List.mem_append_right _ hx)⟩
  | .index e k, _, _, h, hu =>
    ⟨namedEx_at e h.1 fun x hx => hu x (List.mem_append_left _ hx), namedEx_at k h.2 fun x hx => hu x (List.mem_append_right _ hx)⟩
  | .op _ _ es, _, _, h, hu => namedEs_at es h hu
  | .func _ _ b, _, _, h, hu => namedBl_at b h fun x hx => means_app (hu x hx)
theorem namedEs_at : ∀ (es : List Ex) {D D' : List Nat}, NamedEs nm D es → (∀ x ∈ usesEs es, Means nm D x → Means nm D' x) → NamedEs nm D' es
  | [], _, _, _, _ => trivial
  | e :: es, _, _, h, hu =>
    ⟨namedEx_at e h.1 fun x hx => hu x (List.mem_append_left _ hx), namedEs_at es h.2 fun x hx => hu x (List.mem_append_right _ hx)⟩
theorem namedSt_at : ∀ (s : St) {D D' : List Nat}, s.Named nm D → (∀ x ∈ s.uses, Means nm D x → Means nm D' x) → s.Named nm D'
  | .locals _ es, _, _, h, hu => namedEs_at es h hu
  | .localFn x _ _ b, _, _, h, hu => namedBl_at b h fun y hy => means_app (means_app (ps := [x]) (hu y hy))
  | .assign ts es, _, _, h, hu =>
    ⟨namedTs_at ts h.1 fun x hx => hu x (List.mem_append_left _ hx), namedEs_at es h.2 fun x hx => hu x (List.mem_append_right _ hx)⟩
  | .eval e, _, _, h, hu => namedEx_at e h hu
  | .ret es, _, _, h, hu => namedEs_at es h hu
  | .brk, _, _, _, _ => trivial
  | .doB b, _, _, h, hu => namedBl_at b h hu
  | .whileS e b, _, _, h, hu =>
    ⟨namedEx_at e h.1 fun x hx => hu x (List.mem_append_left _ hx), namedBl_at b h.2 fun x hx => hu x (List.mem_append_right _ hx)⟩
  | .repeatS b e, _, _, h, hu =>
    ⟨namedBl_at b h.1 fun x hx => hu x (List.mem_append_left _ hx),
      namedEx_at e h.2 fun x hx => inner_at b (hu x (List.mem_append_right _ hx))⟩
  | .forNum y es b, _, _, h, hu =>
    ⟨namedEs_at es h.1 fun x hx => hu x (List.mem_append_left _ hx),
      namedBl_at b h.2 fun x hx => means_app (ps := [y]) (hu x (List.mem_append_right _ hx))⟩
  | .forIn _ es b, _, _, h, hu =>
    ⟨namedEs_at es h.1 fun x hx => hu x (List.mem_append_left _ hx),
      namedBl_at b h.2 fun x hx => means_app (hu x (List.mem_append_right _ hx))⟩
  | .ifS e t f, _, _, h, hu =>
    ⟨namedEx_at e h.1 fun x hx => hu x (List.mem_append_left _ (List.mem_append_left _ hx)),
      namedBl_at t h.2.1 fun x hx => hu x (List.mem_append_left _ (List.mem_append_right _ hx)),
      namedEl_at f h.2.2 fun x hx => hu x (List.mem_append_right _ hx)⟩
theorem namedBl_at : ∀ (b : List St) {D D' : List Nat}, NamedBl nm D b → (∀ x ∈ usesBl b, Means nm D x → Means nm D' x) → NamedBl nm D' b
  | [], _, _, _, _ => trivial
  | s :: b, _, _, h, hu =>
    ⟨namedSt_at s h.1 fun x hx => hu x (List.mem_append_left _ hx),
      namedBl_at b h.2 fun x hx => means_app (hu x (List.mem_append_right _ hx))⟩
theorem namedEl_at : ∀ (f : El) {D D' : List Nat}, f.Named nm D → (∀ x ∈ f.uses, Means nm D x → Means nm D' x) → f.Named nm D'
  | .none, _, _, _, _ => trivial
  | .else_ b, _, _, h, hu => namedBl_at b h hu
  | .elseif e t f, _, _, h, hu =>
    ⟨namedEx_at e h.1 fun x hx => hu x (List.mem_append_left _ (List.mem_append_left _ hx)),
      namedBl_at t h.2.1 fun x hx => hu x (List.mem_append_left _ (List.mem_append_right _ hx)),
      namedEl_at f h.2.2 fun x hx => hu x (List.mem_append_right _ hx)⟩
theorem namedTg_at : ∀ (t : Tg) {D D' : List Nat}, t.Named nm D → (∀ x ∈ t.uses, Means nm D x → Means nm D' x) → t.Named nm D'
  | .loc x, _, _, h, hu => hu x (by simp [Tg.uses]) h
  | .put _ es, _, _, h, hu => namedEs_at es h hu
theorem namedTs_at : ∀ (ts : List Tg) {D D' : List Nat}, NamedTs nm D ts → (∀ x ∈ usesTs ts, Means nm D x → Means nm D' x) → NamedTs nm D' ts
  | [], _, _, _, _ => trivial
  | t :: ts, _, _, h, hu =>
    ⟨namedTg_at t h.1 fun x hx => hu x (List.mem_append_left _ hx), namedTs_at ts h.2 fun x hx => hu x (List.mem_append_right _ hx)⟩
end

theorem append_named {D : List Nat} : ∀ {es fs : List Ex}, NamedEs nm D es → NamedEs nm D fs → NamedEs nm D (es ++ fs)
  | [], _, _, h => h
  | _ :: _, _, h, h' => ⟨h.1, append_named h.2 h'⟩

theorem drop_named {xs D : List Nat} {x : Nat} (hn : x ∉ xs) (h : Means nm (xs.reverse ++ D) x) : Means nm D x := by
  unfold Means at *
  rw [List.find?_append] at h
  cases hf : xs.reverse.find? (fun y => decide (nm y = nm x)) with
  | none => rw [hf] at h; simpa using h
  | some z =>
    rw [hf] at h
    simp only [Option.some_or, Option.some.injEq] at h
    subst h
    exact absurd (List.mem_reverse.mp (List.mem_of_find?_eq_some hf)) hn

theorem both_named {xs ys D D' : List Nat} {es fs : List Ex} {x : Nat} (hm : May nm xs es ys fs) (h : Means nm D x → Means nm D' x) :
    Means nm (ys.reverse ++ (xs.reverse ++ D)) x → Means nm ((both xs es.length ys).reverse ++ D') x := by
  have hs : xs.reverse = (xs.drop es.length).reverse ++ (xs.take es.length).reverse := by
    rw [← List.reverse_append, List.take_append_drop]
  unfold Means at *
  simp only [both, List.reverse_append, List.append_assoc, hs]
  simp only [List.find?_append]
  intro h1
  cases hy : ys.reverse.find? (fun y => decide (nm y = nm x)) with
  | some z =>
    rw [hy] at h1
    simp only [Option.some_or, Option.some.injEq] at h1
    subst h1
    have hz := List.mem_reverse.mp (List.mem_of_find?_eq_some hy)
    have hd : (xs.drop es.length).reverse.find? (fun y => decide (nm y = nm z)) = none := by
      rw [List.find?_eq_none]
      intro d hd
      simpa using hm.names d (List.mem_reverse.mp hd) z hz
    rw [hd]; rfl
  | none =>
    rw [hy] at h1
    simp only [Option.none_or] at h1 ⊢
    cases hd : (xs.drop es.length).reverse.find? (fun y => decide (nm y = nm x)) with
    | some z => rw [hd] at h1; exact h1
    | none =>
      rw [hd] at h1
      simp only [Option.none_or] at h1 ⊢
      cases ht : (xs.take es.length).reverse.find? (fun y => decide (nm y = nm x)) with
      | some z => rw [ht] at h1; exact h1
      | none => rw [ht] at h1; simpa using h (by simpa using h1)

mutual
theorem pEx_named : ∀ (e : Ex) {e' : Ex} {D D' : List Nat}, PEx nm e e' → e.Named nm D → (∀ x, Means nm D x → Means nm D' x) → e'.Named nm D'
  | .const _, _, _, _, h, hd, hx => by cases h; trivial
  | .var x, _, _, _, h, hd, hx => by cases h; exact hx _ hd
  | .dots, _, _, _, h, hd, hx => by cases h; trivial
  | .group e, _, _, _, h, hd, hx => by cases h with | group h => have := pEx_named e h hd hx; exact this
  | .un _ e, _, _, _, h, hd, hx => by cases h with | un _ h => have := pEx_named e h hd hx; exact this
  | .bin _ l r, _, _, _, h, hd, hx => by cases h with | bin _ h1 h2 => exact ⟨pEx_named l h1 hd.1 hx, pEx_named r h2 hd.2 hx⟩
  | .builtin _ es, _, _, _, h, hd, hx => by cases h with | builtin _ h => exact pEs_named es h hd hx
  | .call f es, _, _, _, h, hd, hx => by cases h with | call h1 h2 => exact ⟨pEx_named f h1 hd.1 hx, pEs_named es h2 hd.2 hx⟩
  | .index e k, _, _, _, h, hd, hx => by cases h with | index h1 h2 => exact ⟨pEx_named e h1 hd.1 hx, pEx_named k h2 hd.2 hx⟩
  | .op _ _ es, _, _, _, h, hd, hx => by cases h with | op _ _ h => exact pEs_named es h hd hx
  | .func ps _ b, _, _, _, h, hd, hx => by cases h with | func _ _ h => exact (pBl_named b h hd fun x => means_app (hx x)).1
theorem pEs_named : ∀ (es : List Ex) {es' : List Ex} {D D' : List Nat}, PEs nm es es' → NamedEs nm D es → (∀ x, Means nm D x → Means nm D' x) → NamedEs nm D' es'
  | [], _, _, _, h, hd, hx => by cases h; trivial
  | e :: es, _, _, _, h, hd, hx => by cases h with | cons h1 h2 => exact ⟨pEx_named e h1 hd.1 hx, pEs_named es h2 hd.2 hx⟩
theorem pSt_named : ∀ (s : St) {s' : St} {D D' : List Nat}, PSt nm s s' → s.Named nm D → (∀ x, Means nm D x → Means nm D' x) → s'.Named nm D'
  | .locals _ es, _, _, _, h, hd, hx => by cases h with | locals _ h => exact pEs_named es h hd hx
  | .localFn y ps _ b, _, _, _, h, hd, hx => by
    cases h with | localFn _ _ _ h => exact (pBl_named b h hd fun x => means_app (means_app (ps := [y]) (hx x))).1
  | .assign ts es, _, _, _, h, hd, hx => by cases h with | assign h1 h2 => exact ⟨pTs_named ts h1 hd.1 hx, pEs_named es h2 hd.2 hx⟩
  | .eval e, _, _, _, h, hd, hx => by cases h with | eval h => exact pEx_named e h hd hx
  | .ret es, _, _, _, h, hd, hx => by cases h with | ret h => exact pEs_named es h hd hx
  | .brk, _, _, _, h, hd, hx => by cases h; trivial
  | .doB b, _, _, _, h, hd, hx => by cases h with | doB h => exact (pBl_named b h hd hx).1
  | .whileS e b, _, _, _, h, hd, hx => by cases h with | whileS h1 h2 => exact ⟨pEx_named e h1 hd.1 hx, (pBl_named b h2 hd.2 hx).1⟩
  | .repeatS b e, _, _, _, h, hd, hx => by
    cases h with
    | repeatS h1 h2 =>
      obtain ⟨i1, i2⟩ := pBl_named b h1 hd.1 hx
      exact ⟨i1, pEx_named e h2 hd.2 i2⟩
  | .forNum y es b, _, _, _, h, hd, hx => by
    cases h with | forNum _ h1 h2 => exact ⟨pEs_named es h1 hd.1 hx, (pBl_named b h2 hd.2 fun x => means_app (ps := [y]) (hx x)).1⟩
  | .forIn _ es b, _, _, _, h, hd, hx => by
    cases h with | forIn _ h1 h2 => exact ⟨pEs_named es h1 hd.1 hx, (pBl_named b h2 hd.2 fun x => means_app (hx x)).1⟩
  | .ifS e t f, _, _, _, h, hd, hx => by
    cases h with | ifS h1 h2 h3 => exact ⟨pEx_named e h1 hd.1 hx, (pBl_named t h2 hd.2.1 hx).1, pEl_named f h3 hd.2.2 hx⟩
theorem pBl_named : ∀ (b : List St) {b' : List St} {D D' : List Nat}, PBl nm b b' → NamedBl nm D b → (∀ x, Means nm D x → Means nm D' x) →
    NamedBl nm D' b' ∧ ∀ x, Means nm (inner D b) x → Means nm (inner D' b') x
  | [], _, _, _, h, hd, hx => by cases h; exact ⟨trivial, hx⟩
  | s :: b, _, D, D', h, hd, hx => by
    cases h with
    | cons h1 h2 =>
      rename_i s' b'
      have h0 : s'.decls = s.decls := by cases h1 <;> rfl
      have i1 := pSt_named s h1 hd.1 hx
      obtain ⟨i2, i3⟩ := pBl_named b (D' := s.decls.reverse ++ D') h2 hd.2 (fun x => means_app (hx x))
      refine ⟨⟨i1, by rw [h0]; exact i2⟩, fun x hx' => ?_⟩
      have := i3 x hx'
      simp only [inner]
      rw [h0]
      exact this
    | @merge xs es ys fs es' fs' b2 b2' hm pe pf pb =>
      obtain ⟨d1, d2, d3⟩ := hd
      have i1 := pEs_named es pe d1 hx
      have i2 := pEs_named fs pf (namedEs_at fs d2 (D' := D) fun x hx hd => (drop_named (hm.unused x hx) hd)) hx
      obtain ⟨i3, i4⟩ := pBl_named b2 (D' := (both xs es.length ys).reverse ++ D') pb d3 (fun x => both_named hm (hx x))
      exact ⟨⟨append_named i1 i2, i3⟩, i4⟩
theorem pEl_named : ∀ (f : El) {f' : El} {D D' : List Nat}, PEl nm f f' → f.Named nm D → (∀ x, Means nm D x → Means nm D' x) → f'.Named nm D'
  | .none, _, _, _, h, hd, hx => by cases h; trivial
  | .else_ b, _, _, _, h, hd, hx => by cases h with | else_ h => exact (pBl_named b h hd hx).1
  | .elseif e t f, _, _, _, h, hd, hx => by
    cases h with | elseif h1 h2 h3 => exact ⟨pEx_named e h1 hd.1 hx, (pBl_named t h2 hd.2.1 hx).1, pEl_named f h3 hd.2.2 hx⟩
theorem pTg_named : ∀ (t : Tg) {t' : Tg} {D D' : List Nat}, PTg nm t t' → t.Named nm D → (∀ x, Means nm D x → Means nm D' x) → t'.Named nm D'
  | .loc x, _, _, _, h, hd, hx => by cases h; exact hx _ hd
  | .put _ es, _, _, _, h, hd, hx => by cases h with | put _ h => exact pEs_named es h hd hx
theorem pTs_named : ∀ (ts : List Tg) {ts' : List Tg} {D D' : List Nat}, PTs nm ts ts' → NamedTs nm D ts → (∀ x, Means nm D x → Means nm D' x) → NamedTs nm D' ts'
  | [], _, _, _, h, hd, hx => by cases h; trivial
  | t :: ts, _, _, _, h, hd, hx => by cases h with | cons h1 h2 => exact ⟨pTg_named t h1 hd.1 hx, pTs_named ts h2 hd.2 hx⟩
end

end Verif.Core.Mrg
