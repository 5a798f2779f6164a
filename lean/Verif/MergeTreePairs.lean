import Verif.MergeTree
import Verif.CoreAlpha
import Verif.Spec.LuaStatic
import Mathlib.Data.List.Nodup
/-
Helpers for C80: the declarations of two programs that differ in numbers only, side by side.
-/
namespace Verif.Elab.Mt
open Core (declaredEs declaredBl declaredTs)

mutual
def kEx : Core.Ex → Core.Ex → List (Nat × Nat)
  | .group e, .group e' => kEx e e'
  | .un _ e, .un _ e' => kEx e e'
  | .bin _ l r, .bin _ l' r' => kEx l l' ++ kEx r r'
  | .builtin _ es, .builtin _ es' => kEs es es'
  | .call g es, .call g' es' => kEx g g' ++ kEs es es'
  | .index e k, .index e' k' => kEx e e' ++ kEx k k'
  | .op _ _ es, .op _ _ es' => kEs es es'
  | .func ps _ b, .func ps' _ b' => ps.zip ps' ++ kBl b b'
  | _, _ => []
def kEs : List Core.Ex → List Core.Ex → List (Nat × Nat)
  | e :: es, e' :: es' => kEx e e' ++ kEs es es'
  | _, _ => []
def kSt : Core.St → Core.St → List (Nat × Nat)
  | .locals xs es, .locals xs' es' => kEs es es' ++ xs.zip xs'
  | .localFn x ps _ b, .localFn x' ps' _ b' => (x, x') :: (ps.zip ps' ++ kBl b b')
  | .assign ts es, .assign ts' es' => kTs ts ts' ++ kEs es es'
  | .eval e, .eval e' => kEx e e'
  | .ret es, .ret es' => kEs es es'
  | .doB b, .doB b' => kBl b b'
  | .whileS e b, .whileS e' b' => kEx e e' ++ kBl b b'
  | .repeatS b e, .repeatS b' e' => kBl b b' ++ kEx e e'
  | .forNum x es b, .forNum x' es' b' => kEs es es' ++ (x, x') :: kBl b b'
  | .forIn xs es b, .forIn xs' es' b' => kEs es es' ++ (xs.zip xs' ++ kBl b b')
  | .ifS e t g, .ifS e' t' g' => kEx e e' ++ (kBl t t' ++ kEl g g')
  | _, _ => []
def kBl : List Core.St → List Core.St → List (Nat × Nat)
  | s :: b, s' :: b' => kSt s s' ++ kBl b b'
  | _, _ => []
def kEl : Core.El → Core.El → List (Nat × Nat)
  | .else_ b, .else_ b' => kBl b b'
  | .elseif e t g, .elseif e' t' g' => kEx e e' ++ (kBl t t' ++ kEl g g')
  | _, _ => []
def kTg : Core.Tg → Core.Tg → List (Nat × Nat)
  | .put _ es, .put _ es' => kEs es es'
  | _, _ => []
def kTs : List Core.Tg → List Core.Tg → List (Nat × Nat)
  | t :: ts, t' :: ts' => kTg t t' ++ kTs ts ts'
  | _, _ => []
end

theorem zip_fst : ∀ xs ys : List Nat, ((xs.zip ys).map (·.1)).Sublist xs
  | [], _ => by simp
  | _ :: _, [] => by simp
  | x :: xs, y :: ys => by simpa using zip_fst xs ys

theorem zip_snd : ∀ xs ys : List Nat, ((xs.zip ys).map (·.2)).Sublist ys
  | [], _ => by simp
  | _ :: _, [] => by simp
  | x :: xs, y :: ys => by simpa using zip_snd xs ys

mutual
theorem fEx : ∀ e e' : Core.Ex, ((kEx e e').map (·.1)).Sublist e.declared
  | .const _, e' => by cases e' <;> simp only [kEx, List.map_nil, List.nil_sublist]
  | .var _, e' => by cases e' <;> simp only [kEx, List.map_nil, List.nil_sublist]
  | .dots, e' => by cases e' <;> simp only [kEx, List.map_nil, List.nil_sublist]
  | .group e, e' => by cases e' <;> simp only [kEx, List.map_nil, List.nil_sublist]; exact fEx e _
  | .un _ e, e' => by cases e' <;> simp only [kEx, List.map_nil, List.nil_sublist]; exact fEx e _
  | .bin _ l r, e' => by cases e' <;> simp only [kEx, List.map_nil, List.nil_sublist, List.map_append]; exact (fEx l _).append (fEx r _)
  | .builtin _ es, e' => by cases e' <;> simp only [kEx, List.map_nil, List.nil_sublist]; exact fEs es _
  | .call g es, e' => by cases e' <;> simp only [kEx, List.map_nil, List.nil_sublist, List.map_append]; exact (fEx g _).append (fEs es _)
  | .index e k, e' => by cases e' <;> simp only [kEx, List.map_nil, List.nil_sublist, List.map_append]; exact (fEx e _).append (fEx k _)
  | .op _ _ es, e' => by cases e' <;> simp only [kEx, List.map_nil, List.nil_sublist]; exact fEs es _
  | .func ps _ b, e' => by cases e' <;> simp only [kEx, List.map_nil, List.nil_sublist, List.map_append]; exact (zip_fst ps _).append (fBl b _)
theorem fEs : ∀ e e' : List Core.Ex, ((kEs e e').map (·.1)).Sublist (declaredEs e)
  | [], e' => by cases e' <;> simp only [kEs, List.map_nil, List.nil_sublist]
  | e :: es, e' => by cases e' <;> simp only [kEs, List.map_nil, List.nil_sublist, List.map_append]; exact (fEx e _).append (fEs es _)
theorem fSt : ∀ e e' : Core.St, ((kSt e e').map (·.1)).Sublist e.declared
  | .locals xs es, e' => by cases e' <;> simp only [kSt, List.map_nil, List.nil_sublist, List.map_append]; exact (fEs es _).append (zip_fst xs _)
  | .localFn x ps _ b, e' => by
    cases e' <;> simp only [kSt, List.map_nil, List.nil_sublist, List.map_append, List.map_cons]
    exact ((zip_fst ps _).append (fBl b _)).cons_cons x
  | .assign ts es, e' => by cases e' <;> simp only [kSt, List.map_nil, List.nil_sublist, List.map_append]; exact (fTs ts _).append (fEs es _)
  | .eval e, e' => by cases e' <;> simp only [kSt, List.map_nil, List.nil_sublist]; exact fEx e _
  | .ret es, e' => by cases e' <;> simp only [kSt, List.map_nil, List.nil_sublist]; exact fEs es _
  | .brk, e' => by cases e' <;> simp only [kSt, List.map_nil, List.nil_sublist]
  | .doB b, e' => by cases e' <;> simp only [kSt, List.map_nil, List.nil_sublist]; exact fBl b _
  | .whileS e b, e' => by cases e' <;> simp only [kSt, List.map_nil, List.nil_sublist, List.map_append]; exact (fEx e _).append (fBl b _)
  | .repeatS b e, e' => by cases e' <;> simp only [kSt, List.map_nil, List.nil_sublist, List.map_append]; exact (fBl b _).append (fEx e _)
  | .forNum x es b, e' => by
    cases e' <;> simp only [kSt, List.map_nil, List.nil_sublist, List.map_append, List.map_cons]
    exact (fEs es _).append ((fBl b _).cons_cons x)
  | .forIn xs es b, e' => by
    cases e' <;> simp only [kSt, List.map_nil, List.nil_sublist, List.map_append]
    simp only [Core.St.declared, List.append_assoc]
    exact (fEs es _).append ((zip_fst xs _).append (fBl b _))
  | .ifS e t g, e' => by
    cases e' <;> simp only [kSt, List.map_nil, List.nil_sublist, List.map_append]
    simp only [Core.St.declared, List.append_assoc]
    exact (fEx e _).append ((fBl t _).append (fEl g _))
theorem fBl : ∀ e e' : List Core.St, ((kBl e e').map (·.1)).Sublist (declaredBl e)
  | [], e' => by cases e' <;> simp only [kBl, List.map_nil, List.nil_sublist]
  | s :: b, e' => by cases e' <;> simp only [kBl, List.map_nil, List.nil_sublist, List.map_append]; exact (fSt s _).append (fBl b _)
theorem fEl : ∀ e e' : Core.El, ((kEl e e').map (·.1)).Sublist e.declared
  | .none, e' => by cases e' <;> simp only [kEl, List.map_nil, List.nil_sublist]
  | .else_ b, e' => by cases e' <;> simp only [kEl, List.map_nil, List.nil_sublist]; exact fBl b _
  | .elseif e t g, e' => by
    cases e' <;> simp only [kEl, List.map_nil, List.nil_sublist, List.map_append]
    simp only [Core.El.declared, List.append_assoc]
    exact (fEx e _).append ((fBl t _).append (fEl g _))
theorem fTg : ∀ e e' : Core.Tg, ((kTg e e').map (·.1)).Sublist e.declared
  | .loc _, e' => by cases e' <;> simp only [kTg, List.map_nil, List.nil_sublist]
  | .put _ es, e' => by cases e' <;> simp only [kTg, List.map_nil, List.nil_sublist]; exact fEs es _
theorem fTs : ∀ e e' : List Core.Tg, ((kTs e e').map (·.1)).Sublist (declaredTs e)
  | [], e' => by cases e' <;> simp only [kTs, List.map_nil, List.nil_sublist]
  | t :: ts, e' => by cases e' <;> simp only [kTs, List.map_nil, List.nil_sublist, List.map_append]; exact (fTg t _).append (fTs ts _)
end

mutual
theorem gEx : ∀ e e' : Core.Ex, ((kEx e e').map (·.2)).Sublist e'.declared
  | .const _, e' => by cases e' <;> simp only [kEx, List.map_nil, List.nil_sublist]
  | .var _, e' => by cases e' <;> simp only [kEx, List.map_nil, List.nil_sublist]
  | .dots, e' => by cases e' <;> simp only [kEx, List.map_nil, List.nil_sublist]
  | .group e, e' => by cases e' <;> simp only [kEx, List.map_nil, List.nil_sublist]; exact gEx e _
  | .un _ e, e' => by cases e' <;> simp only [kEx, List.map_nil, List.nil_sublist]; exact gEx e _
  | .bin _ l r, e' => by cases e' <;> simp only [kEx, List.map_nil, List.nil_sublist, List.map_append]; exact (gEx l _).append (gEx r _)
  | .builtin _ es, e' => by cases e' <;> simp only [kEx, List.map_nil, List.nil_sublist]; exact gEs es _
  | .call g es, e' => by cases e' <;> simp only [kEx, List.map_nil, List.nil_sublist, List.map_append]; exact (gEx g _).append (gEs es _)
  | .index e k, e' => by cases e' <;> simp only [kEx, List.map_nil, List.nil_sublist, List.map_append]; exact (gEx e _).append (gEx k _)
  | .op _ _ es, e' => by cases e' <;> simp only [kEx, List.map_nil, List.nil_sublist]; exact gEs es _
  | .func ps _ b, e' => by cases e' <;> simp only [kEx, List.map_nil, List.nil_sublist, List.map_append]; exact (zip_snd ps _).append (gBl b _)
theorem gEs : ∀ e e' : List Core.Ex, ((kEs e e').map (·.2)).Sublist (declaredEs e')
  | [], e' => by cases e' <;> simp only [kEs, List.map_nil, List.nil_sublist]
  | e :: es, e' => by cases e' <;> simp only [kEs, List.map_nil, List.nil_sublist, List.map_append]; exact (gEx e _).append (gEs es _)
theorem gSt : ∀ e e' : Core.St, ((kSt e e').map (·.2)).Sublist e'.declared
  | .locals xs es, e' => by cases e' <;> simp only [kSt, List.map_nil, List.nil_sublist, List.map_append]; exact (gEs es _).append (zip_snd xs _)
  | .localFn x ps _ b, e' => by
    cases e' <;> simp only [kSt, List.map_nil, List.nil_sublist, List.map_append, List.map_cons]
    exact ((zip_snd ps _).append (gBl b _)).cons_cons _
  | .assign ts es, e' => by cases e' <;> simp only [kSt, List.map_nil, List.nil_sublist, List.map_append]; exact (gTs ts _).append (gEs es _)
  | .eval e, e' => by cases e' <;> simp only [kSt, List.map_nil, List.nil_sublist]; exact gEx e _
  | .ret es, e' => by cases e' <;> simp only [kSt, List.map_nil, List.nil_sublist]; exact gEs es _
  | .brk, e' => by cases e' <;> simp only [kSt, List.map_nil, List.nil_sublist]
  | .doB b, e' => by cases e' <;> simp only [kSt, List.map_nil, List.nil_sublist]; exact gBl b _
  | .whileS e b, e' => by cases e' <;> simp only [kSt, List.map_nil, List.nil_sublist, List.map_append]; exact (gEx e _).append (gBl b _)
  | .repeatS b e, e' => by cases e' <;> simp only [kSt, List.map_nil, List.nil_sublist, List.map_append]; exact (gBl b _).append (gEx e _)
  | .forNum x es b, e' => by
    cases e' <;> simp only [kSt, List.map_nil, List.nil_sublist, List.map_append, List.map_cons]
    exact (gEs es _).append ((gBl b _).cons_cons _)
  | .forIn xs es b, e' => by
    cases e' <;> simp only [kSt, List.map_nil, List.nil_sublist, List.map_append]
    simp only [Core.St.declared, List.append_assoc]
    exact (gEs es _).append ((zip_snd xs _).append (gBl b _))
  | .ifS e t g, e' => by
    cases e' <;> simp only [kSt, List.map_nil, List.nil_sublist, List.map_append]
    simp only [Core.St.declared, List.append_assoc]
    exact (gEx e _).append ((gBl t _).append (gEl g _))
theorem gBl : ∀ e e' : List Core.St, ((kBl e e').map (·.2)).Sublist (declaredBl e')
  | [], e' => by cases e' <;> simp only [kBl, List.map_nil, List.nil_sublist]
  | s :: b, e' => by cases e' <;> simp only [kBl, List.map_nil, List.nil_sublist, List.map_append]; exact (gSt s _).append (gBl b _)
theorem gEl : ∀ e e' : Core.El, ((kEl e e').map (·.2)).Sublist e'.declared
  | .none, e' => by cases e' <;> simp only [kEl, List.map_nil, List.nil_sublist]
  | .else_ b, e' => by cases e' <;> simp only [kEl, List.map_nil, List.nil_sublist]; exact gBl b _
  | .elseif e t g, e' => by
    cases e' <;> simp only [kEl, List.map_nil, List.nil_sublist, List.map_append]
    simp only [Core.El.declared, List.append_assoc]
    exact (gEx e _).append ((gBl t _).append (gEl g _))
theorem gTg : ∀ e e' : Core.Tg, ((kTg e e').map (·.2)).Sublist e'.declared
  | .loc _, e' => by cases e' <;> simp only [kTg, List.map_nil, List.nil_sublist]
  | .put _ es, e' => by cases e' <;> simp only [kTg, List.map_nil, List.nil_sublist]; exact gEs es _
theorem gTs : ∀ e e' : List Core.Tg, ((kTs e e').map (·.2)).Sublist (declaredTs e')
  | [], e' => by cases e' <;> simp only [kTs, List.map_nil, List.nil_sublist]
  | t :: ts, e' => by cases e' <;> simp only [kTs, List.map_nil, List.nil_sublist, List.map_append]; exact (gTg t _).append (gTs ts _)
end

/-- The numbers `f` gives are those of the second program. -/
def Keeps (f : Nat → Nat) (l : List (Nat × Nat)) : Prop := ∀ p ∈ l, f p.1 = p.2

variable {f : Nat → Nat}

theorem Keeps.left {a b : List (Nat × Nat)} (h : Keeps f (a ++ b)) : Keeps f a := fun p hp => h p (List.mem_append_left _ hp)
theorem Keeps.right {a b : List (Nat × Nat)} (h : Keeps f (a ++ b)) : Keeps f b := fun p hp => h p (List.mem_append_right _ hp)
theorem Keeps.head {p : Nat × Nat} {b : List (Nat × Nat)} (h : Keeps f (p :: b)) : f p.1 = p.2 := h p (by simp)
theorem Keeps.tail {p : Nat × Nat} {b : List (Nat × Nat)} (h : Keeps f (p :: b)) : Keeps f b := fun q hq => h q (by simp [hq])

theorem Keeps.zip : ∀ {xs ys : List Nat}, Keeps f (xs.zip ys) → xs.length = ys.length → ys = xs.map f
  | [], [], _, _ => rfl
  | [], _ :: _, _, h => by simp at h
  | _ :: _, [], _, h => by simp at h
  | x :: xs, y :: ys, hk, h => by
    rw [List.zip_cons_cons] at hk
    simp only [List.map_cons]
    rw [show f x = y from hk.head, ← Keeps.zip hk.tail (by simpa using h)]

/-- New numbers can be given to all variables: different ones to different ones, and those below `g` keep theirs. -/
theorem exists_ren (g : Nat) (l : List (Nat × Nat)) (h1 : (l.map (·.1)).Nodup) (h2 : (l.map (·.2)).Nodup) (h3 : ∀ p ∈ l, g ≤ p.1) (h4 : ∀ p ∈ l, g ≤ p.2) :
    ∃ f : Nat → Nat, (∀ x y, f x = f y → x = y) ∧ (∀ x, x < g → f x = x) ∧ (∀ x, g ≤ x → g ≤ f x) ∧ Keeps f l := by
  obtain ⟨M, hM⟩ : ∃ M, g ≤ M ∧ ∀ p ∈ l, p.2 < M := by
    clear h1 h2 h3 h4
    induction l with
    | nil => exact ⟨g, Nat.le_refl _, by simp⟩
    | cons p l ih =>
      obtain ⟨M, h1, h2⟩ := ih
      refine ⟨max M (p.2 + 1), by omega, fun q hq => ?_⟩
      rcases List.mem_cons.1 hq with rfl | hq
      · omega
      · have := h2 q hq; omega
  have key : ∀ x y, l.lookup x = some y → (x, y) ∈ l := by
    intro x y h
    clear h1 h2 h3 h4 hM
    induction l with
    | nil => simp at h
    | cons p l ih =>
      rw [List.lookup_cons] at h
      by_cases e : (x == p.1) = true
      · rw [e] at h
        simp only [Option.some.injEq] at h
        have : x = p.1 := by simpa using e
        subst this; subst h
        simp
      · rw [Bool.not_eq_true] at e
        rw [e] at h
        exact List.mem_cons_of_mem _ (ih h)
  have found : ∀ p ∈ l, l.lookup p.1 = some p.2 := by
    clear h2 h3 h4 hM key
    induction l with
    | nil => simp
    | cons q l ih =>
      intro p hp
      simp only [List.map_cons, List.nodup_cons] at h1
      rw [List.lookup_cons]
      rcases List.mem_cons.1 hp with rfl | hp
      · simp
      · have : (p.1 == q.1) = false := by
          simp only [beq_eq_false_iff_ne, ne_eq]
          exact fun e => h1.1 (e ▸ List.mem_map_of_mem hp)
        rw [this]
        exact ih h1.2 p hp
  have inj2 : ∀ p ∈ l, ∀ q ∈ l, p.2 = q.2 → p = q := fun p hp q hq e => List.inj_on_of_nodup_map h2 hp hq e
  let f : Nat → Nat := fun x => if x < g then x else match l.lookup x with | some y => y | none => x + M
  have fl : ∀ x, x < g → f x = x := fun x hx => if_pos hx
  have fs : ∀ x y, ¬x < g → l.lookup x = some y → f x = y := fun x y hx h => by simp only [f, if_neg hx, h]
  have fn : ∀ x, ¬x < g → l.lookup x = none → f x = x + M := fun x hx h => by simp only [f, if_neg hx, h]
  have fg : ∀ x, g ≤ x → g ≤ f x := by
    intro x hx
    cases e : l.lookup x with
    | some y => rw [fs x y (by omega) e]; exact h4 _ (key x y e)
    | none => rw [fn x (by omega) e]; omega
  refine ⟨f, fun x y h => ?_, fl, fg, fun p hp => fs _ _ (by have := h3 p hp; omega) (found p hp)⟩
  by_cases hx : x < g
  · by_cases hy : y < g
    · rwa [fl x hx, fl y hy] at h
    · have := fg y (by omega); rw [← h, fl x hx] at this; omega
  · by_cases hy : y < g
    · have := fg x (by omega); rw [h, fl y hy] at this; omega
    · cases ex : l.lookup x with
      | some a =>
        rw [fs x a hx ex] at h
        cases ey : l.lookup y with
        | some b =>
          rw [fs y b hy ey] at h
          exact congrArg (·.1) (inj2 _ (key x a ex) _ (key y b ey) h)
        | none =>
          rw [fn y hy ey] at h
          have := hM.2 _ (key x a ex); simp only at this; omega
      | none =>
        rw [fn x hx ex] at h
        cases ey : l.lookup y with
        | some b =>
          rw [fs y b hy ey] at h
          have := hM.2 _ (key y b ey); simp only at this; omega
        | none => rw [fn y hy ey] at h; omega

end Verif.Elab.Mt
