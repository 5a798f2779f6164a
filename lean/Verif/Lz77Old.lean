import Verif.Lz77Inv
/-! The legacy writer's needs: with the legacy cost function a back-reference of one character is never chosen. -/
namespace Verif
variable {κ : Type}

/-- A back-reference has at least two characters. -/
def C2 : Item → Prop
  | .str _ => True
  | .mat _ c => 2 ≤ c

def PathC2 (a : Advance κ) : Prop := ∀ x ∈ a.path, C2 x.2

theorem addAdvance_cheap {p : LzParams κ} (hp : p.minCost = none) (new : Advance κ) (advs : List (Advance κ)) :
    ∃ a ∈ addAdvance p new advs, a.cost ≤ new.cost := by
  induction advs with
  | nil => exact ⟨new, by simp [addAdvance], Int.le_refl _⟩
  | cons adv rest ih =>
    unfold addAdvance
    split
    · split
      · rename_i h
        simp only [notWorth, hp, List.any_eq_true, decide_eq_true_eq] at h
        exact h
      · split
        · exact ⟨new, by simp, Int.le_refl _⟩
        · exact ⟨new, by simp, Int.le_refl _⟩
    · obtain ⟨a, h1, h2⟩ := ih
      exact ⟨a, by simp [h1], h2⟩

theorem addAdvance_reject {p : LzParams κ} (hp : p.minCost = none) {i : Nat} {new : Advance κ} (hn : new.nextI = i + 1)
    {advs : List (Advance κ)} (hs : Sorted i advs) (h : ∃ a ∈ advs, a.cost ≤ new.cost) : addAdvance p new advs = advs := by
  cases advs with
  | nil => simp at h
  | cons adv rest =>
    have := hs.1 adv (by simp)
    unfold addAdvance
    rw [if_pos (by omega), if_pos]
    simp only [notWorth, hp, List.any_eq_true, decide_eq_true_eq]
    exact h

/-- Invariant of the legacy run. -/
structure OInv (s : LzState Unit) : Prop where
  out : ∀ x ∈ s.out, C2 x.2
  adv : ∀ a ∈ s.advances, PathC2 a
  curr : ∀ a, s.curr = some a → PathC2 a

theorem currPath_c2 {s : LzState Unit} (h : OInv s) : ∀ x ∈ currPath s.curr, C2 x.2 := by
  cases hc : s.curr with
  | none => simp [currPath]
  | some a => exact h.curr a hc

theorem offerAll_c2 (inTable : Nat → Bool) {code : List Nat} {s : LzState Unit} (ch : Nat) (ht : TInv s) (h : OInv s) :
    ∀ a ∈ (offerAll (oldParams inTable false) (oldMeasure inTable s.out) code s ch).2, PathC2 a := by
  have hmc : (oldParams inTable false).minCost = none := rfl
  have hpath := currPath_c2 h
  have hlit : ∀ a ∈ offer (oldParams inTable false) (oldMeasure inTable s.out) s.i s.curr 1 (.str [ch]) s.advances,
      PathC2 a := by
    unfold offer
    apply addAdvance_ok _ _ _ h.adv
    intro x hx
    rcases List.mem_cons.mp hx with h1 | h1
    · subst h1; trivial
    · exact hpath x h1
  have hsort := offer_sorted (p := oldParams inTable false) (measure := oldMeasure inTable s.out) (curr := s.curr)
    (item := .str [ch]) (c := 1) (by omega) ht.sorted
  unfold offerAll
  simp only
  split
  · rename_i c j hr
    have e : (oldParams inTable false).maxOSteps = [] := rfl
    have e2 : (oldParams inTable false).cheaperC = none := rfl
    simp only [e, offerSteps, offerMatch, e2]
    cases c with
    | zero =>
      unfold offer at *
      rw [addAdvance_reject hmc (i := s.i) (by simp) hsort]
      · exact hlit
      · obtain ⟨a, h1, h2⟩ := addAdvance_cheap hmc _ s.advances
        refine ⟨a, h1, Int.le_trans h2 ?_⟩
        simp only [oldMeasure]
        split <;> omega
    | succ c =>
      conv => intro a; rw [offer]
      apply addAdvance_ok _ _ _ hlit
      intro x hx
      rcases List.mem_cons.mp hx with h1 | h1
      · subst h1; simp [C2]
      · exact hpath x h1
  · exact hlit

theorem lzStep_c2 (inTable : Nat → Bool) {code : List Nat} {s s' : LzState Unit} (ht : TInv s) (h : OInv s)
    (hs : lzStep (oldParams inTable false) code s = some s') : OInv s' := by
  unfold lzStep at hs
  by_cases hb : s.i ≥ s.nextBlock
  · rw [if_pos hb] at hs
    simp at hs; subst hs
    refine ⟨?_, ?_, by simp [finishStep, blockStep]⟩
    · intro x hx
      simp only [finishStep, blockStep, List.mem_append, List.mem_singleton] at hx
      rcases hx with h1 | h1
      · cases hc : s.curr with
        | none => rw [hc] at h1; exact h.out x h1
        | some a =>
          rw [hc] at h1
          simp only [List.mem_append, List.mem_reverse] at h1
          rcases h1 with h2 | h2
          · exact h.out x h2
          · exact h.curr a hc x h2
      · subst h1; trivial
    · intro a ha
      cases hc : s.curr with
      | none => simp [finishStep, blockStep, hc, ht.none_nil hc] at ha
      | some a' => simp [finishStep, blockStep, hc] at ha
  · rw [if_neg hb] at hs
    have e : (oldParams inTable false).measure = some (oldMeasure inTable) := rfl
    simp only [e] at hs
    cases hr : measuredStep (oldParams inTable false) (oldMeasure inTable s.out) code s with
    | none => simp [hr] at hs
    | some r =>
      obtain ⟨r, bc⟩ := r
      simp [hr] at hs; subst hs
      unfold measuredStep at hr
      split at hr
      · simp at hr
      · rename_i ch _
        have hall := offerAll_c2 inTable (code := code) ch ht h
        simp only at hr
        split at hr
        · simp at hr
        · rename_i adv rest hadv
          rw [hadv] at hall
          have h1 := hall adv (by simp)
          have h2 : ∀ a ∈ rest, PathC2 a := fun a ha => hall a (by simp [ha])
          simp at hr
          obtain ⟨hr, _⟩ := hr
          split at hr
          · subst hr
            refine ⟨?_, h2, by simp [finishStep]⟩
            intro x hx
            simp only [finishStep, List.mem_append, List.mem_reverse] at hx
            rcases hx with h3 | h3
            · exact h.out x h3
            · exact h1 x h3
          · subst hr
            refine ⟨h.out, h2, ?_⟩
            intro a ha
            simp [finishStep] at ha
            subst ha; exact h1

theorem lzLoop_c2 (inTable : Nat → Bool) {code : List Nat} {fuel : Nat} {s : LzState Unit} {out : List (Nat × Item)}
    (hp : PInv (oldParams inTable false) s) (h : OInv s)
    (hs : lzLoop (oldParams inTable false) code fuel s = some out) : ∀ x ∈ out, C2 x.2 := by
  induction fuel generalizing s with
  | zero =>
    unfold lzLoop at hs
    split at hs
    · simp at hs
    · split at hs
      · simp at hs
      · simp at hs; subst hs; exact h.out
  | succ fuel ih =>
    unfold lzLoop at hs
    split at hs
    · rename_i hi
      obtain ⟨s', h1, h2, _⟩ := lzStep_progress (show 1 ≤ (oldParams inTable false).minC by simp [oldParams]) (code := code) hp hi
      rw [h1] at hs
      exact ih h2 (lzStep_c2 inTable hp.t h h1) hs
    · split at hs
      · simp at hs
      · simp at hs; subst hs; exact h.out

end Verif
