/-
`str.find` on lists of character codes.
-/
namespace Verif

/-- `text.find(pat)`; `none` stands for -1. -/
def findSub (pat : List Nat) : List Nat → Option Nat
  | [] => if pat = [] then some 0 else none
  | c :: cs => if pat.isPrefixOf (c :: cs) then some 0 else (findSub pat cs).map (· + 1)

/-- `text.find(pat, start)`, for a non-empty `pat`. -/
def findFrom (pat text : List Nat) (start : Nat) : Option Nat := (findSub pat (text.drop start)).map (· + start)

theorem findSub_some {pat : List Nat} : ∀ {s : List Nat} {i : Nat}, findSub pat s = some i →
    pat <+: s.drop i ∧ i ≤ s.length ∧ ∀ j < i, ¬ pat <+: s.drop j
  | [], i, h => by
    simp only [findSub] at h
    split at h
    · rename_i hp; cases h; subst hp; simp
    · cases h
  | c :: cs, i, h => by
    simp only [findSub] at h
    by_cases hp : pat.isPrefixOf (c :: cs) = true
    · rw [if_pos hp] at h; cases h
      refine ⟨by simpa using hp, by simp, by simp⟩
    · rw [if_neg hp] at h
      cases hf : findSub pat cs with
      | none => rw [hf] at h; cases h
      | some k =>
        rw [hf] at h; simp only [Option.map_some, Option.some.injEq] at h; subst h
        obtain ⟨h1, h2, h3⟩ := findSub_some hf
        refine ⟨by simpa using h1, by simp; omega, ?_⟩
        intro j hj
        cases j with
        | zero => simpa using hp
        | succ j => simpa using h3 j (by omega)

theorem findSub_none {pat : List Nat} : ∀ {s : List Nat}, findSub pat s = none → ∀ j, ¬ pat <+: s.drop j
  | [], h, j => by
    simp only [findSub] at h
    split at h
    · cases h
    · rename_i hp; simpa using hp
  | c :: cs, h, j => by
    simp only [findSub] at h
    by_cases hp : pat.isPrefixOf (c :: cs) = true
    · rw [if_pos hp] at h; cases h
    · rw [if_neg hp] at h
      cases hf : findSub pat cs with
      | some k => rw [hf] at h; cases h
      | none =>
        cases j with
        | zero => simpa using hp
        | succ j => simpa using findSub_none hf j

theorem findFrom_some {pat text : List Nat} {start i : Nat} (h : findFrom pat text start = some i) :
    start ≤ i ∧ pat <+: text.drop i ∧ ∀ j, start ≤ j → j < i → ¬ pat <+: text.drop j := by
  unfold findFrom at h
  cases hf : findSub pat (text.drop start) with
  | none => rw [hf] at h; cases h
  | some k =>
    rw [hf] at h; simp only [Option.map_some, Option.some.injEq] at h; subst h
    obtain ⟨h1, h2, h3⟩ := findSub_some hf
    refine ⟨by omega, by rw [List.drop_drop] at h1; rwa [Nat.add_comm] at h1, ?_⟩
    intro j h4 h5
    have := h3 (j - start) (by omega)
    rw [List.drop_drop] at this
    rwa [Nat.add_sub_of_le h4] at this

theorem findFrom_none {pat text : List Nat} {start : Nat} (h : findFrom pat text start = none) :
    ∀ j, start ≤ j → ¬ pat <+: text.drop j := by
  unfold findFrom at h
  cases hf : findSub pat (text.drop start) with
  | some k => rw [hf] at h; cases h
  | none =>
    intro j hj
    have := findSub_none hf (j - start)
    rw [List.drop_drop] at this
    rwa [Nat.add_sub_of_le hj] at this

theorem prefix_drop_len {pat text : List Nat} {i : Nat} (h : pat <+: text.drop i) (hp : pat ≠ []) : i + pat.length ≤ text.length := by
  have h1 := h.length_le
  rw [List.length_drop] at h1
  have h2 : 0 < pat.length := List.length_pos_iff.2 hp
  omega

end Verif
