import Verif.Text
namespace Verif

theorem splitNl_ne_nil (s : List Nat) : splitNl s ≠ [] := by
  cases s with
  | nil => simp [splitNl]
  | cons c cs =>
    rw [splitNl]
    split
    · simp
    · split <;> simp

theorem splitNl_append (a b : List Nat) : splitNl (a ++ 10 :: b) = splitNl a ++ splitNl b := by
  induction a with
  | nil => simp [splitNl]
  | cons c a ih =>
    rw [List.cons_append, splitNl, splitNl, ih]
    split
    · simp
    · cases h : splitNl a with
      | nil => exact absurd h (splitNl_ne_nil a)
      | cons l ls => simp

theorem splitNl_simple {l : List Nat} (h : 10 ∉ l) : splitNl l = [l] := by
  induction l with
  | nil => rfl
  | cons c l ih =>
    simp only [List.mem_cons, not_or] at h
    rw [splitNl, if_neg (by omega), ih h.2]

theorem splitNl_joinNl {ls : List (List Nat)} (h : ls ≠ []) : splitNl (joinNl ls) = ls.flatMap splitNl := by
  induction ls with
  | nil => contradiction
  | cons l ls ih =>
    cases ls with
    | nil => simp [joinNl]
    | cons l' ls =>
      rw [joinNl, splitNl_append, ih (by simp)]
      simp

theorem joinNl_cons {l : List Nat} {ls : List (List Nat)} (h : ls ≠ []) : joinNl (l :: ls) = l ++ 10 :: joinNl ls := by
  cases ls with
  | nil => contradiction
  | cons => rfl

theorem joinNl_splitNl (s : List Nat) : joinNl (splitNl s) = s := by
  induction s with
  | nil => rfl
  | cons c s ih =>
    rw [splitNl]
    split
    · rename_i hc; subst hc
      rw [joinNl_cons (splitNl_ne_nil s), ih]; rfl
    · cases h : splitNl s with
      | nil => exact absurd h (splitNl_ne_nil s)
      | cons l ls =>
        simp only
        rw [h] at ih
        cases ls with
        | nil => simp [joinNl] at ih ⊢; exact ih
        | cons l' ls => simp [joinNl] at ih ⊢; exact ih

theorem splitNl_no_nl (s : List Nat) : ∀ l ∈ splitNl s, 10 ∉ l := by
  induction s with
  | nil => simp [splitNl]
  | cons c s ih =>
    rw [splitNl]
    split
    · intro l hl
      rcases List.mem_cons.mp hl with e | e
      · subst e; simp
      · exact ih l e
    · rename_i hc
      cases h : splitNl s with
      | nil => exact absurd h (splitNl_ne_nil s)
      | cons l0 ls =>
        rw [h] at ih
        intro l hl
        rcases List.mem_cons.mp hl with e | e
        · subst e
          simp only [List.mem_cons, not_or]
          exact ⟨by omega, ih l0 (by simp)⟩
        · exact ih l (by simp [e])

/-- Splitting what was joined: line by line. -/
theorem p8SplitLines_join {ls : List (List Nat)} (h : ls ≠ []) :
    p8SplitLines (joinNl ls ++ [10]) = ls.flatMap fun l => (splitNl l).map dropCr := by
  unfold p8SplitLines
  rw [splitNl_append, splitNl_joinNl h]
  simp [splitNl, List.map_flatMap]

theorem dropWhile_cons_of_neg' {p : Nat → Bool} {a : Nat} {l : List Nat} (h : p a = false) :
    (a :: l).dropWhile p = a :: l := by simp [List.dropWhile, h]

/-- Text that neither begins nor ends with white space. -/
theorem pyStrip_tight {l : List Nat} (h1 : ∀ a, l.head? = some a → pyIsSpace a = false)
    (h2 : ∀ a, l.getLast? = some a → pyIsSpace a = false) : pyStrip l = l := by
  have e1 : l.dropWhile pyIsSpace = l := by
    cases l with
    | nil => rfl
    | cons a l => exact dropWhile_cons_of_neg' (h1 a rfl)
  unfold pyStrip pyRstrip
  rw [e1]
  have e2 : l.reverse.dropWhile pyIsSpace = l.reverse := by
    cases hr : l.reverse with
    | nil => rfl
    | cons a r =>
      refine dropWhile_cons_of_neg' (h2 a ?_)
      have : l = (a :: r).reverse := by rw [← hr, List.reverse_reverse]
      rw [this]; simp
  rw [e2, List.reverse_reverse]

theorem dropWhile_split {p : Nat → Bool} (l : List Nat) : ∃ w, l = w ++ l.dropWhile p ∧ ∀ a ∈ w, p a = true := by
  refine ⟨l.takeWhile p, (List.takeWhile_append_dropWhile).symm, ?_⟩
  intro a ha
  have := List.all_takeWhile (p := p) (l := l)
  rw [List.all_eq_true] at this
  exact this a ha

theorem pyRstrip_split (l : List Nat) : ∃ w, l = pyRstrip l ++ w ∧ ∀ a ∈ w, pyIsSpace a = true := by
  obtain ⟨w, h1, h2⟩ := dropWhile_split (p := pyIsSpace) l.reverse
  refine ⟨w.reverse, ?_, by simpa using h2⟩
  unfold pyRstrip
  rw [← List.reverse_append, ← h1, List.reverse_reverse]

theorem hexVal_hexDigit {n : Nat} (h : n < 16) : hexVal (hexDigit n) = some n := by
  have : ∀ n : Fin 16, hexVal (hexDigit n.1) = some n.1 := by decide
  exact this ⟨n, h⟩

/-- A hexadecimal digit is no space, no underscore. -/
theorem hexDigit_plain {n : Nat} (h : n < 16) : pyIsSpace (hexDigit n) = false ∧ hexDigit n ≠ 95 := by
  have : ∀ n : Fin 16, pyIsSpace (hexDigit n.1) = false ∧ hexDigit n.1 ≠ 95 := by decide
  exact this ⟨n, h⟩

theorem natDigits_ne_nil (n : Nat) : natDigits n ≠ [] := by
  unfold natDigits; split <;> simp

theorem natDigits_digit (n : Nat) : ∀ c ∈ natDigits n, 48 ≤ c ∧ c ≤ 57 := by
  induction n using natDigits.induct with
  | case1 n h => unfold natDigits; simp [h]; omega
  | case2 n h ih =>
    unfold natDigits
    rw [dif_neg h]
    intro c hc
    rcases List.mem_append.mp hc with h1 | h1
    · exact ih c h1
    · simp at h1; omega

theorem parseNat_natDigits (n : Nat) : parseNat (natDigits n) = some n := by
  unfold parseNat
  rw [if_neg (natDigits_ne_nil n)]
  induction n using natDigits.induct with
  | case1 n h =>
    unfold natDigits; simp [h]; omega
  | case2 n h ih =>
    unfold natDigits
    rw [dif_neg h, List.foldl_append, ih]
    simp only [List.foldl_cons, List.foldl_nil, Option.bind_some]
    rw [if_pos (by omega)]
    congr 1; omega

theorem digit_not_space {c : Nat} (h : 48 ≤ c ∧ c ≤ 57) : pyIsSpace c = false := by
  have : ∀ c : Fin 58, 48 ≤ c.1 → pyIsSpace c.1 = false := by decide
  exact this ⟨c, by omega⟩ h.1

theorem mapM_some {α β : Type} {l : List α} {f : α → Option β} {g : α → β} (h : ∀ x ∈ l, f x = some (g x)) :
    l.mapM f = some (l.map g) := by
  induction l with
  | nil => rfl
  | cons a l ih =>
    rw [List.mapM_cons, h a (by simp), ih fun x hx => h x (List.mem_cons_of_mem _ hx)]
    rfl

end Verif
