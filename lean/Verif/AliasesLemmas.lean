import Verif.Aliases
import Verif.Spec.Aliases
import Verif.TextLemmas
/-!
Helper lemmas on stripped texts and joined arguments.
-/
namespace Verif.Aliases
open AliasSpec

theorem dropWhile_blank {u : List Nat} (hu : Blank u) (t : List Nat) : (u ++ t).dropWhile pyIsSpace = t.dropWhile pyIsSpace := by
  induction u with
  | nil => rfl
  | cons c u ih =>
    rw [List.cons_append, List.dropWhile_cons_of_pos (hu c (by simp))]
    exact ih fun x hx => hu x (by simp [hx])

theorem dropWhile_tight {t : List Nat} (h : ∀ c, t.head? = some c → pyIsSpace c = false) (v : List Nat) (ht : t ≠ []) :
    (t ++ v).dropWhile pyIsSpace = t ++ v := by
  cases t with
  | nil => exact absurd rfl ht
  | cons c t => exact List.dropWhile_cons_of_neg (by simp [h c rfl])

theorem strip_pad {u t v : List Nat} (hu : Blank u) (ht : Tight t) (hv : Blank v) : pyStrip (u ++ t ++ v) = t := by
  have hv' : Blank v.reverse := fun c hc => hv c (by simpa using hc)
  unfold pyStrip pyRstrip
  rw [List.append_assoc, dropWhile_blank hu]
  by_cases h : t = []
  · subst h
    have := dropWhile_blank hv []
    simp only [List.append_nil] at this
    rw [List.nil_append, this]; rfl
  · rw [dropWhile_tight ht.1 _ h, List.reverse_append, dropWhile_blank hv']
    have := dropWhile_tight (t := t.reverse) (by intro c hc; exact ht.2 c (by simpa using hc)) [] (by simpa using h)
    simp only [List.append_nil] at this
    rw [this, List.reverse_reverse]

theorem strip_tight {t : List Nat} (ht : Tight t) : pyStrip t = t := pyStrip_tight ht.1 ht.2

theorem head_dropWhile (l : List Nat) : ∀ c, (l.dropWhile pyIsSpace).head? = some c → pyIsSpace c = false := by
  induction l with
  | nil => intro c h; simp at h
  | cons a l ih =>
    intro c h
    by_cases ha : pyIsSpace a = true
    · rw [List.dropWhile_cons_of_pos ha] at h; exact ih c h
    · rw [List.dropWhile_cons_of_neg ha] at h
      simp only [List.head?_cons, Option.some.injEq] at h
      rw [← h]; simpa using ha

theorem tight_strip (s : List Nat) : Tight (pyStrip s) := by
  constructor
  · intro c hc
    obtain ⟨w, h, _⟩ := pyRstrip_split (s.dropWhile pyIsSpace)
    refine head_dropWhile s c ?_
    rw [h]
    unfold pyStrip at hc
    cases hp : pyRstrip (s.dropWhile pyIsSpace) with
    | nil => rw [hp] at hc; simp at hc
    | cons x l => rw [hp] at hc; simpa using hc
  · intro c hc
    unfold pyStrip pyRstrip at hc
    rw [List.getLast?_reverse] at hc
    exact head_dropWhile _ c hc

theorem tight_name {n : List Nat} (h : Name n) : Tight n :=
  ⟨fun c hc => h.2 c (List.mem_of_head? hc), fun c hc => h.2 c (List.mem_of_getLast? hc)⟩

theorem tight_nil : Tight [] := ⟨fun c h => by simp at h, fun c h => by simp at h⟩

theorem join_nil (a : List Nat) : join a [] = a := by unfold join; split <;> simp_all

theorem nil_join (a : List Nat) : join [] a = a := by simp [join]

theorem join_ne {a b : List Nat} (h : a ≠ []) : join a b ≠ [] := by unfold join; rw [if_neg h]; split <;> simp_all

theorem join_assoc (a b c : List Nat) : join (join a b) c = join a (join b c) := by
  by_cases ha : a = []
  · subst ha; simp [nil_join]
  by_cases hb : b = []
  · subst hb; simp [nil_join, join_nil]
  by_cases hc : c = []
  · subst hc; simp [join_nil]
  have h1 : join a b ≠ [] := join_ne ha
  have h2 : join b c ≠ [] := join_ne hb
  simp [join, ha, hb, hc]

theorem tight_join {a b : List Nat} (ha : Tight a) (hb : Tight b) : Tight (join a b) := by
  unfold join
  split
  · exact hb
  · split
    · exact ha
    · rename_i h1 h2
      obtain ⟨x, a', rfl⟩ := List.exists_cons_of_ne_nil h1
      constructor
      · intro c hc; exact ha.1 c (by simpa using hc)
      · intro c hc
        rw [List.getLast?_append] at hc
        cases hl : b.getLast? with
        | none => exact absurd (List.getLast?_eq_none_iff.mp hl) h2
        | some y => rw [hl] at hc; exact hb.2 c (by rw [hl]; simpa using hc)

theorem spelled_cons (t : List Nat) (ts : List (List Nat)) : spelled (t :: ts) = join t (spelled ts) := by
  simp [spelled, join]

theorem spelled_append (l m : List (List Nat)) : spelled (l ++ m) = join (spelled l) (spelled m) := by
  induction l with
  | nil => simp [spelled, nil_join]
  | cons t l ih => rw [List.cons_append, spelled_cons, spelled_cons, ih, join_assoc]

theorem spelled_one (t : List Nat) : spelled [t] = t := by rw [spelled_cons]; exact join_nil t

theorem splitFirst_at {sep : Nat} {a b : List Nat} (h : sep ∉ a) : splitFirst sep (a ++ sep :: b) = (a, b) := by
  unfold splitFirst
  have h1 : ∀ x ∈ a, (x != sep) = true := by intro x hx; simp; rintro rfl; exact h hx
  rw [List.takeWhile_append_of_pos h1, List.dropWhile_append_of_pos h1]
  simp

theorem splitFirst_none {sep : Nat} {a : List Nat} (h : sep ∉ a) : splitFirst sep a = (a, []) := by
  unfold splitFirst
  have h1 : ∀ x ∈ a, (x != sep) = true := by intro x hx; simp; rintro rfl; exact h hx
  have e1 := List.takeWhile_append_of_pos (l₂ := []) h1
  have e2 := List.dropWhile_append_of_pos (l₂ := []) h1
  simp only [List.append_nil] at e1 e2
  rw [e1, e2]; simp

/-- With more fuel, the loop gives the same. -/
theorem mapFuel_mono {tbl : Table} {k : Nat} : ∀ {j n args r}, k ≤ j → mapFuel tbl k n args = some r → mapFuel tbl j n args = some r := by
  induction k with
  | zero => intro j n args r _ h; simp [mapFuel] at h
  | succ k ih =>
    intro j n args r hj h
    obtain ⟨j, rfl⟩ : ∃ i, j = i + 1 := ⟨j - 1, by omega⟩
    rw [mapFuel] at h ⊢
    cases hl : tbl.lookup n with
    | none => rw [hl] at h; exact h
    | some x => rw [hl] at h; exact ih (by omega) h

theorem stands_unique {look : Look} {n f f' : List Nat} {ps ps' : List (List Nat)} (h : Stands look n ps f) :
    Stands look n ps' f' → ps = ps' ∧ f = f' := by
  intro h'
  induction h generalizing ps' f' with
  | self e => cases h' with
    | self => exact ⟨rfl, rfl⟩
    | step e' _ => rw [e] at e'; cases e'
  | step e _ ih => cases h' with
    | self e' => rw [e] at e'; cases e'
    | step e' hs =>
      rw [e] at e'
      simp only [Option.some.injEq, Prod.mk.injEq] at e'
      obtain ⟨rfl, rfl⟩ := e'
      obtain ⟨rfl, rfl⟩ := ih hs
      exact ⟨rfl, rfl⟩

theorem stands_end {look : Look} {n f : List Nat} {ps : List (List Nat)} (h : Stands look n ps f) : look f = none := by
  induction h with
  | self e => exact e
  | step _ _ ih => exact ih

theorem tight_spelled {l : List (List Nat)} (h : ∀ t ∈ l, Tight t) : Tight (spelled l) := by
  induction l with
  | nil => exact tight_nil
  | cons t l ih =>
    rw [spelled_cons]
    exact tight_join (h t (by simp)) (ih fun x hx => h x (by simp [hx]))

theorem tight_stands {look : Look} {n f : List Nat} {ps : List (List Nat)} (ht : TightTable look) (h : Stands look n ps f) : Tight (spelled ps) := by
  induction h with
  | self _ => exact tight_nil
  | step e _ ih => rw [spelled_append, spelled_one]; exact tight_join ih (ht _ _ _ e)

/-- What the loop computes. -/
theorem mapFuel_stands {tbl : Table} {look : Look} (hl : ∀ n, tbl.lookup n = look n) {n f : List Nat} {ps : List (List Nat)} (h : Stands look n ps f) :
    ∃ k, ∀ j ≥ k, ∀ args, mapFuel tbl j n args = some (f, pyStrip (join (spelled ps) args)) := by
  induction h with
  | self e =>
    refine ⟨1, fun j hj args => ?_⟩
    obtain ⟨j, rfl⟩ : ∃ i, j = i + 1 := ⟨j - 1, by omega⟩
    rw [mapFuel, hl, e]
    simp only [spelled, nil_join]
  | step e _ ih =>
    obtain ⟨k, hk⟩ := ih
    refine ⟨k + 1, fun j hj args => ?_⟩
    obtain ⟨j, rfl⟩ : ∃ i, j = i + 1 := ⟨j - 1, by omega⟩
    rw [mapFuel, hl, e]
    simp only
    rw [hk j (by omega), spelled_append, spelled_one, join_assoc]

/-- A definition that does not make its name stand for itself leaves everything standing for something. -/
theorem stands_update {look : Look} {a e f : List Nat} (he : look f = none) (hf : f ≠ a) {n g : List Nat} {ps : List (List Nat)} (h : Stands look n ps g) :
    ∃ qs g', Stands (update look a (f, e)) n qs g' := by
  have hf' : Stands (update look a (f, e)) f [] f := .self (by simp [update, hf, he])
  induction h with
  | self hn =>
    rename_i n
    by_cases hna : n = a
    · subst hna; exact ⟨_, _, .step (p := e) (by simp [update]) hf'⟩
    · exact ⟨_, _, .self (by simp [update, hna, hn])⟩
  | step hn _ ih =>
    rename_i n t p f ps _
    by_cases hna : n = a
    · subst hna; exact ⟨_, _, .step (p := e) (by simp [update]) hf'⟩
    · obtain ⟨qs, g', h'⟩ := ih
      exact ⟨_, _, .step (by simp only [update, hna, if_false]; exact hn) h'⟩

end Verif.Aliases
