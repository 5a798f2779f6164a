import Verif.Icons
import Verif.Spec.Icons
/- Lemmas for C85: strings that end with NUL. -/
namespace Verif.Icons
open IconSpec

theorem prefix_cut {pre t r : List Nat} (h0 : 0 ∉ pre) (h : pre <+: t ++ 0 :: r) : pre <+: t := by
  induction t generalizing pre with
  | nil =>
    cases pre with
    | nil => simp
    | cons c pre =>
      obtain ⟨x, hx⟩ := h
      simp only [List.cons_append, List.nil_append, List.cons.injEq] at hx
      exact absurd (by simp [hx.1]) h0
  | cons a t ih =>
    cases pre with
    | nil => simp
    | cons c pre =>
      rw [List.cons_append, List.cons_prefix_cons] at h
      rw [List.cons_prefix_cons]
      exact ⟨h.1, ih (fun hm => h0 (List.mem_cons_of_mem _ hm)) h.2⟩

theorem prefix_more {pre t r : List Nat} (h : pre <+: t) : pre <+: t ++ r := h.trans (List.prefix_append _ _)

theorem findSub_seg {pre : List Nat} (hp : pre ≠ []) (h0 : 0 ∉ pre) (r : List Nat) : ∀ s : List Nat,
    findSub pre (s ++ 0 :: r) = (findSub pre s <|> (findSub pre r).map (· + (s.length + 1)))
  | [] => by
    have h : ¬ pre.isPrefixOf (0 :: r) = true := by
      rw [List.isPrefixOf_iff_prefix]
      intro h
      exact hp (List.prefix_nil.1 (prefix_cut (t := []) h0 h))
    have e : findSub pre [] = none := by rw [findSub, if_neg hp]
    rw [e, List.nil_append, findSub, if_neg h]
    rfl
  | c :: s => by
    rw [List.cons_append, findSub, findSub]
    by_cases h : pre.isPrefixOf (c :: s) = true
    · have h' : pre.isPrefixOf (c :: (s ++ 0 :: r)) = true := by
        rw [List.isPrefixOf_iff_prefix] at h ⊢
        exact prefix_more (r := 0 :: r) h
      rw [if_pos h, if_pos h']
      rfl
    · have h' : ¬ pre.isPrefixOf (c :: (s ++ 0 :: r)) = true := by
        rw [List.isPrefixOf_iff_prefix] at h ⊢
        exact fun h2 => h (prefix_cut (t := c :: s) h0 h2)
      rw [if_neg h, if_neg h', findSub_seg hp h0 r s]
      cases findSub pre s with
      | some i => rfl
      | none =>
        cases findSub pre r with
        | none => rfl
        | some j => simp; omega

theorem findNul {t r : List Nat} (h : 0 ∉ t) : findSub [0] (t ++ 0 :: r) = some t.length := by
  induction t with
  | nil => simp [findSub]
  | cons c t ih =>
    rw [List.cons_append, findSub, if_neg, ih (fun hm => h (List.mem_cons_of_mem _ hm))]
    · rfl
    · rw [List.isPrefixOf_iff_prefix, List.cons_prefix_cons]
      intro e
      exact h (by simp [← e.1])

theorem findNul_none {t : List Nat} (h : 0 ∉ t) : findSub [0] t = none := by
  cases e : findSub [0] t with
  | none => rfl
  | some i =>
    obtain ⟨⟨x, hx⟩, -⟩ := findSub_some e
    have : 0 ∈ t.drop i := by rw [← hx]; simp
    exact absurd (List.mem_of_mem_drop this) h

theorem from_find {pre s : List Nat} {i : Nat} (h : findSub pre s = some i) : From pre s (s.drop i) := by
  obtain ⟨h1, h2, h3⟩ := findSub_some h
  refine ⟨s.take i, (List.take_append_drop i s).symm, h1, fun a' z' e hz => ?_⟩
  rw [List.length_take]
  by_cases hlt : a'.length < i
  · refine absurd ?_ (h3 _ hlt)
    rw [e, List.drop_left]
    exact hz
  · omega

theorem from_eq {pre s z : List Nat} (h : From pre s z) : ∃ i, findSub pre s = some i ∧ z = s.drop i := by
  obtain ⟨a, e, hz, hmin⟩ := h
  cases hf : findSub pre s with
  | none =>
    refine absurd ?_ (findSub_none hf a.length)
    rw [e, List.drop_left]
    exact hz
  | some i =>
    obtain ⟨h1, h2, h3⟩ := findSub_some hf
    have h4 := hmin _ _ (List.take_append_drop i s).symm h1
    rw [List.length_take] at h4
    have h5 : ¬ a.length < i := fun hlt => h3 _ hlt (by rw [e, List.drop_left]; exact hz)
    have h6 : a.length = i := by omega
    exact ⟨i, rfl, by rw [e, ← h6, List.drop_left]⟩

theorem find_infix {inf z : List Nat} : (findSub inf z).isSome = true ↔ inf <:+: z := by
  constructor
  · intro h
    obtain ⟨i, hi⟩ := Option.isSome_iff_exists.1 h
    obtain ⟨⟨r, hr⟩, -⟩ := findSub_some hi
    refine ⟨z.take i, r, ?_⟩
    rw [List.append_assoc, hr, List.take_append_drop]
  · rintro ⟨a, b, e⟩
    cases hf : findSub inf z with
    | some i => rfl
    | none =>
      refine absurd ?_ (findSub_none hf a.length)
      rw [← e, List.append_assoc, List.drop_left]
      exact List.prefix_append _ _

theorem loop_none {pre inf s : List Nat} (h : 0 ∉ s) (fuel : Nat) : findZstrLoop pre inf fuel s = none := by
  cases fuel with
  | zero => rfl
  | succ fuel =>
    unfold findZstrLoop
    split
    · rfl
    · next i _ => rw [findNul_none (fun hm => h (List.mem_of_mem_drop hm))]

theorem loop_seg {pre inf : List Nat} (hp : pre ≠ []) (h0 : 0 ∉ pre) {s r : List Nat} (hs : 0 ∉ s) (fuel : Nat) :
    (∀ i, findSub pre s = some i → findZstrLoop pre inf (fuel + 1) (s ++ 0 :: r) =
      if inf <:+: s.drop i then some (s.drop i) else findZstrLoop pre inf fuel r) ∧
    (findSub pre s = none → findZstrLoop pre inf (fuel + 1) (s ++ 0 :: r) = findZstrLoop pre inf (fuel + 1) r) := by
  constructor
  · intro i hi
    have hl := (findSub_some hi).2.1
    have e1 : (s ++ 0 :: r).drop i = s.drop i ++ 0 :: r := List.drop_append_of_le_length hl
    have e2 : (s ++ 0 :: r).drop (i + (s.drop i).length + 1) = r := by
      rw [List.length_drop, show i + (s.length - i) + 1 = s.length + 1 by omega, ← List.drop_drop, List.drop_left]
      rfl
    rw [findZstrLoop, findSub_seg hp h0, hi]
    simp only [Option.orElse_eq_orElse, Option.orElse]
    rw [e1, findNul (fun hm => hs (List.mem_of_mem_drop hm))]
    simp only
    rw [List.take_left, e2]
    by_cases h : inf <:+: s.drop i
    · rw [if_pos h, if_pos (find_infix.2 h)]
    · rw [if_neg h, if_neg (fun h' => h (find_infix.1 h'))]
  · intro hn
    rw [findZstrLoop, findZstrLoop, findSub_seg hp h0, hn]
    cases hr : findSub pre r with
    | none => rfl
    | some j =>
      have e1 : ∀ k, (s ++ 0 :: r).drop (k + (s.length + 1)) = r.drop k := by
        intro k
        rw [show k + (s.length + 1) = s.length + (1 + k) by omega, ← List.drop_drop, List.drop_left, ← List.drop_drop]
        rfl
      simp only [Option.map_some, Option.orElse_eq_orElse, Option.orElse]
      rw [e1]
      cases hj : findSub [0] (r.drop j) with
      | none => rfl
      | some k =>
        simp only
        rw [show j + (s.length + 1) + k + 1 = (j + k + 1) + (s.length + 1) by omega, e1]

theorem split_nul : ∀ {l : List Nat}, 0 ∈ l → ∃ s r, l = s ++ 0 :: r ∧ 0 ∉ s
  | [], h => by simp at h
  | c :: l, h => by
    by_cases hc : c = 0
    · exact ⟨[], l, by simp [hc], by simp⟩
    · obtain ⟨s, r, rfl, hs⟩ := split_nul (l := l) (by
        rcases List.mem_cons.1 h with e | e
        · exact absurd e.symm hc
        · exact e)
      exact ⟨c :: s, r, rfl, by simp [hs]; omega⟩

theorem split_same {s r s' r' : List Nat} (h : s ++ 0 :: r = s' ++ 0 :: r') (hs : 0 ∉ s) (hs' : 0 ∉ s') : s = s' ∧ r = r' := by
  induction s generalizing s' with
  | nil =>
    cases s' with
    | nil => simpa using h
    | cons c s' =>
      simp only [List.nil_append, List.cons_append, List.cons.injEq] at h
      exact absurd (by simp [← h.1]) hs'
  | cons a s ih =>
    cases s' with
    | nil =>
      simp only [List.nil_append, List.cons_append, List.cons.injEq] at h
      exact absurd (by simp [h.1]) hs
    | cons c s' =>
      simp only [List.cons_append, List.cons.injEq] at h
      obtain ⟨rfl, h⟩ := h
      obtain ⟨rfl, rfl⟩ := ih h (fun hm => hs (List.mem_cons_of_mem _ hm)) (fun hm => hs' (List.mem_cons_of_mem _ hm))
      exact ⟨rfl, rfl⟩

/-- What is found in a string and what follows it. -/
theorem found_iff {pre inf s r z : List Nat} (hs : 0 ∉ s) : Found pre inf (s ++ 0 :: r) z ↔
    (From pre s z ∧ inf <:+: z) ∨ ((∀ z', From pre s z' → ¬ inf <:+: z') ∧ Found pre inf r z) := by
  constructor
  · intro h
    generalize hb : s ++ 0 :: r = b at h
    cases h with
    | here h0 hf hi =>
      obtain ⟨rfl, rfl⟩ := split_same hb hs h0
      exact .inl ⟨hf, hi⟩
    | later h0 hf h =>
      obtain ⟨rfl, rfl⟩ := split_same hb hs h0
      exact .inr ⟨hf, h⟩
  · rintro (⟨h1, h2⟩ | ⟨h1, h2⟩)
    · exact .here hs h1 h2
    · exact .later hs h1 h2

theorem loop_found_iff {pre inf : List Nat} (hp : pre ≠ []) (h0 : 0 ∉ pre) {z : List Nat} : ∀ (n : Nat) {l : List Nat}, l.length ≤ n → ∀ {fuel : Nat},
    l.length < fuel → (findZstrLoop pre inf fuel l = some z ↔ Found pre inf l z) := by
  intro n
  induction n with
  | zero =>
    intro l hl fuel hf
    have : l = [] := List.length_eq_zero_iff.1 (by omega)
    subst this
    rw [loop_none (by simp)]
    constructor
    · intro h; cases h
    · intro h
      generalize hb : ([] : List Nat) = b at h
      cases h <;> simp at hb
  | succ n ih =>
    intro l hl fuel hf
    by_cases hm : 0 ∈ l
    · obtain ⟨s, r, rfl, hs⟩ := split_nul hm
      rw [found_iff hs]
      cases fuel with
      | zero => omega
      | succ fuel =>
        simp only [List.length_append, List.length_cons] at hl hf
        obtain ⟨h1, h2⟩ := loop_seg (inf := inf) hp h0 (r := r) hs fuel
        cases hfind : findSub pre s with
        | none =>
          have hno : ∀ z', ¬ From pre s z' := by
            intro z' hz
            obtain ⟨i, hi, -⟩ := from_eq hz
            rw [hfind] at hi
            cases hi
          rw [h2 hfind, ih (l := r) (by omega) (fuel := fuel + 1) (by omega)]
          exact ⟨fun h => .inr ⟨fun z' hz => absurd hz (hno z'), h⟩, fun h => h.elim (fun h => absurd h.1 (hno z)) (·.2)⟩
        | some i =>
          have hu : ∀ z', From pre s z' → z' = s.drop i := by
            intro z' hz
            obtain ⟨j, hj, e⟩ := from_eq hz
            rw [hfind] at hj
            cases hj
            exact e
          rw [h1 i hfind]
          by_cases hi : inf <:+: s.drop i
          · rw [if_pos hi]
            constructor
            · intro e
              cases e
              exact .inl ⟨from_find hfind, hi⟩
            · rintro (⟨a, -⟩ | ⟨a, -⟩)
              · rw [hu z a]
              · exact absurd hi (a _ (from_find hfind))
          · rw [if_neg hi, ih (l := r) (by omega) (fuel := fuel) (by omega)]
            constructor
            · exact fun h => .inr ⟨fun z' hz => by rw [hu z' hz]; exact hi, h⟩
            · rintro (⟨a, b⟩ | ⟨-, h⟩)
              · rw [hu z a] at b
                exact absurd b hi
              · exact h
    · rw [loop_none hm]
      constructor
      · intro h; cases h
      · intro h
        exfalso
        cases h <;> simp at hm

end Verif.Icons
