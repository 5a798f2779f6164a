import Verif.Props.Preprocess
import Verif.PtFileLemmas
import Verif.Spec.Top
/-! C43: exactly the include lines outside of comments and strings are expanded. -/
namespace Verif
open TopSpec

/-- Lines as `TopSpec` wants them. -/
def incLine (code : List Nat) (b e : Nat) : Prop := ∃ arg, IncludeLine code b e arg

/-- The position after one iteration of the loop. -/
def nextI (code : List Nat) (i : Nat) : Nat :=
  if code[i]? = some 45 ∧ code[i + 1]? = some 45 then (skipLong code (i + 2)).getD (toEol code (i + 2))
  else if code[i]? = some 91 ∧ code[i + 1]? = some 91 then (skipLong code i).getD i
  else if code[i]? = some 34 ∨ code[i]? = some 39 then strEnd (code[i]?.getD 0) (code.drop (i + 1)) (i + 1)
  else if code[i]? ≠ some 35 then i + 1
  else if isDirective code[i + 1]? then
    match backUp code i with
    | none => i + 1
    | some _ =>
      match includeArg ((code.drop i).take (toEol code i - i)) with
      | none => i + 1
      | some _ => toEol code i
  else i + 1

theorem prepStep_i {path code : List Nat} {line : Nat} {inc : List Nat → Option Included} {s s' : Prep}
    (hs : prepStep path code line inc s = some s') : s'.i = nextI code s.i := by
  unfold prepStep at hs
  unfold nextI
  simp only at hs
  split at hs
  · rename_i h; rw [if_pos h]; cases hs; rfl
  rename_i h; rw [if_neg h]
  split at hs
  · rename_i h; rw [if_pos h]; cases hs; rfl
  rename_i h; rw [if_neg h]
  split at hs
  · rename_i h; rw [if_pos h]; cases hs; rfl
  rename_i h; rw [if_neg h]
  split at hs
  · rename_i h; rw [if_pos h]; cases hs; rfl
  rename_i h; rw [if_neg h]
  split at hs
  · rename_i h; rw [if_pos h]
    cases hb : backUp code s.i with
    | none => rw [hb] at hs; cases hs; rfl
    | some b =>
      rw [hb] at hs
      simp only at hs ⊢
      cases ha : includeArg ((code.drop s.i).take (toEol code s.i - s.i)) with
      | none => rw [ha] at hs; cases hs; rfl
      | some arg =>
        rw [ha] at hs
        simp only at hs ⊢
        cases hi : inc arg with
        | none => rw [hi] at hs; cases hs
        | some c => rw [hi] at hs; cases hs; rfl
  · rename_i h; rw [if_neg h]; cases hs; rfl

/-! ### The scanner's parts -/

theorem opens_drop {code : List Nat} {k i : Nat} (h : Opens code k i) : code.drop i = 91 :: (List.replicate k 61 ++ 91 :: code.drop (i + k + 2)) := by
  obtain ⟨t, ht⟩ := h
  have : code.drop (i + k + 2) = t := by
    have e : i + k + 2 = i + (91 :: (List.replicate k 61 ++ [91])).length := by simp; omega
    rw [e, ← List.drop_drop, ← ht, List.drop_left]
  rw [this, ← ht]; simp

theorem takeWhile_eqs (k : Nat) (r : List Nat) : ((List.replicate k 61 ++ 91 :: r).takeWhile (· == 61)).length = k := by
  have := (takeWhile_append_stop (p := (· == 61)) (t := List.replicate k 61) (r := 91 :: r) (by intro c hc; simp [List.eq_of_mem_replicate hc])
    (by intro a ha; cases ha; rfl)).1
  rw [this, List.length_replicate]

theorem skipLong_of_opens {code : List Nat} {k i : Nat} (h : Opens code k i) : skipLong code i =
    (findSub (93 :: (List.replicate k 61 ++ [93])) (code.drop (i + k + 2))).map fun j => i + 1 + k + 1 + j + (k + 2) := by
  unfold skipLong
  rw [opens_drop h]
  simp only [takeWhile_eqs]
  rw [List.drop_left' (by simp)]
  rfl

theorem skipLong_iff {code : List Nat} {i j : Nat} : skipLong code i = some j ↔ Long code i j := by
  constructor
  · intro h
    have ho : ∃ k, Opens code k i := by
      unfold skipLong at h
      split at h
      · next r hr =>
        simp only at h
        split at h
        · next r' hr' =>
          refine ⟨(r.takeWhile (· == 61)).length, ?_⟩
          unfold Opens
          rw [hr]
          obtain ⟨t, u, e1, e2, e3, -⟩ := takeWhile_cases (· == 61) r
          rw [← e2] at hr' ⊢
          have ht : t = List.replicate t.length 61 := List.eq_replicate_iff.2 ⟨rfl, fun b hb => by simpa using e3 b hb⟩
          rw [e1, List.drop_left] at hr'
          refine ⟨r', ?_⟩
          rw [e1, hr', ← ht]; simp
        · cases h
      · cases h
    obtain ⟨k, ho⟩ := ho
    rw [skipLong_of_opens ho] at h
    simp only [Option.map_eq_some_iff] at h
    obtain ⟨p, hp, rfl⟩ := h
    obtain ⟨h1, -, h3⟩ := findSub_some hp
    refine ⟨k, i + k + 2 + p, ho, by omega, ?_, ?_, by omega⟩
    · unfold Closes; rwa [List.drop_drop] at h1
    · intro p' a b c
      refine h3 (p' - (i + k + 2)) (by omega) ?_
      rw [List.drop_drop]
      have : i + k + 2 + (p' - (i + k + 2)) = p' := by omega
      rw [this]; exact c
  · rintro ⟨k, p, ho, h1, h2, h3, rfl⟩
    rw [skipLong_of_opens ho]
    have : findSub (93 :: (List.replicate k 61 ++ [93])) (code.drop (i + k + 2)) = some (p - (i + k + 2)) := by
      refine PtFile.findSub_eq ?_ ?_
      · rw [List.drop_drop]
        have : i + k + 2 + (p - (i + k + 2)) = p := by omega
        rw [this]; exact h2
      · intro j hj hc
        rw [List.drop_drop] at hc
        exact h3 _ (by omega) (by omega) hc
    rw [this]
    simp only [Option.map_some, Option.some.injEq]; omega

theorem skipLong_none {code : List Nat} {i : Nat} (h : ∀ j, ¬ Long code i j) : skipLong code i = none := by
  cases hk : skipLong code i with
  | none => rfl
  | some j => exact absurd (skipLong_iff.1 hk) (h j)

theorem lineEnd_toEol {code : List Nat} {i : Nat} (h : i ≤ code.length) : LineEnd code i (toEol code i) := by
  obtain ⟨t1, t2, t3, t4⟩ := toEol_spec code i h
  refine ⟨t1, ?_, t3⟩
  intro x h1 h2 h3
  refine t4 (List.mem_iff_getElem?.2 ⟨x - i, ?_⟩)
  rw [List.getElem?_take, if_pos (by omega), List.getElem?_drop]
  have : i + (x - i) = x := by omega
  rw [this]; exact h3

theorem lineEnd_unique {code : List Nat} {i j j' : Nat} (h : LineEnd code i j) (h' : LineEnd code i j') (hj : j ≤ code.length) (hj' : j' ≤ code.length) :
    j = j' := by
  obtain ⟨a, b, c⟩ := h
  obtain ⟨a', b', c'⟩ := h'
  rcases Nat.lt_trichotomy j j' with h | h | h
  · rcases c with c | c
    · omega
    · exact absurd c (b' j a h)
  · exact h
  · rcases c' with c' | c'
    · omega
    · exact absurd c' (b j' a' h)

theorem lineEnd_le {code : List Nat} {i j : Nat} (h : LineEnd code i j) : j ≤ code.length := by
  rcases h.2.2 with h | h
  · omega
  · have := (List.getElem?_eq_some_iff.1 h).1; omega

theorem quoted_strEnd {code : List Nat} {q i j : Nat} (h : Quoted code q i j) : strEnd q (code.drop i) i = j := by
  induction h with
  | close h =>
    obtain ⟨h1, h2⟩ := List.getElem?_eq_some_iff.1 h
    rw [List.drop_eq_getElem_cons h1]; unfold strEnd; rw [if_pos h2]
  | escape hq h hd _ ih =>
    obtain ⟨h1, h2⟩ := List.getElem?_eq_some_iff.1 h
    obtain ⟨h3, h4⟩ := List.getElem?_eq_some_iff.1 hd
    rw [List.drop_eq_getElem_cons h1, List.drop_eq_getElem_cons h3]; unfold strEnd; rw [if_neg (by rw [h2]; exact fun e => hq e.symm), if_pos h2]
    exact ih
  | plain h hq hb _ ih =>
    obtain ⟨h1, h2⟩ := List.getElem?_eq_some_iff.1 h
    rw [List.drop_eq_getElem_cons h1]; unfold strEnd; rw [if_neg (by rw [h2]; exact hq), if_neg (by rw [h2]; exact hb)]
    exact ih

theorem strEnd_quoted {code : List Nat} {q : Nat} (hq : q ≠ 92) : ∀ n i, code.length - i ≤ n → i ≤ code.length →
    Quoted code q i (strEnd q (code.drop i) i) ∨ code.length ≤ strEnd q (code.drop i) i
  | n, i, hn, hi => by
    by_cases hlt : i < code.length
    · have e : code[i]? = some code[i] := List.getElem?_eq_getElem hlt
      rw [List.drop_eq_getElem_cons hlt]; unfold strEnd
      by_cases h1 : code[i] = q
      · rw [if_pos h1]; exact .inl (.close (by rw [e, h1]))
      rw [if_neg h1]
      by_cases h2 : code[i] = 92
      · rw [if_pos h2]
        by_cases hlt2 : i + 1 < code.length
        · rw [List.drop_eq_getElem_cons hlt2]
          simp only
          match n, hn with
          | n + 1, hn =>
            rcases strEnd_quoted (code := code) hq n (i + 2) (by omega) (by omega) with h | h
            · exact .inl (.escape hq (by rw [e, h2]) (List.getElem?_eq_getElem hlt2) h)
            · exact .inr h
          | 0, hn => omega
        · rw [List.drop_eq_nil_of_le (by omega)]
          right; simp only; omega
      rw [if_neg h2]
      match n, hn with
      | n + 1, hn =>
        rcases strEnd_quoted (code := code) hq n (i + 1) (by omega) (by omega) with h | h
        · exact .inl (.plain e h1 h2 h)
        · exact .inr h
      | 0, hn => omega
    · rw [List.drop_eq_nil_of_le (by omega), strEnd]
      right; omega

theorem hash_unique {code : List Nat} {b k k' : Nat} (h : Hash code b k) (h' : Hash code b k') : k = k' := by
  obtain ⟨a1, a2, a3⟩ := h
  obtain ⟨b1, b2, b3⟩ := h'
  rcases Nat.lt_trichotomy k k' with h | h | h
  · obtain ⟨c, c1, c2⟩ := b3 k a1 h
    rw [a2] at c1; cases c1; omega
  · exact h
  · obtain ⟨c, c1, c2⟩ := a3 k' b1 h
    rw [b2] at c1; cases c1; omega

theorem line_at_hash {code : List Nat} {j e k : Nat} {arg : List Nat} (hl : IncludeLine code j e arg) (hk : Hash code j k) :
    isDirective code[k + 1]? = true ∧ toEol code k = e ∧ includeArg ((code.drop k).take (toEol code k - k)) = some arg ∧ backUp code k = some j := by
  obtain ⟨h, h1, h2, h3, h4, h5, h6, h7⟩ := includeLine_hash hl
  have : k = h := hash_unique hk ⟨h1, h2, h3⟩
  subst this
  exact ⟨by rw [h4]; rfl, h5, h6, h7⟩

theorem hash_backUp {code : List Nat} {i b : Nat} (h : code[i]? = some 35) (hb : backUp code i = some b) : Hash code b i := by
  obtain ⟨b1, -, b3⟩ := backUp_spec hb
  refine ⟨b1, h, fun x h1 h2 => ?_⟩
  obtain ⟨c, c1, c2, c3⟩ := b3 x h1 h2
  exact ⟨c, c1, isWs_blank c2 c3⟩

/-! ### Pieces and iterations -/

theorem piece_next {code : List Nat} {i j : Nat} (h : Piece (incLine code) code i j) : nextI code i = j ∧ i < j := by
  cases h with
  | longComment h hl =>
    have h : code[i]? = some 45 ∧ code[i + 1]? = some 45 := h
    have := skipLong_iff.2 hl
    have g := skipLong_ge this
    unfold nextI
    rw [if_pos h, this]
    exact ⟨rfl, by omega⟩
  | comment h hl he =>
    have h : code[i]? = some 45 ∧ code[i + 1]? = some 45 := h
    have h2 := (List.getElem?_eq_some_iff.1 h.2).1
    have := lineEnd_unique (lineEnd_toEol (by omega : i + 2 ≤ code.length)) he (lineEnd_le (lineEnd_toEol (by omega))) (lineEnd_le he)
    unfold nextI
    rw [if_pos h, skipLong_none hl]
    have h3 := he.1
    exact ⟨this, by omega⟩
  | longString h hl =>
    have h : code[i]? = some 91 ∧ code[i + 1]? = some 91 := h
    have := skipLong_iff.2 hl
    have g := skipLong_ge this
    unfold nextI
    rw [if_neg (by rw [h.1]; simp), if_pos h, this]
    exact ⟨rfl, g⟩
  | @string _ _ q hq h hs =>
    unfold nextI
    have e := quoted_strEnd hs
    have g := strEnd_ge q (code.drop (i + 1)) (i + 1)
    rw [if_neg (by rw [h]; simp; omega), if_neg (by rw [h]; simp; omega), if_pos (by rw [h]; simpa using hq), h]
    exact ⟨e, by omega⟩
  | incl hl h =>
    obtain ⟨arg, hl⟩ := hl
    obtain ⟨h1, h2, h3, h4⟩ := line_at_hash hl h
    have h35 := h.2.1
    unfold nextI
    rw [if_neg (by rw [h35]; simp), if_neg (by rw [h35]; simp), if_neg (by rw [h35]; simp), if_neg (by rw [h35]; simp), if_pos h1, h4, h3]
    refine ⟨h2, ?_⟩
    have hlt := (List.getElem?_eq_some_iff.1 h35).1
    obtain ⟨t1, -, t3, -⟩ := toEol_spec code i (by omega)
    rw [← h2]
    rcases Nat.lt_or_ge i (toEol code i) with g | g
    · exact g
    · have : toEol code i = i := by omega
      rw [this] at t3
      rcases t3 with t3 | t3
      · omega
      · rw [h35] at t3; cases t3
  | @char _ c h h1 h2 h3 h4 =>
    have h1 : ¬ (code[i]? = some 45 ∧ code[i + 1]? = some 45) := h1
    have h2 : ¬ (code[i]? = some 91 ∧ code[i + 1]? = some 91) := h2
    refine ⟨?_, by omega⟩
    unfold nextI
    rw [if_neg h1, if_neg h2, if_neg (by rw [h]; simpa using h3)]
    by_cases h5 : code[i]? ≠ some 35
    · rw [if_pos h5]
    rw [if_neg h5]
    have h35 : code[i]? = some 35 := by simpa using h5
    have hlt := (List.getElem?_eq_some_iff.1 h35).1
    by_cases hd : isDirective code[i + 1]? = true
    · rw [if_pos hd]
      cases hb : backUp code i with
      | none => rfl
      | some b =>
        simp only
        cases ha : includeArg ((code.drop i).take (toEol code i - i)) with
        | none => rfl
        | some arg => exact absurd (hash_backUp h35 hb) (h4 b _ ⟨arg, includeLine_of hlt hb ha⟩)
    · rw [if_neg hd]

theorem next_piece {code : List Nat} {i : Nat} (hlt : i < code.length) :
    Piece (incLine code) code i (nextI code i) ∨ (nextI code i = i ∧ LongString code i ∧ ∀ j, ¬ Long code i j) ∨ code.length ≤ nextI code i := by
  have e : code[i]? = some code[i] := List.getElem?_eq_getElem hlt
  have hchar : ¬ Comment code i → ¬ LongString code i → ¬ (code[i]? = some 34 ∨ code[i]? = some 39) → (∀ b e, incLine code b e → ¬ Hash code b i) →
      Piece (incLine code) code i (i + 1) := fun h1 h2 h3 h4 => .char e h1 h2 (by rw [e] at h3; simpa using h3) h4
  unfold nextI
  by_cases h1 : code[i]? = some 45 ∧ code[i + 1]? = some 45
  · rw [if_pos h1]
    cases hk : skipLong code (i + 2) with
    | some j => exact .inl (.longComment h1 (skipLong_iff.1 hk))
    | none =>
      have h2 := (List.getElem?_eq_some_iff.1 h1.2).1
      exact .inl (.comment h1 (fun j hj => by rw [skipLong_iff.2 hj] at hk; cases hk) (lineEnd_toEol (by omega)))
  rw [if_neg h1]
  by_cases h2 : code[i]? = some 91 ∧ code[i + 1]? = some 91
  · rw [if_pos h2]
    cases hk : skipLong code i with
    | some j => exact .inl (.longString h2 (skipLong_iff.1 hk))
    | none => exact .inr (.inl ⟨rfl, h2, fun j hj => by rw [skipLong_iff.2 hj] at hk; cases hk⟩)
  rw [if_neg h2]
  by_cases h3 : code[i]? = some 34 ∨ code[i]? = some 39
  · rw [if_pos h3]
    have hq : code[i] = 34 ∨ code[i] = 39 := by rw [e] at h3; simpa using h3
    rw [e]
    rcases strEnd_quoted (code := code) (q := code[i]) (by omega) _ (i + 1) (Nat.le_refl _) hlt with h | h
    · exact .inl (.string hq e h)
    · exact .inr (.inr h)
  rw [if_neg h3]
  by_cases h5 : code[i]? ≠ some 35
  · rw [if_pos h5]
    exact .inl (hchar h1 h2 h3 fun b e _ hh => h5 hh.2.1)
  rw [if_neg h5]
  have h35 : code[i]? = some 35 := by simpa using h5
  by_cases hd : isDirective code[i + 1]? = true
  · rw [if_pos hd]
    cases hb : backUp code i with
    | none =>
      refine .inl (hchar h1 h2 h3 fun b e ⟨arg, hl⟩ hh => ?_)
      rw [(line_at_hash hl hh).2.2.2] at hb; cases hb
    | some b =>
      simp only
      cases ha : includeArg ((code.drop i).take (toEol code i - i)) with
      | none =>
        refine .inl (hchar h1 h2 h3 fun b e ⟨arg, hl⟩ hh => ?_)
        rw [(line_at_hash hl hh).2.2.1] at ha; cases ha
      | some arg => exact .inl (.incl ⟨arg, includeLine_of hlt hb ha⟩ (hash_backUp h35 hb))
  · rw [if_neg hd]
    refine .inl (hchar h1 h2 h3 fun b e ⟨arg, hl⟩ hh => hd (line_at_hash hl hh).1)

/-- The top level in steps. -/
inductive Reach (code : List Nat) : Nat → Nat → Prop
  | start : Reach code 0 0
  | next {n i j} (h : Reach code n i) (hp : Piece (incLine code) code i j) : Reach code (n + 1) j

theorem top_reach {code : List Nat} {i : Nat} (h : Top (incLine code) code i) : ∃ n, Reach code n i := by
  induction h with
  | start => exact ⟨0, .start⟩
  | next _ hp ih => obtain ⟨n, hn⟩ := ih; exact ⟨n + 1, .next hn hp⟩

theorem reach_unique {code : List Nat} {n i j : Nat} (h : Reach code n i) (h' : Reach code n j) : i = j := by
  induction h generalizing j with
  | start => cases h'; rfl
  | next _ hp ih =>
    cases h' with
    | next h2 hp2 =>
      have := ih h2
      subst this
      rw [← (piece_next hp).1, (piece_next hp2).1]

theorem reach_later {code : List Nat} {n i : Nat} (h : Reach code n i) : ∀ {m k}, Reach code (n + 1 + m) k → nextI code i ≤ k
  | 0, k, hk => by
    cases hk with
    | next h2 hp =>
      rw [reach_unique h h2, (piece_next hp).1]; exact Nat.le_refl _
  | m + 1, k, hk => by
    cases hk with
    | next h2 hp =>
      have := reach_later h (m := m) h2
      have := (piece_next hp).2
      omega

theorem reach_mono {code : List Nat} {n i : Nat} (h : Reach code n i) : ∀ {m k}, Reach code (n + m) k → i ≤ k
  | 0, k, hk => by rw [reach_unique h hk]; exact Nat.le_refl _
  | m + 1, k, hk => by
    cases hk with
    | next h2 hp =>
      have := reach_mono h (m := m) h2
      have := (piece_next hp).2
      omega

theorem top_gap {code : List Nat} {i k : Nat} (hi : Top (incLine code) code i) (hk : Top (incLine code) code k) (h : i < k) : nextI code i ≤ k := by
  obtain ⟨n, hn⟩ := top_reach hi
  obtain ⟨m, hm⟩ := top_reach hk
  rcases Nat.lt_or_ge n m with h1 | h1
  · obtain ⟨d, rfl⟩ : ∃ d, m = n + 1 + d := ⟨m - (n + 1), by omega⟩
    exact reach_later hn hm
  · obtain ⟨d, rfl⟩ : ∃ d, n = m + d := ⟨n - m, by omega⟩
    have := reach_mono hm hn
    omega

/-- The line from `b` counts: its first character that is not blank is a `#` at the top level. -/
def Live (code : List Nat) (b : Nat) : Prop := ∃ k, Hash code b k ∧ Top (incLine code) code k

/-- What holds at the head of the loop. -/
def topInv (code : List Nat) (s : Prep) : Prop :=
  (Top (incLine code) code s.i ∨ code.length ≤ s.i) ∧
    ∀ j e arg k, s.start ≤ j → IncludeLine code j e arg → Hash code j k → Top (incLine code) code k → ¬ k < s.i

theorem topInv_step {path code : List Nat} {line : Nat} {inc : List Nat → Option Included} {s s' : Prep} (ha : topInv code s)
    (hlt : s.i < code.length) (hs : prepStep path code line inc s = some s') : topInv code s' := by
  have hi := prepStep_i hs
  obtain ⟨h1, h2⟩ := ha
  have ht : Top (incLine code) code s.i := by
    rcases h1 with h1 | h1
    · exact h1
    · omega
  refine ⟨?_, ?_⟩
  · rw [hi]
    rcases next_piece hlt with h | h | h
    · exact .inl (.next ht h)
    · rw [h.1]; exact .inl ht
    · exact .inr h
  · intro j e arg k hj hl hh hk hki
    rw [hi] at hki
    -- where the piece starts
    have hcases : k < s.i ∨ k = s.i := by
      rcases Nat.lt_trichotomy k s.i with h | h | h
      · exact .inl h
      · exact .inr h
      · have := top_gap ht hk h; omega
    have same : s'.start = s.start → k < s.i → False := fun e1 h => h2 j e arg k (by omega) hl hh hk h
    have atHash : k = s.i → s'.start > s.i := by
      rintro rfl
      obtain ⟨g1, g2, g3, g4⟩ := line_at_hash hl hh
      have h35 := hh.2.1
      unfold prepStep at hs
      simp only at hs
      rw [if_neg (by rw [h35]; simp), if_neg (by rw [h35]; simp), if_neg (by rw [h35]; simp), if_neg (by rw [h35]; simp), if_pos g1, g4] at hs
      simp only [g3] at hs
      cases hc : inc arg with
      | none => rw [hc] at hs; cases hs
      | some c =>
        rw [hc] at hs; cases hs
        have := (piece_next (.incl ⟨arg, hl⟩ hh)).2
        simp only; omega
    rcases hcases with h | h
    · -- before
      unfold prepStep at hs
      simp only at hs
      split at hs
      · cases hs; exact same rfl h
      split at hs
      · cases hs; exact same rfl h
      split at hs
      · cases hs; exact same rfl h
      split at hs
      · cases hs; exact same rfl h
      split at hs
      · cases hb : backUp code s.i with
        | none => rw [hb] at hs; cases hs; exact same rfl h
        | some b =>
          rw [hb] at hs
          simp only at hs
          obtain ⟨b1, b2, b3⟩ := backUp_spec hb
          have hfs : (Prep.flush path code line { s with i := b }).start = b := by unfold Prep.flush; split <;> rfl
          generalize Prep.flush path code line { s with i := b } = t at hs hfs
          cases hi : includeArg ((code.drop s.i).take (toEol code s.i - s.i)) with
          | none =>
            rw [hi] at hs; cases hs
            simp only [hfs] at hj
            obtain ⟨c, c1, c2, c3⟩ := b3 k (Nat.le_trans hj hh.1) h
            rw [hh.2.1] at c1; cases c1; cases c2
          | some arg =>
            rw [hi] at hs
            simp only at hs
            cases hc : inc arg with
            | none => rw [hc] at hs; cases hs
            | some c =>
              rw [hc] at hs; cases hs
              simp only at hj
              have := (toEol_spec code s.i (by omega)).1
              have := hh.1
              omega
      · cases hs; exact same rfl h
    · have := atHash h
      have := hh.1
      omega

/-- **C43.** Exactly the include lines whose `#` is at the top level are replaced (no first character of one is kept, and no other line is
replaced), and everything else is kept, for any code for which preprocessing ends. -/
theorem C43_where (path code : List Nat) (line : Nat) (inc : List Nat → Option Included)
    (hinc : ∀ arg c, inc arg = some c → ∃ g, IncOrigins c g) (fuel : Nat) (out : List Nat) (maps : List CodeMap)
    (h : preprocess path code line inc fuel = some (out, maps)) :
    ∃ orig, Expands (fun i => ¬ ∃ e arg, IncludeLine code i e arg ∧ Live code i) (Live code) path code line inc code.length out orig ∧
      HasOrigins maps out orig := by
  unfold preprocess at h
  cases hl : prepLoop path code line inc fuel ⟨0, 0, 0, [], []⟩ with
  | none => rw [hl] at h; cases h
  | some s =>
    rw [hl] at h; cases h
    refine prepLoop_spec hinc (topInv code) (fun s s' ha hlt hs => topInv_step ha hlt hs) ?_ ?_ ?_ fuel _ s ?_
      ⟨⟨[], Expands.nil, rfl, by simp⟩, rfl, Nat.le_refl _, Nat.zero_le _, Or.inl rfl⟩ hl
    · rintro s ha hlt b hb j h1 h2 ⟨e, arg, hline, k, hh, hk⟩
      obtain ⟨b1, b2, b3⟩ := backUp_spec hb
      have hki : s.i ≤ k := Nat.not_lt.1 (ha.2 j e arg k h1 hline hh hk)
      obtain ⟨c, c1, c2⟩ := hh.2.2 (b - 1) (by omega) (by omega)
      rcases b2 with b2 | b2
      · omega
      · rw [b2] at c1; cases c1; omega
    · intro s ha hlt b hb h35
      rcases ha.1 with ht | ht
      · exact ⟨s.i, hash_backUp h35 hb, ht⟩
      · omega
    · rintro s ha hlt j h1 h2 ⟨e, arg, hline, k, hh, hk⟩
      have := (List.getElem?_eq_some_iff.1 hh.2.1).1
      exact ha.2 j e arg k h1 hline hh hk (by omega)
    · exact ⟨.inl .start, fun j e arg k _ _ _ _ hk => absurd hk (by simp)⟩

/-! ### When preprocessing ends -/

theorem prepStep_none {path code : List Nat} {line : Nat} {inc : List Nat → Option Included} {s : Prep} (hlt : s.i < code.length)
    (hs : prepStep path code line inc s = none) : ∃ b e arg, IncludeLine code b e arg ∧ Hash code b s.i ∧ inc arg = none := by
  unfold prepStep at hs
  simp only at hs
  split at hs
  · cases hs
  split at hs
  · cases hs
  split at hs
  · cases hs
  split at hs
  · cases hs
  rename_i h35
  have h35 : code[s.i]? = some 35 := by simpa using h35
  split at hs
  · cases hb : backUp code s.i with
    | none => rw [hb] at hs; cases hs
    | some b =>
      rw [hb] at hs
      simp only at hs
      cases ha : includeArg ((code.drop s.i).take (toEol code s.i - s.i)) with
      | none => rw [ha] at hs; cases hs
      | some arg =>
        rw [ha] at hs
        simp only at hs
        cases hi : inc arg with
        | none => exact ⟨b, _, arg, includeLine_of hlt hb ha, hash_backUp h35 hb, hi⟩
        | some c => rw [hi] at hs; cases hs
  · cases hs

theorem prepStep_fails {path code : List Nat} {line : Nat} {inc : List Nat → Option Included} {s : Prep} {b e : Nat} {arg : List Nat}
    (hl : IncludeLine code b e arg) (hh : Hash code b s.i) (hi : inc arg = none) : prepStep path code line inc s = none := by
  obtain ⟨g1, g2, g3, g4⟩ := line_at_hash hl hh
  have h35 := hh.2.1
  unfold prepStep
  simp only
  rw [if_neg (by rw [h35]; simp), if_neg (by rw [h35]; simp), if_neg (by rw [h35]; simp), if_neg (by rw [h35]; simp), if_pos g1, g4]
  simp only [g3, hi]

theorem ends_all {path code : List Nat} {line : Nat} {inc : List Nat → Option Included} : ∀ (fuel : Nat) (s s' : Prep),
    Top (incLine code) code s.i → prepLoop path code line inc fuel s = some s' → ∀ k, Top (incLine code) code k → s.i ≤ k → k < code.length →
    nextI code k ≠ k ∧ ∀ b e arg, IncludeLine code b e arg → Hash code b k → inc arg ≠ none
  | 0, s, s', ht, h, k, hk, h1, h2 => by
    rw [prepLoop, if_pos (by omega)] at h; cases h
  | fuel + 1, s, s', ht, h, k, hk, h1, h2 => by
    rw [prepLoop, if_pos (by omega)] at h
    cases hs : prepStep path code line inc s with
    | none => rw [hs] at h; cases h
    | some t =>
      rw [hs] at h
      have hi := prepStep_i hs
      have hlt : s.i < code.length := by omega
      have htop : Top (incLine code) code t.i ∨ code.length ≤ t.i := by
        rw [hi]
        rcases next_piece hlt with h | h | h
        · exact .inl (.next ht h)
        · rw [h.1]; exact .inl ht
        · exact .inr h
      rcases Nat.lt_or_ge s.i k with h3 | h3
      · have := top_gap ht hk h3
        rcases htop with htop | htop
        · exact ends_all fuel t s' htop h k hk (by omega) h2
        · omega
      · have : s.i = k := by omega
        subst this
        refine ⟨fun he => ?_, fun b e arg hl hh hn => ?_⟩
        · rw [he] at hi
          exact (ends_all fuel t s' (by rw [hi]; exact ht) h s.i hk (by omega) h2).1 he
        · rw [prepStep_fails hl hh hn] at hs; cases hs

theorem ends_of {path code : List Nat} {line : Nat} {inc : List Nat → Option Included}
    (h1 : ∀ i, Top (incLine code) code i → LongString code i → ∃ j, Long code i j)
    (h2 : ∀ b e arg, IncludeLine code b e arg → Live code b → inc arg ≠ none) : ∀ (fuel : Nat) (s : Prep),
    (Top (incLine code) code s.i ∨ code.length ≤ s.i) → code.length ≤ s.i + fuel → prepLoop path code line inc fuel s ≠ none
  | 0, s, _, hl => by rw [prepLoop, if_neg (by omega)]; exact nofun
  | fuel + 1, s, ht, hl => by
    rw [prepLoop]
    by_cases hlt : s.i < code.length
    · rw [if_pos hlt]
      have ht : Top (incLine code) code s.i := ht.resolve_right (by omega)
      cases hs : prepStep path code line inc s with
      | none =>
        obtain ⟨b, e, arg, g1, g2, g3⟩ := prepStep_none hlt hs
        exact absurd g3 (h2 b e arg g1 ⟨_, g2, ht⟩)
      | some t =>
        have hi := prepStep_i hs
        simp only [Option.bind_some]
        rcases next_piece hlt with h | h | h
        · have := (piece_next h).2
          exact ends_of h1 h2 fuel t (by rw [hi]; exact .inl (.next ht h)) (by omega)
        · obtain ⟨j, hj⟩ := h1 _ ht h.2.1
          exact absurd hj (h.2.2 j)
        · exact ends_of h1 h2 fuel t (by rw [hi]; exact .inr h) (by omega)
    · rw [if_neg hlt]; exact nofun

/-- **C43.** Preprocessing ends (and succeeds) exactly if every `[[` at the top level is closed and every file named by an include line at
the top level can be read; it then takes at most as many iterations as there are characters. -/
theorem C43_ends_iff (path code : List Nat) (line : Nat) (inc : List Nat → Option Included) :
    ((∃ fuel r, preprocess path code line inc fuel = some r) ↔
      (∀ i, Top (incLine code) code i → LongString code i → ∃ j, Long code i j) ∧
      ∀ b e arg, IncludeLine code b e arg → Live code b → inc arg ≠ none) ∧
    ((∃ fuel r, preprocess path code line inc fuel = some r) → preprocess path code line inc code.length ≠ none) := by
  have key : (∃ fuel r, preprocess path code line inc fuel = some r) →
      (∀ i, Top (incLine code) code i → LongString code i → ∃ j, Long code i j) ∧
      ∀ b e arg, IncludeLine code b e arg → Live code b → inc arg ≠ none := by
    rintro ⟨fuel, r, h⟩
    unfold preprocess at h
    simp only [Option.map_eq_some_iff] at h
    obtain ⟨s', h, -⟩ := h
    have hall := ends_all fuel _ s' .start h
    refine ⟨fun i ht hls => ?_, fun b e arg hl ⟨k, hh, hk⟩ => ?_⟩
    · have hlt := (List.getElem?_eq_some_iff.1 hls.1).1
      have hne := (hall i ht (Nat.zero_le _) hlt).1
      cases hk : skipLong code i with
      | some j => exact ⟨j, skipLong_iff.1 hk⟩
      | none =>
        refine absurd ?_ hne
        have hls : code[i]? = some 91 ∧ code[i + 1]? = some 91 := hls
        unfold nextI
        rw [if_neg (by rw [hls.1]; simp), if_pos hls, hk]; rfl
    · have hlt := (List.getElem?_eq_some_iff.1 hh.2.1).1
      exact (hall k hk (Nat.zero_le _) hlt).2 b e arg hl hh
  have conv : ((∀ i, Top (incLine code) code i → LongString code i → ∃ j, Long code i j) ∧
      ∀ b e arg, IncludeLine code b e arg → Live code b → inc arg ≠ none) → preprocess path code line inc code.length ≠ none := by
    rintro ⟨h1, h2⟩ h
    unfold preprocess at h
    rw [Option.map_eq_none_iff] at h
    exact ends_of h1 h2 code.length _ (.inl .start) (by simp) h
  refine ⟨⟨key, fun h => ?_⟩, fun h => conv (key h)⟩
  cases hp : preprocess path code line inc code.length with
  | none => exact absurd hp (conv h)
  | some r => exact ⟨_, r, hp⟩

/-! ### Cases -/

/-- `--#include i`, then `"` and `[[#include i` in strings and an include line that counts. -/
def topSrc : List Nat := [45, 45] ++ (includeWord ++ [32, 105]) ++ [10, 34, 92, 10] ++ (includeWord ++ [32, 105]) ++ [10, 34, 10, 91, 91, 10] ++
  (includeWord ++ [32, 105]) ++ [10, 93, 93, 10, 32] ++ (includeWord ++ [32, 105])

/-- Only the last one is replaced (by `ab`), with the blank before it. -/
example : (preprocess [1] topSrc 0 nestInc 100).map Prod.fst = some (topSrc.take 46 ++ [97, 98]) := by decide +kernel

/-- **C43**: the strings that count are those with `[[`: an include line within `[=[` and `]=]` is expanded, which changes the string. -/
theorem C43_level_counterexample : (preprocess [1] ([91, 61, 91, 10] ++ (includeWord ++ [32, 105]) ++ [10, 93, 61, 93]) 0 nestInc 100).map Prod.fst =
    some ([91, 61, 91, 10] ++ [97, 98] ++ [10, 93, 61, 93]) := by decide +kernel

end Verif
