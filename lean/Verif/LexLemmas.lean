import Verif.Lex
import Verif.StrLitLemmas
/- Helper lemmas about the tokenizer: a token depends on its own text and at most one character after it. -/
namespace Verif

/-- The next character is the same, or there is none, or it is whitespace. -/
def Compat (h h' : Option Nat) : Prop := h' = h ∨ h' = none ∨ ∃ w, isWspace w = true ∧ h' = some w

theorem isWspace_cases {c : Nat} (h : isWspace c = true) : c = 32 ∨ c = 9 ∨ c = 13 ∨ c = 10 := by
  simp only [isWspace, Bool.or_eq_true, beq_iff_eq] at h
  omega

/-- What does not continue a token still does not under `Compat`. -/
theorem Compat.not {P : Nat → Bool} {h h' : Option Nat} (hc : Compat h h') (hP : ∀ w, isWspace w = true → P w = false)
    (hh : ∀ x, h = some x → P x = false) : ∀ x, h' = some x → P x = false := by
  intro x hx
  rcases hc with hc | hc | ⟨w, hw, hc⟩
  · exact hh x (hc ▸ hx)
  · rw [hc] at hx; cases hx
  · rw [hc] at hx; cases hx; exact hP _ hw

theorem Compat.ne {h h' : Option Nat} {c : Nat} (hc : Compat h h') (hw : isWspace c = false) (hh : h ≠ some c) : h' ≠ some c := by
  rcases hc with hc | hc | ⟨w, hw', hc⟩
  · rwa [hc]
  · rw [hc]; simp
  · rw [hc]; intro h2; cases h2; rw [hw] at hw'; cases hw'

theorem takeWhile_len_iff {p : Nat → Bool} {a b : List Nat} :
    ((a ++ b).takeWhile p).length = a.length ↔ (∀ x ∈ a, p x = true) ∧ ∀ x, b.head? = some x → p x = false := by
  induction a with
  | nil =>
    cases b with
    | nil => simp
    | cons x b => by_cases h : p x = true <;> simp [h]
  | cons y a ih =>
    simp only [List.cons_append, List.takeWhile_cons]
    split
    · next h =>
      simp only [List.length_cons, Nat.add_right_cancel_iff, ih, List.mem_cons, forall_eq_or_imp, h, true_and]
    · next h => simp [h]

theorem isIdentChar_wspace {p8 : Bool} {w : Nat} (h : isWspace w = true) : isIdentChar p8 w = false := by
  rcases isWspace_cases h with rfl | rfl | rfl | rfl <;> cases p8 <;> decide

theorem isDigit_wspace {w : Nat} (h : isWspace w = true) : isDigit w = false := by
  rcases isWspace_cases h with rfl | rfl | rfl | rfl <;> decide

theorem isDigit_ident {p8 : Bool} {c : Nat} (h : isDigit c = true) : isIdentChar p8 c = true := by
  simp only [isDigit, Bool.and_eq_true, decide_eq_true_eq] at h
  simp [isIdentChar, h]

theorem numDigit_wspace {b w : Nat} (h : isWspace w = true) : numDigit b w = false := by
  rcases isWspace_cases h with rfl | rfl | rfl | rfl <;> (unfold numDigit; split <;> (try split) <;> decide)

/-- `numScan` on a number followed by something else. -/
theorem numScan_local {hx : Bool} : ∀ {t : List Nat} {prev : Nat} {r r' : List Nat}, Compat r.head? r'.head? →
    numScan hx prev (t ++ r) = t.length → numScan hx prev (t ++ r') = t.length
  | [], prev, r, r', hc, h => by
    simp only [List.nil_append, List.length_nil] at h ⊢
    cases r' with
    | nil => rfl
    | cons y r' =>
      have := hc.not (P := numGo hx prev)
        (by intro w hw; unfold numGo; rw [isIdentChar_wspace hw]; rcases isWspace_cases hw with rfl | rfl | rfl | rfl <;> simp)
        (by
          intro x hx'
          cases r with
          | nil => cases hx'
          | cons z r =>
            simp only [List.head?_cons, Option.some.injEq] at hx'
            subst hx'
            simp only [numScan] at h
            split at h
            · omega
            · next h2 => simpa using h2) y (by simp)
      simp only [numScan, this]
      rfl
  | c :: t, prev, r, r', hc, h => by
    simp only [List.cons_append, numScan, List.length_cons] at h ⊢
    split at h
    · next hg => rw [if_pos hg, numScan_local (t := t) hc (by omega)]
    · omega

theorem headIn_not {h : Option Nat} {cs : List Nat} (hh : ∀ x, h = some x → cs.contains x = false) : headIn h cs = false := by
  cases h with
  | none => rfl
  | some x => exact hh x rfl

theorem headIn_false {h : Option Nat} {cs : List Nat} (hh : headIn h cs = false) : ∀ x, h = some x → cs.contains x = false := by
  rintro x rfl; exact hh

theorem Compat.headIn {h h' : Option Nat} {cs : List Nat} (hc : Compat h h') (hw : ∀ w, isWspace w = true → cs.contains w = false)
    (hh : headIn h cs = false) : headIn h' cs = false :=
  headIn_not (hc.not hw (headIn_false hh))

theorem wspace_not98 : ∀ w, isWspace w = true → [98, 66].contains w = false := by
  intro w h; rcases isWspace_cases h with rfl | rfl | rfl | rfl <;> decide
theorem wspace_not120 : ∀ w, isWspace w = true → [120, 88].contains w = false := by
  intro w h; rcases isWspace_cases h with rfl | rfl | rfl | rfl <;> decide

theorem head_append_ne {t r : List Nat} (h : t ≠ []) : (t ++ r).head? = t.head? := by
  cases t with
  | nil => exact absurd rfl h
  | cons => rfl

/-- The PICO-8 part: a prefix of two characters. -/
theorem numLen_prefix {t r r' : List Nat} {b : Nat} {c d : Nat} (hc : Compat r.head? r'.head?)
    (h : 2 + (((c :: d :: t ++ r).drop 2).takeWhile (numDigit b)).length = (c :: d :: t).length) :
    2 + (((c :: d :: t ++ r').drop 2).takeWhile (numDigit b)).length = (c :: d :: t).length := by
  simp only [List.cons_append, List.drop_succ_cons, List.drop_zero, List.length_cons] at h ⊢
  have h1 : ((t ++ r).takeWhile (numDigit b)).length = t.length := by omega
  rw [takeWhile_len_iff] at h1
  rw [(takeWhile_len_iff (p := numDigit b) (a := t) (b := r')).mpr ⟨h1.1, hc.not (fun w => numDigit_wspace) h1.2⟩]
  omega

theorem numLen_local {p8 : Bool} {t r r' : List Nat} (ht : t ≠ []) (hc : Compat r.head? r'.head?)
    (h : numLen p8 (t ++ r) = t.length) : numLen p8 (t ++ r') = t.length := by
  cases t with
  | nil => exact absurd rfl ht
  | cons c t =>
    cases p8 with
    | false =>
      simp only [numLen, List.cons_append, List.head?_cons, List.drop_succ_cons, List.drop_zero, Bool.false_eq_true, if_false] at h ⊢
      cases t with
      | cons d t =>
        simp only [List.cons_append, List.head?_cons] at h ⊢
        exact numScan_local (t := c :: d :: t) hc h
      | nil =>
        simp only [List.nil_append] at h ⊢
        have key : ((some c == some 48 && headIn r.head? [120, 88]) = (some c == some 48 && headIn r'.head? [120, 88])) ∨
            numScan (some c == some 48 && headIn r.head? [120, 88]) 0 (c :: r) ≠ 1 := by
          cases hr : headIn r.head? [120, 88] with
          | false => left; rw [hc.headIn wspace_not120 hr]
          | true =>
            right
            cases r with
            | nil => simp [headIn] at hr
            | cons x r =>
              simp only [numScan]
              have hx : isIdentChar false x = true := by
                simp only [headIn, List.head?_cons, List.contains_cons, List.contains_nil, Bool.or_false, Bool.or_eq_true, beq_iff_eq] at hr
                rcases hr with rfl | rfl <;> decide
              have hx2 : numGo (some c == some 48 && headIn (x :: r).head? [120, 88]) c x = true := by unfold numGo; rw [hx]; rfl
              rw [hr] at hx2
              rw [hx2]
              simp only [if_true]
              split <;> omega
        rcases key with key | key
        · rw [← key]
          exact numScan_local (t := [c]) hc h
        · exact absurd h key
    | true =>
      simp only [numLen, if_true] at h ⊢
      cases t with
      | cons d t =>
        simp only [List.cons_append, List.head?_cons, List.drop_succ_cons, List.drop_zero] at h ⊢
        split
        · next hb => rw [if_pos hb] at h; exact numLen_prefix hc (by simpa using h)
        · next hb =>
          rw [if_neg hb] at h
          split
          · next hb => rw [if_pos hb] at h; exact numLen_prefix hc (by simpa using h)
          · next hb =>
            rw [if_neg hb] at h
            have h1 := (takeWhile_len_iff (p := numDigit 10) (a := c :: d :: t) (b := r)).mp h
            exact (takeWhile_len_iff (p := numDigit 10) (a := c :: d :: t) (b := r')).mpr ⟨h1.1, hc.not (fun w => numDigit_wspace) h1.2⟩
      | nil =>
        simp only [List.cons_append, List.nil_append, List.head?_cons, List.drop_succ_cons, List.drop_zero, List.length_cons, List.length_nil] at h ⊢
        by_cases hb : (some c == some 48 && headIn r.head? [98, 66]) = true
        · rw [if_pos hb] at h; omega
        · rw [if_neg hb] at h
          by_cases hb2 : (some c == some 48 && headIn r.head? [120, 88]) = true
          · rw [if_pos hb2] at h; omega
          · rw [if_neg hb2] at h
            have g1 : ¬ (some c == some 48 && headIn r'.head? [98, 66]) = true := by
              intro h3
              rw [Bool.and_eq_true] at h3
              have : headIn r.head? [98, 66] = false := by
                cases h4 : headIn r.head? [98, 66] with
                | false => rfl
                | true => exact absurd (by rw [h3.1, h4]; rfl) hb
              rw [hc.headIn wspace_not98 this] at h3; simp at h3
            have g2 : ¬ (some c == some 48 && headIn r'.head? [120, 88]) = true := by
              intro h3
              rw [Bool.and_eq_true] at h3
              have : headIn r.head? [120, 88] = false := by
                cases h4 : headIn r.head? [120, 88] with
                | false => rfl
                | true => exact absurd (by rw [h3.1, h4]; rfl) hb2
              rw [hc.headIn wspace_not120 this] at h3; simp at h3
            rw [if_neg g1, if_neg g2]
            have h1 := (takeWhile_len_iff (p := numDigit 10) (a := [c]) (b := r)).mp h
            exact (takeWhile_len_iff (p := numDigit 10) (a := [c]) (b := r')).mpr ⟨h1.1, hc.not (fun w => numDigit_wspace) h1.2⟩


theorem lex_mem_takeWhile {p : Nat → Bool} {a : Nat} : ∀ {l : List Nat}, a ∈ l.takeWhile p → p a = true
  | [], h => by simp at h
  | c :: l, h => by
    rw [List.takeWhile_cons] at h
    split at h
    · next hc =>
      rcases List.mem_cons.mp h with rfl | h
      · exact hc
      · exact lex_mem_takeWhile h
    · simp at h

theorem lex_drop_takeWhile {p : Nat → Bool} : ∀ {l : List Nat}, l.drop (l.takeWhile p).length = l.dropWhile p
  | [] => rfl
  | c :: l => by
    rw [List.takeWhile_cons, List.dropWhile_cons]
    split
    · simpa using lex_drop_takeWhile
    · rfl

theorem scanString_local {q : Nat} : ∀ (n : Nat) {s r : List Nat}, s.length = n → scanString q s = some r →
    ∃ p, p ≠ [] ∧ s = p ++ r ∧ ∀ r', scanString q (p ++ r') = some r' := by
  intro n
  induction n using Nat.strongRecOn with
  | ind n ih =>
    intro s r hn h
    cases s with
    | nil => simp [scanString] at h
    | cons c s =>
      rw [scanString.eq_def] at h
      simp only at h
      split at h
      · cases h
      · next h10 =>
        split at h
        · next h92 =>
          subst h92
          cases s with
          | nil => simp at h
          | cons d s =>
            simp only at h
            split at h
            · next hd =>
              subst hd
              have hlen := length_dropWhile_le (p := isWspace) s
              obtain ⟨p, hp, hs, hall⟩ := ih _ (by simp at hn; omega) rfl h
              refine ⟨92 :: 122 :: (s.takeWhile isWspace ++ p), by simp, ?_, ?_⟩
              · simp only [List.cons_append, List.append_assoc, ← hs, List.takeWhile_append_dropWhile]
              · intro r'
                simp only [List.cons_append, List.append_assoc]
                rw [scanString.eq_def]
                simp only [if_true, show ¬ (92 : Nat) = 10 from by decide, if_false]
                have hd : (s.takeWhile isWspace ++ (p ++ r')).dropWhile isWspace = p ++ r' := by
                  rw [List.dropWhile_append_of_pos (fun a ha => lex_mem_takeWhile ha)]
                  cases p with
                  | nil => exact absurd rfl hp
                  | cons x p =>
                    have hx : isWspace x = false := by
                      have h1 := List.head?_dropWhile_not isWspace s
                      rw [hs] at h1; simpa using h1
                    simp [hx]
                rw [hd]; exact hall r'
            · next hd =>
              obtain ⟨p, hp, hs, hall⟩ := ih _ (by simp at hn; omega) rfl h
              refine ⟨92 :: d :: p, by simp, by rw [hs]; rfl, fun r' => ?_⟩
              rw [List.cons_append, List.cons_append, scan_esc hd]; exact hall r'
        · next h92 =>
          split at h
          · next hq =>
            simp only [Option.some.injEq] at h
            subst h hq
            refine ⟨[c], by simp, rfl, fun r' => ?_⟩
            rw [List.cons_append, List.nil_append, scanString.eq_def]
            simp [h10, h92]
          · next hq =>
            obtain ⟨p, hp, hs, hall⟩ := ih _ (by simp at hn; omega) rfl h
            refine ⟨c :: p, by simp, by rw [hs]; rfl, fun r' => ?_⟩
            rw [List.cons_append, scan_skip h10 h92 hq]; exact hall r'

theorem splitAt_local {p : List Nat} (hp : p ≠ []) : ∀ {s a b : List Nat} (b' : List Nat), splitAt p s = some (a, b) →
    splitAt p (a ++ p ++ b') = some (a, b')
  | [], a, b, b', h => by
    simp [splitAt, hp] at h
  | c :: s, a, b, b', h => by
    have hs := splitAt_some h
    simp only [splitAt] at h
    split at h
    · next hpre =>
      simp only [Option.some.injEq, Prod.mk.injEq] at h
      rw [← h.1]
      cases p with
      | nil => exact absurd rfl hp
      | cons x p =>
        have : (x :: p).isPrefixOf (x :: (p ++ b')) = true := by
          rw [List.isPrefixOf_iff_prefix]; exact ⟨b', rfl⟩
        simp [splitAt, this]
    · next hpre =>
      simp only [Option.map_eq_some_iff] at h
      obtain ⟨⟨a', b1⟩, h1, h2⟩ := h
      simp only [Prod.mk.injEq] at h2
      rw [← h2.1]
      have hn : ¬ p.isPrefixOf (c :: (a' ++ p ++ b')) = true := by
        rw [List.isPrefixOf_iff_prefix] at hpre ⊢
        intro hpre2
        apply hpre
        have : p <+: c :: (a' ++ p) := by
          have h3 : (c :: (a' ++ p)) <+: c :: (a' ++ p ++ b') := ⟨b', by simp⟩
          exact List.prefix_of_prefix_length_le hpre2 h3 (by simp; omega)
        rw [hs, ← h2.1]
        exact this.trans ⟨b, by simp⟩
      have ih := splitAt_local hp b' h1
      simp only [List.cons_append, splitAt, hn, ih]
      simp

theorem closer_ne (n : Nat) : closer n ≠ [] := by simp [closer]

theorem scanLong_local {s body r : List Nat} (h : scanLong s = some (body, r)) :
    ∃ p, 1 < p.length ∧ s = p ++ r ∧ ∀ r', scanLong (p ++ r') = some (body, r') := by
  unfold scanLong at h
  split at h
  · next r0 =>
    simp only at h
    split at h
    · next r1 hr1 =>
      have hs := splitAt_some h
      have h0 : r0 = List.replicate (r0.takeWhile (· == 61)).length 61 ++ 91 :: r1 := by
        rw [← hr1]
        have : List.replicate (r0.takeWhile (· == 61)).length 61 = r0.takeWhile (· == 61) := by
          symm
          rw [List.eq_replicate_iff]
          exact ⟨rfl, fun b hb => by simpa using lex_mem_takeWhile hb⟩
        rw [this, lex_drop_takeWhile, List.takeWhile_append_dropWhile]
      generalize (r0.takeWhile (· == 61)).length = n at *
      refine ⟨91 :: (List.replicate n 61 ++ 91 :: (body ++ closer n)), by simp; omega, ?_, ?_⟩
      · rw [h0, hs]; simp
      · intro r'
        unfold scanLong
        simp only [List.cons_append, List.append_assoc]
        rw [takeWhile_replicate61]
        simp only [List.length_replicate]
        rw [List.drop_left' (by simp)]
        have := splitAt_local (closer_ne n) r' h
        simpa using this
    · cases h
  · cases h

theorem Compat.beq {h h' : Option Nat} {c : Nat} (hc : Compat h h') (hw : isWspace c = false) (hh : (h == some c) = false) : (h' == some c) = false := by
  have := hc.ne hw (by simpa using hh)
  simpa using this

theorem wspace61 : isWspace 61 = false := by decide

theorem punctLen_local {p8 : Bool} {c : Nat} {t r r' : List Nat} (hcw : isWspace c = false) (hc : Compat r.head? r'.head?)
    (h : punctLen p8 c (t ++ r) = t.length + 1) : punctLen p8 c (t ++ r') = t.length + 1 := by
  have n61 : r.head? ≠ some 61 → r'.head? ≠ some 61 := hc.ne (by decide)
  have n60 : r.head? ≠ some 60 → r'.head? ≠ some 60 := hc.ne (by decide)
  have n62 : r.head? ≠ some 62 → r'.head? ≠ some 62 := hc.ne (by decide)
  have nc : r.head? ≠ some c → r'.head? ≠ some c := hc.ne hcw
  match t, h with
  | [], h =>
    simp only [punctLen, List.nil_append, List.length_nil] at h ⊢
    generalize [46, 58, 47, 94, 60, 62].contains c = b1 at *
    generalize [46, 47, 94, 60, 62].contains c = b2 at *
    generalize [43, 45, 42, 47, 92, 37, 38, 124, 94, 60, 62, 61, 126].contains c = b3 at *
    grind
  | [a], h =>
    simp only [punctLen, List.cons_append, List.nil_append, List.length_cons, List.length_nil, List.drop_succ_cons, List.drop_zero, List.head?_cons] at h ⊢
    generalize [46, 58, 47, 94, 60, 62].contains c = b1 at *
    generalize [46, 47, 94, 60, 62].contains c = b2 at *
    generalize [43, 45, 42, 47, 92, 37, 38, 124, 94, 60, 62, 61, 126].contains c = b3 at *
    grind
  | [a, b], h =>
    simp only [punctLen, List.cons_append, List.nil_append, List.length_cons, List.length_nil, List.drop_succ_cons, List.drop_zero, List.head?_cons] at h ⊢
    generalize [46, 58, 47, 94, 60, 62].contains c = b1 at *
    generalize [46, 47, 94, 60, 62].contains c = b2 at *
    generalize [43, 45, 42, 47, 92, 37, 38, 124, 94, 60, 62, 61, 126].contains c = b3 at *
    grind
  | a :: b :: d :: t, h =>
    simp only [punctLen, List.cons_append, List.length_cons, List.drop_succ_cons, List.drop_zero, List.head?_cons] at h ⊢
    generalize [46, 58, 47, 94, 60, 62].contains c = b1 at *
    generalize [46, 47, 94, 60, 62].contains c = b2 at *
    generalize [43, 45, 42, 47, 92, 37, 38, 124, 94, 60, 62, 61, 126].contains c = b3 at *
    grind


theorem lexClass_local {p8 : Bool} {c : Nat} {h h' : Option Nat} (hc : Compat h h')
    (hk : lexClass p8 c h = .num ∧ isDigit c = true ∨ lexClass p8 c h = .ident ∨ lexClass p8 c h = .punct) :
    lexClass p8 c h' = lexClass p8 c h := by
  have n61 : h ≠ some 61 → h' ≠ some 61 := hc.ne (by decide)
  have n91 : h ≠ some 91 → h' ≠ some 91 := hc.ne (by decide)
  have n45 : h ≠ some 45 → h' ≠ some 45 := hc.ne (by decide)
  have n47 : h ≠ some 47 → h' ≠ some 47 := hc.ne (by decide)
  have nd : headDigit h = false → headDigit h' = false := by
    intro hd
    have := hc.not (P := isDigit) (fun w => isDigit_wspace) (by rintro x rfl; exact hd)
    cases h' with
    | none => rfl
    | some x => exact this x rfl
  have i46 : isIdentChar p8 46 = false := by cases p8 <;> decide
  have p33 : punctChars.contains 33 = false := by decide
  have d46 : isDigit 46 = false := by decide
  unfold lexClass at hk ⊢
  generalize punctChars.contains c = b at *
  by_cases h1 : isWspace c = true
  · simp [h1]
  by_cases h2 : isDigit c = true
  · simp [h1, h2]
  by_cases h46 : c = 46
  · subst h46
    cases hd : headDigit h with
    | true => simp [h1, d46, hd] at hk
    | false => simp [nd hd]
  by_cases h3 : isIdentChar p8 c = true
  · simp [h1, h2, h46, h3]
  by_cases h4 : c = 34 ∨ c = 39
  · simp [h1, h2, h46, h3, h4]
  by_cases h5 : c = 91
  · subst h5
    by_cases ha : h = some 61
    · simp [h1, h2, h3, ha] at hk
    · by_cases hb : h = some 91
      · simp [h1, h2, h3, hb] at hk
      · simp [ha, hb, n61 ha, n91 hb]
  by_cases h6 : c = 45
  · subst h6
    by_cases ha : h = some 45
    · simp [h1, h2, h3, ha] at hk
    · simp [ha, n45 ha]
  by_cases h7 : c = 47
  · subst h7
    by_cases ha : h = some 47
    · cases p8 <;> simp [h1, h2, h3, ha] at hk ⊢
    · simp [ha, n47 ha]
  by_cases h8 : c = 33
  · subst h8
    cases b with
    | true => simp
    | false =>
      exfalso
      simp [h1, h2, h3] at hk
      by_cases ha : h = some 61 <;> simp [ha] at hk
  simp [h1, h2, h46, h3, h4, h5, h6, h7, h8]

theorem numScan_le {hx : Bool} : ∀ {l : List Nat} {prev : Nat}, numScan hx prev l ≤ l.length
  | [], _ => Nat.le_refl _
  | c :: l, prev => by
    simp only [numScan, List.length_cons]
    have := numScan_le (hx := hx) (l := l) (prev := c)
    split <;> omega

theorem headIn_some {h : Option Nat} {cs : List Nat} (hh : headIn h cs = true) : ∃ x, h = some x ∧ x ∈ cs := by
  cases h with
  | none => cases hh
  | some x => exact ⟨x, rfl, by simpa [headIn] using hh⟩

theorem takeWhile_len_le {p : Nat → Bool} {l : List Nat} : (l.takeWhile p).length ≤ l.length := by
  have := congrArg List.length (List.takeWhile_append_dropWhile (p := p) (l := l))
  simp only [List.length_append] at this; omega

theorem numLen_bounds {p8 : Bool} {c : Nat} {r : List Nat} (h : isDigit c = true ∨ c = 46) :
    1 ≤ numLen p8 (c :: r) ∧ numLen p8 (c :: r) ≤ (c :: r).length := by
  cases p8 with
  | false =>
    simp only [numLen, Bool.false_eq_true, if_false]
    refine ⟨?_, numScan_le⟩
    simp only [numScan]
    have : numGo (((c :: r).head? == some 48) && headIn ((c :: r).drop 1).head? [120, 88]) 0 c = true := by
      unfold numGo
      rcases h with h | rfl
      · rw [isDigit_ident h]; rfl
      · simp
    rw [this]; simp
  | true =>
    have key : ∀ b cs, headIn r.head? cs = true → 2 + (((c :: r).drop 2).takeWhile (numDigit b)).length ≤ (c :: r).length := by
      intro b cs h
      obtain ⟨x, hx, _⟩ := headIn_some h
      cases r with
      | nil => cases hx
      | cons y r =>
        have := takeWhile_len_le (p := numDigit b) (l := r)
        simp; omega
    simp only [numLen, if_true, List.drop_succ_cons, List.drop_zero]
    split
    · next h1 => rw [Bool.and_eq_true] at h1; exact ⟨by omega, key _ _ h1.2⟩
    · split
      · next h1 => rw [Bool.and_eq_true] at h1; exact ⟨by omega, key _ _ h1.2⟩
      · refine ⟨?_, takeWhile_len_le⟩
        have : numDigit 10 c = true := by
          rcases h with h | rfl
          · simp [numDigit, h]
          · decide
        simp [this]

theorem punctLen_bounds {p8 : Bool} {c : Nat} {r : List Nat} : 1 ≤ punctLen p8 c r ∧ punctLen p8 c r ≤ r.length + 1 := by
  unfold punctLen
  generalize [46, 58, 47, 94, 60, 62].contains c = b1 at *
  generalize [46, 47, 94, 60, 62].contains c = b2 at *
  generalize [43, 45, 42, 47, 92, 37, 38, 124, 94, 60, 62, 61, 126].contains c = b3 at *
  match r with
  | [] => simp
  | [a] => simp; split <;> (try split) <;> omega
  | [a, b] => simp; repeat' split
              all_goals omega
  | a :: b :: d :: r => simp; repeat' split
                        all_goals omega

theorem cutTok_eq {k k' : TokKind} {n : Nat} {t r : List Nat} (hn : n ≤ (t ++ r).length) :
    cutTok k n (t ++ r) = .tok k' t r ↔ k = k' ∧ n = t.length := by
  unfold cutTok
  simp only [LexStep.tok.injEq]
  constructor
  · rintro ⟨h1, h2, h3⟩
    refine ⟨h1, ?_⟩
    have := congrArg List.length h2
    simp only [List.length_take] at this; omega
  · rintro ⟨h1, rfl⟩
    exact ⟨h1, by simp, by simp⟩

theorem cutTok_cons {k k' : TokKind} {n c : Nat} {t r : List Nat} (hn : n ≤ (c :: (t ++ r)).length) :
    cutTok k n (c :: (t ++ r)) = .tok k' (c :: t) r ↔ k = k' ∧ n = t.length + 1 :=
  cutTok_eq (t := c :: t) hn

/-- A token is cut off the front of the text. -/
theorem lexStep_append {p8 : Bool} {l t r : List Nat} {k : TokKind} (h : lexStep p8 l = .tok k t r) : l = t ++ r := by
  have hcut : ∀ {k' n l'}, cutTok k' n l' = .tok k t r → l' = t ++ r := by
    intro k' n l' h
    unfold cutTok at h
    simp only [LexStep.tok.injEq] at h
    rw [← h.2.1, ← h.2.2, List.take_append_drop]
  unfold lexStep at h
  split at h
  · cases h
  · split at h
    · cases h
    · exact hcut h
    · exact hcut h
    · split at h
      · exact hcut h
      · cases h
    · split at h
      · exact hcut h
      · cases h
    · unfold lexComment at h
      split at h
      · split at h <;> cases h
      · cases h
    · cases h
    · exact hcut h
    · exact hcut h
    · cases h

theorem lexClass_num {p8 : Bool} {c : Nat} {h : Option Nat} (hk : lexClass p8 c h = .num) :
    isDigit c = true ∨ c = 46 ∧ headDigit h = true := by
  unfold lexClass at hk; grind

theorem lexClass_ident {p8 : Bool} {c : Nat} {h : Option Nat} (hk : lexClass p8 c h = .ident) : isIdentChar p8 c = true := by
  unfold lexClass at hk; grind

theorem lexClass_punct {p8 : Bool} {c : Nat} {h : Option Nat} (hk : lexClass p8 c h = .punct) : isWspace c = false := by
  unfold lexClass at hk; grind

theorem lexClass_notEq {p8 : Bool} {c : Nat} {h : Option Nat} (hk : lexClass p8 c h = .notEq) : h = some 61 := by
  unfold lexClass at hk; grind

theorem numLen_dot {p8 : Bool} {x : Nat} {r : List Nat} (h : isDigit x = true) : 2 ≤ numLen p8 (46 :: x :: r) := by
  cases p8 with
  | false =>
    have h1 : ∀ hx, numGo hx 0 46 = true := by intro hx; cases hx <;> decide
    have h2 : ∀ hx, numGo hx 46 x = true := by intro hx; unfold numGo; rw [isDigit_ident h]; rfl
    simp only [numLen, Bool.false_eq_true, if_false, numScan, h1, h2, if_true]
    omega
  | true =>
    have h1 : numDigit 10 46 = true := by decide
    have h2 : numDigit 10 x = true := by simp [numDigit, h]
    simp [numLen, h1, h2]

/-- The tokenizer only needs one character after a token, and whitespace or the end will do. -/
theorem lexStep_local {p8 : Bool} {t r r' : List Nat} {k : TokKind} (hc : Compat r.head? r'.head?)
    (h : lexStep p8 (t ++ r) = .tok k t r) : t ≠ [] ∧ lexStep p8 (t ++ r') = .tok k t r' := by
  cases t with
  | nil =>
    exfalso
    cases r with
    | nil => cases h
    | cons c r =>
      simp only [List.nil_append, lexStep] at h
      have cutNe : ∀ {k' n}, 1 ≤ n → cutTok k' n (c :: r) ≠ .tok k [] (c :: r) := by
        intro k' n hn h
        unfold cutTok at h
        simp only [LexStep.tok.injEq] at h
        have := congrArg List.length h.2.2
        simp only [List.length_drop, List.length_cons] at this; omega
      split at h
      · cases h
      · next hk => exact cutNe (numLen_bounds ((lexClass_num hk).imp id And.left)).1 h
      · next hk =>
        refine cutNe ?_ h
        simp [lexClass_ident hk]
      · split at h
        · next rest hs =>
          refine cutNe ?_ h
          obtain ⟨p, hp, hs, _⟩ := scanString_local _ rfl hs
          rw [hs]; simp; omega
        · cases h
      · split at h
        · next rest hs =>
          refine cutNe ?_ h
          obtain ⟨p, hp, hs, _⟩ := scanLong_local hs
          rw [hs]; simp; omega
        · cases h
      · unfold lexComment at h
        split at h
        · split at h <;> cases h
        · cases h
      · cases h
      · exact cutNe punctLen_bounds.1 h
      · exact cutNe (by decide) h
      · cases h
  | cons c t =>
    refine ⟨by simp, ?_⟩
    -- the class does not change
    have hcls : lexClass p8 c (t ++ r').head? = lexClass p8 c (t ++ r).head? := by
      cases t with
      | cons d t => rfl
      | nil =>
        simp only [List.nil_append]
        simp only [List.cons_append, List.nil_append, lexStep] at h
        have cutOne : ∀ {k' n}, n ≤ (c :: r).length → cutTok k' n (c :: r) = .tok k [c] r → n = 1 := by
          intro k' n hn h
          exact ((cutTok_eq (t := [c]) (r := r) (by simpa using hn)).mp h).2
        apply lexClass_local hc
        split at h
        · cases h
        · next hk =>
          refine Or.inl ⟨hk, ?_⟩
          rcases lexClass_num hk with h1 | ⟨h1, h2⟩
          · exact h1
          · exfalso
            have h3 := cutOne (numLen_bounds (Or.inr h1)).2 h
            cases r with
            | nil => cases h2
            | cons x r =>
              subst h1
              have := numLen_dot (p8 := p8) (r := r) (show isDigit x = true from h2)
              omega
        · next hk => exact Or.inr (Or.inl hk)
        · split at h
          · next rest hs =>
            exfalso
            obtain ⟨p, hp, hs, _⟩ := scanString_local _ rfl hs
            have := cutOne (by simp) h
            have h4 := congrArg List.length hs
            have h5 : 0 < p.length := List.length_pos_iff.mpr hp
            simp only [List.length_append, List.length_cons] at h4 this; omega
          · cases h
        · split at h
          · next rest hs =>
            exfalso
            obtain ⟨p, hp, hs, _⟩ := scanLong_local hs
            have := cutOne (by simp) h
            have h4 := congrArg List.length hs
            simp only [List.length_append, List.length_cons] at h4 this; omega
          · cases h
        · unfold lexComment at h
          split at h
          · split at h <;> cases h
          · cases h
        · cases h
        · next hk => exact Or.inr (Or.inr hk)
        · next hk =>
          exfalso
          cases r with
          | nil => cases lexClass_notEq hk
          | cons x r => exact absurd (cutOne (by simp) h) (by decide)
        · cases h
    simp only [List.cons_append, lexStep] at h ⊢
    rw [hcls]
    cases hk : lexClass p8 c (t ++ r).head? <;> rw [hk] at h <;> simp only at h ⊢
    · cases h
    · -- number
      have hd := (lexClass_num hk).imp id And.left
      have h1 := (cutTok_cons (numLen_bounds hd).2).mp h
      rw [cutTok_cons (numLen_bounds hd).2]
      exact ⟨h1.1, numLen_local (p8 := p8) (t := c :: t) (by simp) hc h1.2⟩
    · -- identifier
      have h1 := (cutTok_cons takeWhile_len_le).mp h
      have h2 := (takeWhile_len_iff (p := isIdentChar p8) (a := c :: t) (b := r)).mp h1.2
      have h3 : ∀ b : List Nat, (∀ x, b.head? = some x → isIdentChar p8 x = false) → (c :: (t ++ b)).takeWhile (isIdentChar p8) = c :: t := by
        intro b hb
        have h4 : ((c :: t) ++ b).takeWhile (isIdentChar p8) = c :: t := by
          rw [List.takeWhile_append_of_pos h2.1]
          cases b with
          | nil => simp
          | cons x b => simp [hb x rfl]
        exact h4
      have h5 := hc.not (fun w => isIdentChar_wspace) h2.2
      have h6 := h1.1
      rw [h3 _ h2.2] at h6
      rw [h3 _ h5, cutTok_cons (by simp)]
      exact ⟨h6, rfl⟩
    · -- string
      split at h
      · next rest hs =>
        obtain ⟨p, hp, hs, hall⟩ := scanString_local _ rfl hs
        have h1 := (cutTok_cons (Nat.sub_le _ _)).mp h
        have h2 : p = t ∧ rest = r := by
          have h4 := congrArg List.length hs
          simp only [List.length_append, List.length_cons] at h4 h1
          exact List.append_inj hs.symm (by omega)
        rw [← h2.1, hall r', h2.1]
        simp only
        rw [cutTok_cons (Nat.sub_le _ _)]
        exact ⟨h1.1, by simp; omega⟩
      · cases h
    · -- long string
      split at h
      · next body rest hs =>
        obtain ⟨p, hp, hs, hall⟩ := scanLong_local hs
        have h1 := (cutTok_cons (Nat.sub_le _ _)).mp h
        have h2 : p = c :: t ∧ rest = r := by
          have h4 := congrArg List.length hs
          simp only [List.length_append, List.length_cons] at h4 h1
          exact List.append_inj (s₂ := c :: t) hs.symm (by simp; omega)
        have h3 := hall r'
        rw [h2.1, List.cons_append] at h3
        rw [h3]
        simp only
        rw [cutTok_cons (Nat.sub_le _ _)]
        exact ⟨h1.1, by simp; omega⟩
      · cases h
    · unfold lexComment at h
      split at h
      · split at h <;> cases h
      · cases h
    · cases h
    · -- punctuation
      have h1 := (cutTok_cons punctLen_bounds.2).mp h
      rw [cutTok_cons punctLen_bounds.2]
      exact ⟨h1.1, punctLen_local (p8 := p8) (t := t) (lexClass_punct hk) hc h1.2⟩
    · -- not equal
      have hle : 2 ≤ (c :: (t ++ r)).length := by
        have := lexClass_notEq hk
        cases htr : t ++ r with
        | nil => rw [htr] at this; cases this
        | cons => simp
      have h1 := (cutTok_cons hle).mp h
      rw [cutTok_cons (by simp only [List.length_append, List.length_cons]; omega)]
      exact h1
    · cases h

/-! ### Whole texts -/

theorem lexAll_nil {p8 : Bool} : lexAll p8 [] = some [] := by rw [lexAll]; simp

theorem lexAll_tok {p8 : Bool} {t r : List Nat} {k : TokKind} (h : lexStep p8 (t ++ r) = .tok k t r) :
    lexAll p8 (t ++ r) = (lexAll p8 r).map ((k, t) :: ·) := by
  have ht := (lexStep_local (r' := r) (Or.inl rfl) h).1
  rw [lexAll, if_neg (by simp [ht]), h]
  simp only
  rw [if_pos (by have := List.length_pos_iff.mpr ht; simp only [List.length_append]; omega)]

theorem lexAll_space {p8 : Bool} : ∀ {w r : List Nat}, (∀ c ∈ w, isWspace c = true) → lexAll p8 (w ++ r) = lexAll p8 r
  | [], _, _ => rfl
  | c :: w, r, h => by
    have hs : lexStep p8 (c :: w ++ r) = .skip (w ++ r) := by
      simp only [List.cons_append, lexStep]
      rw [show lexClass p8 c (w ++ r).head? = .space from by unfold lexClass; rw [if_pos (h c (by simp))]]
    rw [lexAll, if_neg (by simp), hs]
    simp only
    rw [if_pos (by simp)]
    exact lexAll_space fun c hc => h c (by simp [hc])

theorem lexAll_total {p8 : Bool} : ∀ (n : Nat) {l : List Nat} {ts : List Tk}, l.length = n → lexAll p8 l = some ts →
    (ts.map (·.2.length)).sum ≤ l.length := by
  intro n
  induction n using Nat.strongRecOn with
  | ind n ih =>
    intro l ts hn h
    rw [lexAll] at h
    split at h
    · simp only [Option.some.injEq] at h; rw [← h]; simp
    · split at h
      · cases h
      · split at h
        · have := ih _ (by omega) rfl h; omega
        · cases h
      · next k t r hs =>
        split at h
        · simp only [Option.map_eq_some_iff] at h
          obtain ⟨ts', h1, h2⟩ := h
          have h3 := ih _ (by omega) rfl h1
          have h4 := congrArg List.length (lexStep_append hs)
          rw [← h2]
          simp only [List.map_cons, List.sum_cons, List.length_append] at h4 ⊢
          omega
        · cases h

/-- If two texts side by side give just those two tokens, nothing is between them. -/
theorem lexAll_pair {p8 : Bool} {a b : Tk} (h : lexAll p8 (a.2 ++ b.2) = some [a, b]) : lexStep p8 (a.2 ++ b.2) = .tok a.1 a.2 b.2 := by
  rw [lexAll] at h
  split at h
  · simp at h
  · split at h
    · cases h
    · split at h
      · next hr =>
        have := lexAll_total _ rfl h
        simp only [List.map_cons, List.map_nil, List.sum_cons, List.sum_nil, List.length_append] at this hr; omega
      · cases h
    · next k t r hs =>
      split at h
      · simp only [Option.map_eq_some_iff, List.cons.injEq] at h
        obtain ⟨ts', h1, h2, h3⟩ := h
        have h4 := lexStep_append hs
        have h5 : (k, t) = a := h2
        rw [← h5] at h4 ⊢
        simp only [List.append_cancel_left_eq] at h4
        rw [h5, hs, h4, ← h5]
      · cases h

/-- A text that is one token. -/
theorem lexAll_single {p8 : Bool} {a : Tk} (h : lexAll p8 a.2 = some [a]) : lexStep p8 a.2 = .tok a.1 a.2 [] := by
  rw [lexAll] at h
  split at h
  · simp at h
  · split at h
    · cases h
    · split at h
      · have := lexAll_total _ rfl h
        simp only [List.map_cons, List.map_nil, List.sum_cons, List.sum_nil] at this; omega
      · cases h
    · next k t r hs =>
      split at h
      · simp only [Option.map_eq_some_iff, List.cons.injEq] at h
        obtain ⟨ts', h1, h2, h3⟩ := h
        have h4 := lexStep_append hs
        have h5 : (k, t) = a := h2
        rw [← h5] at h4 ⊢
        simp only at h4 ⊢
        have h6 : r = [] := by
          have := congrArg List.length h4
          rw [List.length_append] at this
          exact List.length_eq_zero_iff.mp (by omega)
        rw [← h5] at hs
        rw [hs, h6]
      · cases h

/-! ### Sequences of tokens and comments -/

def OTok.tk (t : OTok) : Tk := (t.kind, t.text)

/-- The tokens of a sequence, without the comments. -/
def OTok.tks (ts : List OTok) : List Tk := (ts.filter (!·.comment)).map OTok.tk

/-- A token or comment that stands on its own. -/
def StandsAlone (p8 : Bool) (t : OTok) : Prop :=
  if t.comment then t.text ≠ [] ∧ ∀ r, lexStep p8 (t.text ++ r) = .skip r else lexStep p8 t.text = .tok t.kind t.text []

/-- They can stand side by side, judged by the first character of the second. -/
def JointOk (p8 : Bool) (a b : OTok) : Prop :=
  a.comment = true ∨ ∃ r, r.head? = b.text.head? ∧ lexStep p8 (a.text ++ r) = .tok a.kind a.text r

/-- All separators are whitespace, and empty only where the tokens can stand side by side. -/
def SepsOk (p8 : Bool) (prev : OTok) : List (List Nat × OTok) → Prop
  | [] => True
  | (w, t) :: r => (∀ c ∈ w, isWspace c = true) ∧ (w = [] → JointOk p8 prev t) ∧ StandsAlone p8 t ∧ SepsOk p8 t r

theorem StandsAlone.ne {p8 : Bool} {t : OTok} (h : StandsAlone p8 t) : t.text ≠ [] := by
  unfold StandsAlone at h
  split at h
  · exact h.1
  · exact (lexStep_local (r := []) (r' := []) (Or.inl rfl) (by simpa using h)).1

theorem lexAll_skip {p8 : Bool} {t r : List Nat} (ht : t ≠ []) (h : lexStep p8 (t ++ r) = .skip r) : lexAll p8 (t ++ r) = lexAll p8 r := by
  rw [lexAll, if_neg (by simp [ht]), h]
  simp only
  rw [if_pos (by have := List.length_pos_iff.mpr ht; simp only [List.length_append]; omega)]

theorem lexAll_piece {p8 : Bool} {a : OTok} {r : List Nat} (ha : StandsAlone p8 a)
    (h : a.comment = true ∨ lexStep p8 (a.text ++ r) = .tok a.kind a.text r) :
    lexAll p8 (a.text ++ r) = (lexAll p8 r).map (OTok.tks [a] ++ ·) := by
  cases hc : a.comment with
  | true =>
    simp only [StandsAlone, hc, if_true] at ha
    rw [lexAll_skip ha.1 (ha.2 r)]
    simp [OTok.tks, hc]
  | false =>
    rw [hc] at h
    simp only [Bool.false_eq_true, false_or] at h
    rw [lexAll_tok h]
    simp [OTok.tks, hc, OTok.tk]

theorem tks_cons (a : OTok) (l : List OTok) : OTok.tks (a :: l) = OTok.tks [a] ++ OTok.tks l := by
  unfold OTok.tks
  cases h : a.comment <;> simp [h]

theorem lexAll_seps {p8 : Bool} : ∀ {l : List (List Nat × OTok)} {a : OTok}, StandsAlone p8 a → SepsOk p8 a l →
    lexAll p8 (a.text ++ sepsText l) = some (OTok.tks (a :: l.map (·.2)))
  | [], a, ha, _ => by
    rw [sepsText, lexAll_piece ha, lexAll_nil]
    · simp
    · cases hc : a.comment with
      | true => exact Or.inl rfl
      | false => right; simpa [StandsAlone, hc] using ha
  | (w, t) :: l, a, ha, ⟨hw, hj, ht, hl⟩ => by
    have ih := lexAll_seps ht hl
    have htne := ht.ne
    simp only [sepsText, List.append_assoc]
    rw [lexAll_piece ha, lexAll_space hw, ih]
    · rw [tks_cons a (List.map _ _)]; rfl
    · cases hc : a.comment with
      | true => exact Or.inl rfl
      | false =>
        right
        cases w with
        | nil =>
          rcases hj rfl with h | ⟨r, hr, hs⟩
          · rw [hc] at h; cases h
          · refine (lexStep_local (Or.inl ?_) hs).2
            rw [hr, List.nil_append, head_append_ne htne]
        | cons c w =>
          have ha' : lexStep p8 a.text = .tok a.kind a.text [] := by simpa [StandsAlone, hc] using ha
          exact (lexStep_local (r := []) (Or.inr (Or.inr ⟨c, hw c (by simp), rfl⟩)) (by simpa using ha')).2

theorem jointOk_pair {p8 : Bool} {a b : OTok} (h : lexAll p8 (a.text ++ b.text) = some [(a.kind, a.text), (b.kind, b.text)]) :
    JointOk p8 a b := Or.inr ⟨b.text, rfl, lexAll_pair (a := (a.kind, a.text)) (b := (b.kind, b.text)) h⟩

/-- A token found by the tokenizer is what one step gives at its place. -/
theorem lexSpans_mem {p8 : Bool} : ∀ (n : Nat) {l : List Nat} {off : Nat} {sp : List (Tk × Nat × Nat)} {k : TokKind} {t : List Nat} {i j : Nat},
    l.length = n → lexSpans p8 off l = some sp → ((k, t), i, j) ∈ sp →
    off ≤ i ∧ j = i + t.length ∧ lexStep p8 (l.drop (i - off)) = .tok k t (l.drop (j - off)) := by
  intro n
  induction n using Nat.strongRecOn with
  | ind n ih =>
    intro l off sp k t i j hn h hm
    rw [lexSpans] at h
    split at h
    · simp only [Option.some.injEq] at h; rw [← h] at hm; simp at hm
    · have step : ∀ {rest : List Nat} {sp' : List (Tk × Nat × Nat)}, rest.length < l.length → l.drop (l.length - rest.length) = rest →
          lexSpans p8 (off + (l.length - rest.length)) rest = some sp' → ((k, t), i, j) ∈ sp' →
          off ≤ i ∧ j = i + t.length ∧ lexStep p8 (l.drop (i - off)) = .tok k t (l.drop (j - off)) := by
        intro rest sp' hlt hd h hm
        obtain ⟨h1, h2, h3⟩ := ih _ (by omega) rfl h hm
        refine ⟨by omega, h2, ?_⟩
        have : ∀ m, off + (l.length - rest.length) ≤ m → rest.drop (m - (off + (l.length - rest.length))) = l.drop (m - off) := by
          intro m hm
          conv => lhs; arg 2; rw [← hd]
          rw [List.drop_drop]
          congr 1; omega
        rw [this i h1, this j (by omega)] at h3
        exact h3
      split at h
      · cases h
      · next rest hs =>
        split at h
        · next hlt =>
          obtain ⟨p, hp⟩ : ∃ p, l = p ++ rest := by
            have key : ∀ s : List Nat, ∃ p, s = p ++ afterLine s := by
              intro s
              refine ⟨s.takeWhile (· ≠ 10) ++ (s.dropWhile (· ≠ 10)).take 1, ?_⟩
              unfold afterLine
              rw [List.append_assoc, List.take_append_drop, List.takeWhile_append_dropWhile]
            unfold lexStep at hs
            split at hs
            · cases hs
            · next c r _ =>
              split at hs
              · simp only [LexStep.skip.injEq] at hs; exact ⟨[c], by rw [hs]; rfl⟩
              · cases hs
              · cases hs
              · split at hs <;> cases hs
              · split at hs <;> cases hs
              · unfold lexComment at hs
                have hsuf : ∃ p, r.drop 1 = p ++ rest := by
                  split at hs
                  · split at hs
                    · next hl =>
                      simp only [LexStep.skip.injEq] at hs
                      obtain ⟨p, _, h2, _⟩ := scanLong_local hl
                      exact ⟨p, by rw [h2, hs]⟩
                    · cases hs
                  · simp only [LexStep.skip.injEq] at hs
                    obtain ⟨p, hp⟩ := key (r.drop 1)
                    exact ⟨p, by rw [hs] at hp; exact hp⟩
                obtain ⟨p, hp⟩ := hsuf
                exact ⟨c :: (r.take 1 ++ p), by rw [List.cons_append, List.append_assoc, ← hp, List.take_append_drop]⟩
              · simp only [LexStep.skip.injEq] at hs
                obtain ⟨p, hp⟩ := key (r.drop 1)
                rw [hs] at hp
                exact ⟨c :: (r.take 1 ++ p), by rw [List.cons_append, List.append_assoc, ← hp, List.take_append_drop]⟩
              · cases hs
              · cases hs
              · cases hs
          refine step hlt ?_ h hm
          rw [hp, List.length_append, Nat.add_sub_cancel, List.drop_left]
        · cases h
      · next k' t' rest hs =>
        have hl := lexStep_append hs
        split at h
        · next hlt =>
          simp only [Option.map_eq_some_iff] at h
          obtain ⟨sp', h1, h2⟩ := h
          rw [← h2, List.mem_cons] at hm
          rcases hm with hm | hm
          · simp only [Prod.mk.injEq] at hm
            obtain ⟨⟨rfl, rfl⟩, rfl, rfl⟩ := hm
            have hlen := congrArg List.length hl
            rw [List.length_append] at hlen
            refine ⟨Nat.le_refl _, by omega, ?_⟩
            rw [Nat.sub_self, List.drop_zero, hs, show i + (l.length - rest.length) - i = t.length from by omega]
            congr 1
            conv => rhs; rw [hl]
            rw [List.drop_left]
          · refine step hlt ?_ h1 hm
            rw [hl, List.length_append, Nat.add_sub_cancel, List.drop_left]
        · cases h

end Verif
