import Verif.Embed
import Verif.LexLemmas
import Verif.Props.StrDen
/-! C91: binary data that a script puts into a string of the code is what the string denotes, and the rest of the code stays the same. -/
namespace Verif.Embed

theorem afterLine_local {p rest rest' : List Nat} (h : afterLine (p ++ rest) = rest) (hne : rest ≠ []) (hp : p ≠ []) :
    afterLine (p ++ rest') = rest' ∧ longOpens (p ++ rest') = longOpens (p ++ rest) := by
  obtain ⟨tw, rfl, htw⟩ : ∃ tw, p = tw ++ [10] ∧ ∀ c ∈ tw, c ≠ 10 := by
    unfold afterLine at h
    refine ⟨(p ++ rest).takeWhile (· ≠ 10), ?_, fun c hc => by simpa using lex_mem_takeWhile hc⟩
    cases hd : (p ++ rest).dropWhile (· ≠ 10) with
    | nil => rw [hd] at h; exact absurd h.symm hne
    | cons c r =>
      rw [hd, List.drop_succ_cons, List.drop_zero] at h
      subst h
      have hc : c = 10 := by
        have := List.head?_dropWhile_not (p := fun x => decide (x ≠ 10)) (p ++ r)
        rw [hd] at this
        simpa using this
      subst hc
      have := List.takeWhile_append_dropWhile (p := fun x => decide (x ≠ 10)) (l := p ++ r)
      rw [hd] at this
      apply List.append_cancel_right (bs := r)
      rw [List.append_assoc]
      exact this.symm
  have hcut : ∀ x : List Nat, (tw ++ [10] ++ x).dropWhile (· ≠ 10) = 10 :: x := by
    intro x
    clear h hp
    induction tw with
    | nil => rw [List.nil_append, List.cons_append, List.nil_append, List.dropWhile_cons_of_neg (by simp)]
    | cons c tw ih =>
      rw [List.cons_append, List.cons_append, List.dropWhile_cons_of_pos (by simpa using htw c (by simp))]
      exact ih fun x hx => htw x (by simp [hx])
  refine ⟨by unfold afterLine; rw [hcut]; rfl, ?_⟩
  cases tw with
  | nil => rfl
  | cons c tw =>
    have hin : ∀ (u x : List Nat), ((u ++ [10] ++ x).dropWhile (· == 61)).head? = ((u ++ [10]).dropWhile (· == 61)).head? := by
      intro u x
      induction u with
      | nil => simp
      | cons d u ih =>
        by_cases hd : d = 61
        · simp only [List.cons_append]
          rw [List.dropWhile_cons_of_pos (by simpa using hd), List.dropWhile_cons_of_pos (by simpa using hd)]
          exact ih
        · simp only [List.cons_append]
          rw [List.dropWhile_cons_of_neg (by simpa using hd), List.dropWhile_cons_of_neg (by simpa using hd)]
          rfl
    simp only [longOpens, List.cons_append, List.head?_cons, List.drop_succ_cons, List.drop_zero]
    rw [hin tw rest', hin tw rest]

/-- What is skipped does not depend on what comes behind it. -/
theorem skip_local {p8 : Bool} {l rest : List Nat} (h : lexStep p8 l = .skip rest) (hne : rest ≠ []) :
    ∃ p, p ≠ [] ∧ l = p ++ rest ∧ ∀ rest' : List Nat, rest'.head? = rest.head? → lexStep p8 (p ++ rest') = .skip rest' := by
  cases l with
  | nil => cases h
  | cons c r =>
    rw [lexStep] at h
    have line : ∀ {d : Nat} {s : List Nat}, r = d :: s → afterLine s = rest → (∃ p, p ≠ [] ∧ s = p ++ rest) := by
      intro d s _ hs
      refine ⟨s.takeWhile (· ≠ 10) ++ (s.dropWhile (· ≠ 10)).take 1, ?_, ?_⟩
      · intro e
        simp only [List.append_eq_nil_iff] at e
        cases hd : s.dropWhile (· ≠ 10) with
        | nil => unfold afterLine at hs; rw [hd] at hs; exact hne hs.symm
        | cons x y => rw [hd] at e; simp at e
      · rw [List.append_assoc, ← hs]
        unfold afterLine
        rw [List.take_append_drop, List.takeWhile_append_dropWhile]
    cases hk : lexClass p8 c r.head? with
    | space =>
      rw [hk] at h
      simp only [LexStep.skip.injEq] at h
      subst h
      refine ⟨[c], by simp, rfl, fun rest' he => ?_⟩
      rw [List.cons_append, List.nil_append, lexStep, he, hk]
    | comment =>
      rw [hk] at h
      simp only at h
      cases r with
      | nil =>
        unfold lexComment at h
        rw [if_neg (by simp [longOpens])] at h
        simp [afterLine] at h
        exact absurd h.symm (by simpa using hne)
      | cons d s =>
      simp only [List.drop_succ_cons, List.drop_zero] at h
      unfold lexComment at h
      split at h
      · next hl =>
        split at h
        · next b rest0 hs =>
          simp only [LexStep.skip.injEq] at h
          subst h
          obtain ⟨p, h1, rfl, h3⟩ := scanLong_local hs
          refine ⟨c :: d :: p, by simp, rfl, fun rest' he => ?_⟩
          rw [List.cons_append, List.cons_append, lexStep, show lexClass p8 c (d :: (p ++ rest')).head? = .comment from hk]
          simp only [List.drop_succ_cons, List.drop_zero]
          unfold lexComment
          have hl' : longOpens (p ++ rest') = true := by
            have := h3 rest'
            unfold scanLong at this
            split at this
            · next r0 hr =>
              simp only at this
              rw [hr]
              split at this
              · next r1 hr1 =>
                have e : r0.drop (r0.takeWhile (· == 61)).length = r0.dropWhile (· == 61) := lex_drop_takeWhile
                rw [e] at hr1
                simp [longOpens, hr1]
              · cases this
            · cases this
          rw [if_pos hl', h3 rest']
        · cases h
      · next hl =>
        simp only [LexStep.skip.injEq] at h
        obtain ⟨p, hp, rfl⟩ := line rfl h
        refine ⟨c :: d :: p, by simp, rfl, fun rest' he => ?_⟩
        obtain ⟨h1, h2⟩ := afterLine_local (rest' := rest') h hne hp
        rw [List.cons_append, List.cons_append, lexStep, show lexClass p8 c (d :: (p ++ rest')).head? = .comment from hk]
        simp only [List.drop_succ_cons, List.drop_zero]
        unfold lexComment
        rw [h2, if_neg hl, h1]
    | lineComment =>
      rw [hk] at h
      simp only [LexStep.skip.injEq] at h
      cases r with
      | nil => simp [afterLine] at h; exact absurd h.symm (by simpa using hne)
      | cons d s =>
      simp only [List.drop_succ_cons, List.drop_zero] at h
      obtain ⟨p, hp, rfl⟩ := line rfl h
      refine ⟨c :: d :: p, by simp, rfl, fun rest' he => ?_⟩
      obtain ⟨h1, _⟩ := afterLine_local (rest' := rest') h hne hp
      rw [List.cons_append, List.cons_append, lexStep, show lexClass p8 c (d :: (p ++ rest')).head? = .lineComment from hk]
      simp only [List.drop_succ_cons, List.drop_zero, h1]
    | num => rw [hk] at h; cases h
    | ident => rw [hk] at h; cases h
    | str => rw [hk] at h; simp only at h; split at h <;> cases h
    | long => rw [hk] at h; simp only at h; split at h <;> cases h
    | punct => rw [hk] at h; cases h
    | notEq => rw [hk] at h; cases h
    | bad => rw [hk] at h; cases h

/-- A token can be put in the place of another one that begins with the same character: the other tokens stay. -/
theorem replace_token {p8 : Bool} : ∀ (n : Nat) {l : List Nat} {off i j : Nat} {k : TokKind} {t : List Nat} {s1 s2 : List (Tk × Nat × Nat)},
    l.length = n → lexSpans p8 off l = some (s1 ++ ((k, t), i, j) :: s2) →
    ∃ a b, l = a ++ t ++ b ∧ i = off + a.length ∧ t ≠ [] ∧ ∀ (k' : TokKind) (lit : List Nat), lit.head? = t.head? → lexStep p8 (lit ++ b) = .tok k' lit b →
      lexAll p8 (a ++ lit ++ b) = some (s1.map (·.1) ++ (k', lit) :: s2.map (·.1)) := by
  intro n
  induction n using Nat.strongRecOn with
  | ind n ih =>
    intro l off i j k t s1 s2 hn h
    have heads : ∀ {a t b lit : List Nat}, t ≠ [] → lit.head? = t.head? → (a ++ lit ++ b).head? = (a ++ t ++ b).head? := by
      intro a t b lit ht he
      cases a with
      | cons c a => rfl
      | nil =>
        cases t with
        | nil => exact absurd rfl ht
        | cons x t =>
          cases lit with
          | nil => cases he
          | cons y lit => simpa using he
    rw [lexSpans] at h
    split at h
    · simp at h
    · split at h
      · cases h
      · next rest hs =>
        split at h
        · next hlt =>
          have hne : rest ≠ [] := by
            rintro rfl
            rw [lexSpans] at h
            simp at h
          obtain ⟨p, hp, rfl, hloc⟩ := skip_local hs hne
          obtain ⟨a, b, e, hi, ht, key⟩ := ih _ (by omega) rfl h
          refine ⟨p ++ a, b, by rw [e]; simp, ?_, ht, ?_⟩
          · simp only [List.length_append] at hi ⊢; omega
          · intro k' lit he hstep
            have hh := heads (a := a) (b := b) ht he
            rw [← e] at hh
            have := hloc (a ++ lit ++ b) hh
            rw [show p ++ a ++ lit ++ b = p ++ (a ++ lit ++ b) by simp, lexAll_skip hp this]
            exact key k' lit he hstep
        · cases h
      · next kind text rest hs =>
        split at h
        · next hlt =>
          have hl := lexStep_append hs
          simp only [Option.map_eq_some_iff] at h
          obtain ⟨sp, hsp, e⟩ := h
          subst hl
          have htn := (lexStep_local (r' := rest) (Or.inl rfl) hs).1
          cases s1 with
          | nil =>
            simp only [List.nil_append, List.cons.injEq, Prod.mk.injEq] at e
            obtain ⟨⟨⟨rfl, rfl⟩, rfl, _⟩, rfl⟩ := e
            refine ⟨[], rest, rfl, rfl, htn, ?_⟩
            intro k' lit he hstep
            rw [List.nil_append, lexAll_tok hstep]
            have : ∀ (m : Nat) {l : List Nat} {off : Nat} {sp : List (Tk × Nat × Nat)}, l.length = m → lexSpans p8 off l = some sp →
                lexAll p8 l = some (sp.map (·.1)) := by
              intro m
              induction m using Nat.strongRecOn with
              | ind m ih =>
                intro l off sp hm h
                rw [lexSpans] at h
                rw [lexAll]
                split at h
                · cases h; next hl => rw [if_pos hl]; rfl
                · next hl =>
                  rw [if_neg hl]
                  split at h
                  · cases h
                  · next r hr =>
                    split at h
                    · next hlt => simp only [hlt, if_true]; exact ih _ (by omega) rfl h
                    · cases h
                  · next k t r hr =>
                    split at h
                    · next hlt =>
                      simp only [Option.map_eq_some_iff] at h
                      obtain ⟨sp', h1, rfl⟩ := h
                      simp only [hlt, if_true, ih _ (by omega) rfl h1]
                      rfl
                    · cases h
            rw [this _ rfl hsp]
            rfl
          | cons x s1 =>
            simp only [List.cons_append, List.cons.injEq] at e
            obtain ⟨rfl, rfl⟩ := e
            obtain ⟨a, b, e, hi, ht, key⟩ := ih _ (by omega) rfl hsp
            refine ⟨text ++ a, b, by rw [e]; simp, ?_, ht, ?_⟩
            · simp only [List.length_append] at hi ⊢; omega
            · intro k' lit he hstep
              have hh := heads (a := a) (b := b) ht he
              rw [← e] at hh
              have := (lexStep_local (r' := a ++ lit ++ b) (Or.inl hh) hs).2
              rw [show text ++ a ++ lit ++ b = text ++ (a ++ lit ++ b) by simp, lexAll_tok this, key k' lit he hstep]
              rfl
        · cases h

/-! ### C91 -/

theorem contents_eq (isDig : Nat → Bool) (data : List Nat) : contents isDig data = litParts isDig true 34 data := by
  unfold contents formatLiteral formatQuoted
  rw [if_neg (by simp)]
  simp only [Option.getD_some, List.drop_succ_cons, List.drop_zero, List.dropLast_concat]

/-- **C91.** Between double quotes, the text made of any data denotes exactly this data, in both languages, and the closing quote is where it should be. -/
theorem C91_contents {isDig : Nat → Bool} (hd : AsciiDig isDig) (p8 : Bool) (uni : Nat → List Nat) (data : List Nat) :
    StrSpec.Denotes p8 uni (contents isDig data) data ∧ ∀ t, scanString 34 (contents isDig data ++ 34 :: t) = some t := by
  rw [contents_eq]
  constructor
  · obtain ⟨q, body, _, h2, h3, h4⟩ := C17_quoted_denotes hd p8 true uni (quote := some 34) (by simp) data
    have hq := h2 34 rfl
    subst hq
    simp only [formatQuoted, Option.getD_some, List.cons.injEq, true_and, List.append_cancel_right_eq] at h3
    rw [h3]; exact h4
  · intro t
    have := scanString_litParts hd (u := true) (q := 34) (Or.inl rfl) t data
    simpa using this

theorem splitAt_eq {p : List Nat} : ∀ {s a b : List Nat}, splitAt p s = some (a, b) → s = a ++ p ++ b
  | [], a, b, h => by
    rw [splitAt] at h
    split at h
    · next hp => cases h; rw [hp]; rfl
    · cases h
  | c :: s, a, b, h => by
    rw [splitAt] at h
    split at h
    · next hp =>
      cases h
      obtain ⟨r, hr⟩ := List.isPrefixOf_iff_prefix.mp hp
      rw [← hr, List.nil_append, List.drop_left]
    · simp only [Option.map_eq_some_iff] at h
      obtain ⟨⟨a', b'⟩, h1, h2⟩ := h
      cases h2
      simp only [List.cons_append, List.cons.injEq, true_and]
      exact splitAt_eq h1

theorem replace_once {marker new code x y : List Nat} (hm : marker ≠ []) (he : code = x ++ marker ++ y)
    (h1 : ∀ u v, code = u ++ marker ++ v → u.length = x.length) : replace marker new code = x ++ new ++ y := by
  have hs : splitAt marker code = some (x, y) := by
    have hi : (splitAt marker code).isSome = true := splitAt_infix.mpr ⟨x, y, he.symm⟩
    obtain ⟨⟨u, v⟩, huv⟩ := Option.isSome_iff_exists.mp hi
    have e := splitAt_eq huv
    have hl := h1 u v e
    rw [huv]
    rw [he, List.append_assoc, List.append_assoc] at e
    have := List.append_inj e hl.symm
    rw [this.1, List.append_cancel_left this.2]
  have hy : splitAt marker y = none := by
    cases h : splitAt marker y with
    | none => rfl
    | some uv =>
      obtain ⟨u, v⟩ := uv
      have e := splitAt_eq h
      have := h1 (x ++ marker ++ u) v (by rw [he, e]; simp)
      have := List.length_pos_iff.mpr hm
      simp only [List.length_append] at *
      omega
  have hfin : ∀ m, replaceFuel marker new m y = y := by
    intro m
    cases m with
    | zero => rfl
    | succ m => rw [replaceFuel, hy]
  unfold replace
  cases hc : code.length with
  | zero =>
    have := List.length_pos_iff.mpr hm
    rw [he] at hc
    simp only [List.length_append] at hc
    omega
  | succ m => rw [replaceFuel, hs]; simp only; rw [hfin]

/-- **C91.** If the code has a string in double quotes that is just the marker, and the marker is nowhere else, then replacing it by the data gives code with
the same tokens, but for this string, which becomes the one with exactly the data. -/
theorem C91_code {isDig : Nat → Bool} (hd : AsciiDig isDig) {p8 : Bool} {code marker data : List Nat} (hm : marker ≠ []) {s1 s2 : List (Tk × Nat × Nat)} {i j : Nat}
    (hcode : lexSpans p8 0 code = some (s1 ++ ((.string, 34 :: (marker ++ [34])), i, j) :: s2))
    (honce : ∀ u v, code = u ++ marker ++ v → u.length = i + 1) :
    ∃ lit, lexAll p8 (replace marker (contents isDig data) code) = some (s1.map (·.1) ++ (.string, lit) :: s2.map (·.1)) ∧
      parseLiteral p8 lit = some data := by
  obtain ⟨a, b, e, hi, _, key⟩ := replace_token code.length rfl hcode
  have hr : replace marker (contents isDig data) code = a ++ 34 :: (contents isDig data ++ [34]) ++ b := by
    rw [replace_once (x := a ++ [34]) (y := 34 :: b) hm (by rw [e]; simp) (fun u v h => by rw [honce u v h, hi]; simp)]
    simp
  refine ⟨34 :: (contents isDig data ++ [34]), ?_, ?_⟩
  · rw [hr]
    refine key .string (34 :: (contents isDig data ++ [34])) rfl ?_
    have hcls : ∀ h, lexClass p8 34 h = .str := by intro h; cases p8 <;> simp [lexClass, isWspace, isDigit, isIdentChar]
    rw [List.cons_append, lexStep, hcls]
    have hscan := (C91_contents hd p8 (fun _ => []) data).2 b
    rw [show contents isDig data ++ [34] ++ b = contents isDig data ++ 34 :: b by simp, hscan]
    simp only [cutTok]
    have hl : (34 :: (contents isDig data ++ 34 :: b)).length - b.length = (34 :: (contents isDig data ++ [34])).length := by
      simp only [List.length_cons, List.length_append, List.length_nil]; omega
    have hc : (34 :: (contents isDig data ++ 34 :: b) : List Nat) = 34 :: (contents isDig data ++ [34]) ++ b := by simp
    rw [hl, hc, List.take_left, List.drop_left]
  · have := C17_quoted_parse hd p8 true (quote := some 34) (by simp) data
    rw [contents_eq]
    exact this

/-- The double quotes are needed: in single quotes, an apostrophe in the data ends the string. -/
theorem C91_quote_counterexample : scanString 39 (contents isDigit [97, 39, 98] ++ [39]) = some [98, 39] := by decide +kernel

/-- So is that the string has nothing else in it: a zero at the end of the data and a digit behind it are read as one character. -/
theorem C91_digit_counterexample : parseBody true (contents isDigit [0] ++ [53]) = some [5] := by decide +kernel

/-! Cases meeting the hypotheses: the code `x="$$"` with the data 0, 53, 34, 10. -/
example : AsciiDig isDigit := fun _ _ => rfl
example : lexSpans true 0 [120, 61, 34, 36, 36, 34] = some ([((.ident, [120]), 0, 1), ((.punct, [61]), 1, 2)] ++ ((.string, 34 :: ([36, 36] ++ [34])), 2, 6) :: []) := by
  decide +kernel
example : ∀ u v, ([120, 61, 34, 36, 36, 34] : List Nat) = u ++ [36, 36] ++ v → u.length = 2 + 1 := by
  intro u v h
  have hl : u.length ≤ 4 := by have := congrArg List.length h; simp only [List.length_append, List.length_cons, List.length_nil] at this; omega
  match u, h, hl with
  | [], h, _ => simp at h
  | [_], h, _ => simp at h
  | [_, _], h, _ => simp at h
  | [_, _, _], _, _ => rfl
  | [_, _, _, _], h, _ => simp at h
example : replace [36, 36] (contents isDigit [0, 53, 34, 10]) [120, 61, 34, 36, 36, 34] = [120, 61, 34, 92, 48, 48, 48, 53, 92, 34, 92, 110, 34] := by decide +kernel

end Verif.Embed
