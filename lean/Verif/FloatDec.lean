import Verif.FloatLemmas
/-
Reading and shortening decimals that are floating point numbers.
-/
namespace Verif

theorem rhe_scale {a b c : Nat} (hc : 0 < c) : roundHalfEven (c * a) (c * b) = roundHalfEven a b := by
  unfold roundHalfEven
  dsimp only
  rw [Nat.mul_div_mul_left a b hc, Nat.mul_mod_mul_left]
  have e1 : 2 * (c * (a % b)) < c * b ↔ 2 * (a % b) < b := by
    rw [Nat.mul_left_comm, Nat.mul_lt_mul_left hc]
  have e2 : c * b < 2 * (c * (a % b)) ↔ b < 2 * (a % b) := by
    rw [Nat.mul_left_comm, Nat.mul_lt_mul_left hc]
  simp only [e1, e2]

theorem toDbl_scale {a b c : Nat} (hc : 0 < c) : toDbl (c * a) (c * b) = toDbl a b := by
  unfold toDbl nearest
  dsimp only
  rw [Nat.mul_assoc, Nat.mul_div_mul_left _ _ hc, Nat.mul_assoc, rhe_scale hc]

theorem toDbl_zero {b : Nat} (hb : 0 < b) : toDbl 0 b = 0 :=
  toDbl_exact (n := 0) (by decide) hb (by simp [dbl, dblMan])

/-! ### Reading -/

theorem point_digit (base : Nat) : isBaseDigit base 46 = false := by simp [isBaseDigit, hexVal]

theorem readFloat_eq {base mark rad : Nat} {ip fp tl es : List Nat} {E : Int} (hip : ∀ c ∈ ip, isBaseDigit base c = true)
    (hfp : ∀ c ∈ fp, isBaseDigit base c = true) (htl : tl = 46 :: fp ∨ tl = [] ∧ fp = []) (hmark : mark ≠ 46) (hdig : isBaseDigit base mark = false)
    (hes : es = [] ∧ E = 0 ∨ ∃ r, es = mark :: r ∧ readSigned r = some E) (hne : ip ++ fp ≠ []) :
    readFloat base mark rad (ip ++ (tl ++ es)) =
      some (toDbl (digitsVal base (ip ++ fp) * rad ^ E.toNat) (base ^ fp.length * rad ^ (-E).toNat)) := by
  have nm : ∀ {c : Nat}, isBaseDigit base c = true → (c != mark) = true := by
    intro c hc
    rw [bne_iff_ne]
    rintro rfl
    rw [hdig] at hc; cases hc
  have hm : ∀ c ∈ ip ++ tl, (c != mark) = true := by
    intro c hc
    rcases List.mem_append.1 hc with hc | hc
    · exact nm (hip c hc)
    · rcases htl with rfl | ⟨rfl, -⟩
      · rcases List.mem_cons.1 hc with rfl | hc
        · rw [bne_iff_ne]; exact fun h => hmark h.symm
        · exact nm (hfp c hc)
      · cases hc
  have hes' : ∀ c, es.head? = some c → (c != mark) = false := by
    intro c hc
    rcases hes with ⟨rfl, -⟩ | ⟨r, rfl, -⟩
    · cases hc
    · simp at hc; simp [hc]
  have ⟨t1, t2⟩ := takeWhile_eq_all (p := (· != mark)) hm hes'
  have htl' : ∀ c, tl.head? = some c → isBaseDigit base c = false := by
    intro c hc
    rcases htl with rfl | ⟨rfl, -⟩
    · simp at hc; rw [← hc]; exact point_digit base
    · cases hc
  have ⟨t3, t4⟩ := takeWhile_eq_all (p := isBaseDigit base) hip htl'
  unfold readFloat
  rw [← List.append_assoc, t1, t2]
  dsimp only
  rw [t3, t4]
  clear t1 t2 t3 t4 hm hes' htl'
  rcases htl with rfl | ⟨rfl, rfl⟩
  · simp only [true_and]
    rw [if_pos (List.all_eq_true.2 hfp)]
    rcases hes with ⟨rfl, rfl⟩ | ⟨r, rfl, h⟩
    · dsimp only; rw [if_neg hne]
    · simp only [h]; rw [if_neg hne]
  · rcases hes with ⟨rfl, rfl⟩ | ⟨r, rfl, h⟩
    · dsimp only; rw [if_neg hne]
    · simp only [h]; rw [if_neg hne]

theorem natDigits_all (n : Nat) : (natDigits n).all (isBaseDigit 10) = true :=
  List.all_eq_true.2 fun c hc => isBaseDigit_ten.2 (natDigits_digit n c hc)

theorem readInt_text (k : Int) : readSigned (intText k) = some k := by
  unfold intText
  split
  · simp only [readSigned]
    rw [if_pos ⟨natDigits_ne_nil _, natDigits_all _⟩, natDigits_val]
    change some (-(k.natAbs : Int)) = some k
    congr 1
    omega
  · have h : ∀ c ∈ natDigits k.natAbs, 48 ≤ c ∧ c ≤ 57 := natDigits_digit _
    have hd : (if natDigits k.natAbs ≠ [] ∧ (natDigits k.natAbs).all (isBaseDigit 10) then some (digitsVal 10 (natDigits k.natAbs)) else none) = some k.natAbs := by
      rw [if_pos ⟨natDigits_ne_nil _, natDigits_all _⟩, natDigits_val]
    generalize natDigits k.natAbs = l at *
    unfold readSigned
    dsimp only
    split
    · have := h 45 (by simp); omega
    · have := h 43 (by simp); omega
    · rw [hd]
      change some (k.natAbs : Int) = some k
      congr 1
      omega

/-- Nothing, or `e` and an exponent. -/
def ExpText (es : List Nat) (E : Int) : Prop := es = [] ∧ E = 0 ∨ es = 101 :: intText E

/-- The number that `N / 10 ^ k` with an exponent is read as. -/
def decVal (E : Int) (N k : Nat) : Nat := toDbl (N * 10 ^ E.toNat) (10 ^ k * 10 ^ (-E).toNat)

theorem decVal_ten (E : Int) (N k : Nat) : decVal E (N * 10) (k + 1) = decVal E N k := by
  unfold decVal
  rw [← toDbl_scale (a := N * 10 ^ E.toNat) (c := 10) (by decide)]
  congr 1
  · rw [Nat.mul_comm N 10, Nat.mul_assoc]
  · rw [Nat.pow_succ, Nat.mul_comm (10 ^ k) 10, Nat.mul_assoc]

theorem decVal_zero (E : Int) (k : Nat) : decVal E 0 k = 0 := by
  unfold decVal
  rw [Nat.zero_mul]
  exact toDbl_zero (Nat.mul_pos (Nat.pow_pos (by decide)) (Nat.pow_pos (by decide)))

theorem exp_hes {es : List Nat} {E : Int} (h : ExpText es E) : es = [] ∧ E = 0 ∨ ∃ r, es = 101 :: r ∧ readSigned r = some E := by
  rcases h with h | rfl
  · exact .inl h
  · exact .inr ⟨_, rfl, readInt_text E⟩

/-- A decimal with a point is read. -/
theorem readDec_text {es : List Nat} {E : Int} (h : ExpText es E) {s : List Nat} {k : Nat} (hs : DecText s k) (hne : s ≠ [46]) :
    readDec (s ++ es) = some (decVal E (valR s.reverse) k) := by
  obtain ⟨ip, fp, rfl, hk, h1, h2⟩ := hs
  have hv : valR (ip ++ 46 :: fp).reverse = digitsVal 10 (ip ++ fp) := by
    have e : (ip ++ 46 :: fp).reverse = fp.reverse ++ 46 :: ip.reverse := by simp
    have v1 := valR_digits (l := fp.reverse) (by simpa using h2)
    have v2 := valR_digits (l := ip.reverse) (by simpa using h1)
    rw [List.reverse_reverse] at v1 v2
    rw [e, valR_append (by simpa using h2), ← v1, ← v2, digitsVal_append, List.length_reverse, Nat.mul_comm, Nat.add_comm]
  rw [hv, List.append_assoc]
  unfold readDec decVal
  rw [readFloat_eq (fun c hc => isBaseDigit_ten.2 (h1 c hc)) (fun c hc => isBaseDigit_ten.2 (h2 c hc)) (.inl rfl) (by decide) (by decide) (exp_hes h), hk]
  intro h0
  obtain ⟨rfl, rfl⟩ := List.append_eq_nil_iff.1 h0
  exact hne rfl

/-- Digits are read. -/
theorem readDec_digits {es : List Nat} {E : Int} (h : ExpText es E) {s : List Nat} (hs : ∀ c ∈ s, 48 ≤ c ∧ c ≤ 57) (hne : s ≠ []) :
    readDec (s ++ es) = some (decVal E (valR s.reverse) 0) := by
  have v2 := valR_digits (l := s.reverse) (by simpa using hs)
  rw [List.reverse_reverse] at v2
  rw [← v2]
  unfold readDec decVal
  have := readFloat_eq (rad := 10) (fun c hc => isBaseDigit_ten.2 (hs c hc)) (fp := []) (by simp) (tl := []) (.inr ⟨rfl, rfl⟩) (by decide) (by decide) (exp_hes h) (by simpa using hne)
  simpa using this

/-! ### Shortening -/

/-- The reader, made to read nothing and a lone point as 0. -/
def lenient (es : List Nat) (s : List Nat) : Option Nat := if s = [] ∨ s = [46] then some 0 else readDec (s ++ es)

theorem lenient_text {es : List Nat} {E : Int} (h : ExpText es E) {s : List Nat} {k : Nat} (hs : DecText s k) :
    lenient es s = some (decVal E (valR s.reverse) k) := by
  unfold lenient
  split
  · next h0 =>
    rcases h0 with rfl | rfl
    · obtain ⟨ip, fp, e, -⟩ := hs; simp at e
    · rw [show valR [46].reverse = 0 from rfl, decVal_zero]
  · next h0 => exact readDec_text h hs (fun h => h0 (.inr h))

theorem lenient_digits {es : List Nat} {E : Int} (h : ExpText es E) {s : List Nat} (hs : ∀ c ∈ s, 48 ≤ c ∧ c ≤ 57) :
    lenient es s = some (decVal E (valR s.reverse) 0) := by
  unfold lenient
  split
  · next h0 =>
    rcases h0 with rfl | rfl
    · rw [show valR [].reverse = 0 from rfl, decVal_zero]
    · have := hs 46 (by simp); omega
  · next h0 => exact readDec_digits h hs (fun h => h0 (.inl h))

theorem lenient_sensible {es : List Nat} {E : Int} (h : ExpText es E) : SensibleParse (lenient es) where
  zero := by
    intro s k hs
    have hs' : DecText (s ++ [48]) (k + 1) := by
      obtain ⟨ip, fp, rfl, hk, h1, h2⟩ := hs
      refine ⟨ip, fp ++ [48], by simp, by simp [hk], h1, ?_⟩
      intro c hc
      rcases List.mem_append.1 hc with hc | hc
      · exact h2 c hc
      · simp at hc; omega
    rw [lenient_text h hs, lenient_text h hs']
    refine congrArg some ?_
    rw [List.reverse_append, show [48].reverse ++ s.reverse = 48 :: s.reverse from rfl, valR, if_neg (by decide), Nat.sub_self, Nat.zero_add, Nat.mul_comm, decVal_ten E]
  point := by
    intro s hs
    rw [lenient_digits h hs, lenient_text h (k := 0) ⟨s, [], rfl, rfl, hs, by simp⟩, List.reverse_append]
    rw [show [46].reverse ++ s.reverse = 46 :: s.reverse from rfl, valR, if_pos rfl]
  lead := by
    intro s hs _
    rw [lenient_text h (s := 48 :: 46 :: s) (k := s.length) ⟨[48], s, rfl, rfl, by simp, hs⟩, lenient_text h (s := 46 :: s) (k := s.length) ⟨[], s, rfl, rfl, by simp, hs⟩]
    congr 2
    have hs' : ∀ c ∈ s.reverse, 48 ≤ c ∧ c ≤ 57 := by simpa using hs
    have e1 : (48 :: 46 :: s).reverse = s.reverse ++ 46 :: [48] := by simp
    have e2 : (46 :: s).reverse = s.reverse ++ 46 :: [] := by simp
    rw [e1, e2, valR_append hs', valR_append hs']
    simp [valR]

/-- The (reversed) text begins with a digit. -/
def LeadR (rs : List Nat) : Prop := ∃ c, rs.getLast? = some c ∧ 48 ≤ c ∧ c ≤ 57

theorem leadR_cons {c d : Nat} {r : List Nat} : LeadR (c :: d :: r) ↔ LeadR (d :: r) := by
  unfold LeadR
  rw [List.getLast?_cons_cons]

theorem add1R_ne (l : List Nat) : add1R l ≠ [] := by
  unfold add1R
  split
  · simp
  · split
    · simp
    · split <;> simp

theorem add1R_lead : ∀ {l : List Nat}, (∀ c ∈ l, c = 46 ∨ 48 ≤ c ∧ c ≤ 57) → (l = [] ∨ LeadR l) → LeadR (add1R l)
  | [], _, _ => ⟨49, rfl, by decide, by decide⟩
  | [c], h, hl => by
    have hc : 48 ≤ c ∧ c ≤ 57 := by
      rcases hl with hl | ⟨d, hd, h'⟩
      · cases hl
      · simp at hd; omega
    unfold add1R
    rw [if_neg (by omega)]
    split
    · exact ⟨49, rfl, by decide, by decide⟩
    · exact ⟨c + 1, rfl, by omega, by omega⟩
  | c :: d :: r, h, hl => by
    have hl' : LeadR (d :: r) := by
      rcases hl with hl | hl
      · cases hl
      · exact leadR_cons.1 hl
    have ih := add1R_lead (l := d :: r) (fun x hx => h x (List.mem_cons_of_mem _ hx)) (.inr hl')
    have key : ∀ x, LeadR (x :: add1R (d :: r)) := by
      intro x
      cases e : add1R (d :: r) with
      | nil => exact absurd e (add1R_ne _)
      | cons a t => rw [e] at ih; exact leadR_cons.2 ih
    unfold add1R
    split
    · exact key _
    · split
      · exact key _
      · exact leadR_cons.2 hl'

theorem decR_chars {rs : List Nat} {k : Nat} (h : DecR rs k) : ∀ c ∈ rs, c = 46 ∨ 48 ≤ c ∧ c ≤ 57 := by
  obtain ⟨f, i, rfl, -, h1, h2⟩ := h
  intro c hc
  rcases List.mem_append.1 hc with hc | hc
  · exact .inr (h1 c hc)
  · rcases List.mem_cons.1 hc with rfl | hc
    · exact .inl rfl
    · exact .inr (h2 c hc)

/-- The loop never meets a text without digits before the point. -/
theorem loop_lead {α : Type} [DecidableEq α] {p q : List Nat → α} {target : α} {keep : Bool}
    (hpq : ∀ {rs k}, DecR rs k → LeadR rs → p rs.reverse = q rs.reverse) :
    ∀ fuel ok rs k, DecR rs k → LeadR rs → minifyLoop p target keep fuel ok rs = minifyLoop q target keep fuel ok rs ∧
      ∀ r, minifyLoop p target keep fuel ok rs = some r → LeadR r ∧ (keep = true → 46 ∈ r) ∧ ∀ c ∈ r, c = 46 ∨ 48 ≤ c ∧ c ≤ 57 := by
  intro fuel
  induction fuel with
  | zero => intro ok rs k _ _; exact ⟨rfl, nofun⟩
  | succ fuel ih =>
    intro ok rs k hd hl
    have hall := decR_chars hd
    obtain ⟨f, i, rfl, h1, h2, h3⟩ := hd
    cases f with
    | nil =>
      simp only [List.nil_append] at hl hall ⊢
      simp only [minifyLoop]
      rw [if_pos (by simp)]
      simp only [if_true]
      refine ⟨rfl, fun r hr => ?_⟩
      cases hr
      cases keep with
      | true => exact ⟨hl, fun _ => by simp, hall⟩
      | false =>
        refine ⟨?_, nofun, fun c hc => .inr (h3 c hc)⟩
        cases i with
        | nil => obtain ⟨c, hc, h'⟩ := hl; simp at hc; omega
        | cons a i => exact leadR_cons.1 hl
    | cons c f =>
      have hc := h2 c (by simp)
      have hf : ∀ x ∈ f, 48 ≤ x ∧ x ≤ 57 := fun x hx => h2 x (List.mem_cons_of_mem _ hx)
      have hr : DecR (f ++ 46 :: i) f.length := ⟨f, i, rfl, rfl, hf, h3⟩
      have hlr : LeadR (f ++ 46 :: i) := by
        rw [List.cons_append] at hl
        cases e : f ++ 46 :: i with
        | nil => simp at e
        | cons a t => rw [e] at hl; exact leadR_cons.1 hl
      have ha := (add1R_dec hf h3).1
      have hla := add1R_lead (decR_chars hr) (.inr hlr)
      rw [List.cons_append] at hl hall ⊢
      simp only [minifyLoop]
      have h46 : 46 ∈ c :: (f ++ 46 :: i) := by simp
      have hc46 : c ≠ 46 := by omega
      simp only [h46, hc46, if_true, if_false, hpq hr hlr, hpq ha hla]
      split
      · exact ih _ _ _ hr hlr
      · split
        · exact ih _ _ _ hr hlr
        · split
          · exact ih _ _ _ ha hla
          · refine ⟨rfl, fun r hr => ?_⟩
            split at hr
            · cases hr; exact ⟨hl, fun _ => by simp, hall⟩
            · cases hr

/-- A decimal that is read as a number is shortened to one that is read as the same number. -/
theorem shorten_float {es : List Nat} {E : Int} (he : ExpText es E) {keep : Bool} {s : List Nat} {k n : Nat} (hs : DecText s k) (hl : LeadR s.reverse)
    (h : readDec (s ++ es) = some n) : ∃ t, floatStrMinify (fun v => readDec (v ++ es)) (some n) keep s = some t ∧ readDec (t ++ es) = some n ∧
      (keep = true → 46 ∈ t) ∧ ∀ c ∈ t, c = 46 ∨ 48 ≤ c ∧ c ≤ 57 := by
  have hpq : ∀ {rs k}, DecR rs k → LeadR rs → readDec (rs.reverse ++ es) = lenient es rs.reverse := by
    intro rs k h1 h2
    have hne : rs.reverse ≠ [46] := by
      intro e
      have : rs = [46] := by rw [← List.reverse_reverse rs, e]; rfl
      subst this
      obtain ⟨c, hc, h'⟩ := h2
      simp at hc; omega
    have hne' : rs.reverse ≠ [] := by
      intro e
      obtain ⟨f, i, e', -⟩ := h1
      rw [e'] at e; simp at e
    unfold lenient
    rw [if_neg (by simp only [hne, hne', or_self, not_false_eq_true])]
  have hd : DecR s.reverse k := by rw [decR_iff]; simpa using hs
  obtain ⟨e, hr⟩ := loop_lead (p := fun v => readDec (v ++ es)) (q := lenient es) (target := some n) (keep := keep) hpq (s.length + 1) (decide (readDec (s ++ es) = some n)) _ _ hd hl
  have hle : lenient es s = some n := by
    have := hpq hd hl
    rw [List.reverse_reverse] at this
    rw [← this]; exact h
  have e' : floatStrMinify (fun v => readDec (v ++ es)) (some n) keep s = floatStrMinify (lenient es) (some n) keep s := by
    unfold floatStrMinify
    rw [e, h, hle]
  have hsome := C20_no_error (keep := keep) hs hle
  obtain ⟨t, ht⟩ := Option.isSome_iff_exists.1 hsome
  have hp := C20_shorten (lenient_sensible he) hs (.inl hle) ht
  refine ⟨t, e'.trans ht, ?_⟩
  rw [← e'] at ht
  unfold floatStrMinify at ht
  simp only [Option.map_eq_some_iff] at ht
  obtain ⟨r, h1, h2⟩ := ht
  obtain ⟨g1, g2, g3⟩ := hr r h1
  have hch : ∀ c ∈ r.reverse, c = 46 ∨ 48 ≤ c ∧ c ≤ 57 := fun c hc => g3 c (List.mem_reverse.1 hc)
  obtain ⟨c0, hc0, hc1⟩ := g1
  have hhead : r.reverse.head? = some c0 := by rw [List.head?_reverse]; exact hc0
  refine ⟨?_, ?_, ?_⟩
  · unfold lenient at hp
    split at hp
    · next h0 =>
      exfalso
      rw [← h2] at h0
      generalize r.reverse = x at *
      unfold stripZero at h0
      split at h0
      · next hz =>
        match x, hz with
        | [], hz => cases hz.1
        | [_], hz => simp at hz
        | a :: b :: x, hz =>
          have := hz.1
          simp at this
          obtain ⟨rfl, rfl⟩ := this
          cases x with
          | nil => exact hz.2 rfl
          | cons y x => simp at h0
      · rcases h0 with rfl | rfl
        · cases hhead
        · simp at hhead; omega
    · exact hp
  · intro hk
    have hm : 46 ∈ r.reverse := List.mem_reverse.2 (g2 hk)
    rw [← h2]
    generalize r.reverse = x at *
    unfold stripZero
    split
    · next hz =>
      match x, hz with
      | [], hz => cases hz.1
      | [_], hz => simp at hz
      | a :: b :: x, hz =>
        have := hz.1
        simp at this
        simp [this.2]
    · exact hm
  · intro c hc
    rw [← h2] at hc
    unfold stripZero at hc
    split at hc
    · exact hch c (List.mem_of_mem_drop hc)
    · exact hch c hc

end Verif
