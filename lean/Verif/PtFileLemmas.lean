import Verif.PtFile
import Verif.StrLitLemmas
/-! Lemmas about metadata and payload of Picotron files. -/
namespace Verif.PtFile

/-- Metadata that can be told from what follows: it starts with `pod`, has no `]]` and does not end with `]`. -/
def GoodMeta (md : List Nat) : Prop := asc "pod" <+: md ∧ ¬ asc "]]" <:+: md ∧ md.getLast? ≠ some 93

theorem two_prefix {c d : Nat} {s : List Nat} {i : Nat} : [c, d] <+: s.drop i ↔ s[i]? = some c ∧ s[i + 1]? = some d := by
  constructor
  · rintro ⟨t, ht⟩
    have h1 : (s.drop i)[0]? = some c := by rw [← ht]; rfl
    have h2 : (s.drop i)[1]? = some d := by rw [← ht]; rfl
    rw [List.getElem?_drop] at h1 h2
    exact ⟨by simpa using h1, h2⟩
  · rintro ⟨h1, h2⟩
    obtain ⟨l1, e1⟩ := List.getElem?_eq_some_iff.mp h1
    obtain ⟨l2, e2⟩ := List.getElem?_eq_some_iff.mp h2
    rw [List.drop_eq_getElem_cons l1, List.drop_eq_getElem_cons l2, e1, e2]
    exact ⟨s.drop (i + 1 + 1), rfl⟩

theorem infix_of_get {c d : Nat} {s : List Nat} {i : Nat} (h1 : s[i]? = some c) (h2 : s[i + 1]? = some d) : [c, d] <:+: s := by
  obtain ⟨t, ht⟩ := two_prefix.mpr ⟨h1, h2⟩
  exact ⟨s.take i, t, by rw [List.append_assoc, ht, List.take_append_drop]⟩

theorem findSub_eq {pat s : List Nat} {i : Nat} (h1 : pat <+: s.drop i) (h2 : ∀ j < i, ¬ pat <+: s.drop j) :
    findSub pat s = some i := by
  cases hf : findSub pat s with
  | none => exact absurd h1 (findSub_none hf i)
  | some k =>
    obtain ⟨a, b, c⟩ := findSub_some hf
    congr 1
    rcases Nat.lt_trichotomy k i with hk | hk | hk
    · exact absurd a (h2 k hk)
    · exact hk
    · exact absurd h1 (c i hk)

theorem suffix_eq : metaSuffix = [93, 93] := by decide
theorem prefix_eq : metaPrefix = [45, 45, 91, 91] := by decide

theorem find_layout {md : List Nat} (hg : GoodMeta md) (pay : List Nat) :
    findSub metaSuffix (metaPrefix ++ md ++ metaSuffix ++ pay) = some (4 + md.length) := by
  obtain ⟨-, h2, h3⟩ := hg
  have hpod : asc "]]" = [93, 93] := by decide
  rw [hpod] at h2
  apply findSub_eq
  · rw [suffix_eq, prefix_eq, List.append_assoc, List.drop_left' (by simp; omega)]
    exact List.prefix_append _ _
  · intro j hj hp
    rw [suffix_eq, prefix_eq, two_prefix] at hp
    obtain ⟨p1, p2⟩ := hp
    by_cases hj4 : j < 4
    · have : ([45, 45, 91, 91] ++ md ++ [93, 93] ++ pay)[j]? ≠ some 93 := by
        rcases (by omega : j = 0 ∨ j = 1 ∨ j = 2 ∨ j = 3) with rfl | rfl | rfl | rfl <;> simp
      exact this p1
    · obtain ⟨k, rfl⟩ : ∃ k, j = 4 + k := ⟨j - 4, by omega⟩
      have hk : k < md.length := by omega
      have q1 : md[k]? = some 93 := by
        rw [List.append_assoc, List.append_assoc, List.getElem?_append_right (by simp), List.getElem?_append_left (by simp; omega)] at p1
        simpa using p1
      by_cases hlast : k + 1 < md.length
      · have q2 : md[k + 1]? = some 93 := by
          rw [List.append_assoc, List.append_assoc, List.getElem?_append_right (by simp; omega),
            List.getElem?_append_left (by simp; omega)] at p2
          rw [show (4 + k + 1 - [45, 45, 91, 91].length) = k + 1 from by simp; omega] at p2
          exact p2
        exact h2 (infix_of_get q1 q2)
      · apply h3
        rw [List.getLast?_eq_getElem?, show md.length - 1 = k from by omega]
        exact q1

theorem starts_layout {md : List Nat} (hg : GoodMeta md) (pay : List Nat) :
    starts podPrefix (metaPrefix ++ md ++ metaSuffix ++ pay) = true := by
  obtain ⟨⟨t, rfl⟩, -⟩ := hg
  unfold starts
  rw [List.isPrefixOf_iff_prefix]
  exact ⟨t ++ metaSuffix ++ pay, by
    rw [show podPrefix = metaPrefix ++ asc "pod" from by decide]; simp⟩

theorem rawMeta_layout {md : List Nat} (hg : GoodMeta md) (pay : List Nat) :
    rawMeta (metaPrefix ++ md ++ metaSuffix ++ pay) = some md ∧ rawPayload (metaPrefix ++ md ++ metaSuffix ++ pay) = pay := by
  unfold rawMeta rawPayload
  simp only [starts_layout hg, find_layout hg, Bool.not_true, Bool.false_eq_true, if_false, Option.some.injEq]
  rw [suffix_eq, prefix_eq]
  constructor
  · rw [List.append_assoc, List.take_left' (by simp; omega)]; simp
  · rw [List.drop_left' (by simp; omega)]

theorem starts_plain {data : List Nat} (h : starts podPrefix data = false) : rawMeta data = none ∧ rawPayload data = data := by
  simp [rawMeta, rawPayload, h]

/-- Data with metadata either has the layout, or the metadata is not closed. -/
theorem layout_cases (data : List Nat) : starts podPrefix data = false ∨
    (∃ md, GoodMeta md ∧ data = metaPrefix ++ md ++ metaSuffix ++ rawPayload data) ∨
    (asc "--[[pod" <+: data ∧ ¬ asc "]]" <:+: data ∧ rawMeta data = some (data.drop 4) ∧ rawPayload data = []) := by
  cases hs : starts podPrefix data with
  | false => exact .inl rfl
  | true =>
    right
    have hs' : podPrefix <+: data := by unfold starts at hs; exact List.isPrefixOf_iff_prefix.mp hs
    cases hf : findSub metaSuffix data with
    | none =>
      right
      refine ⟨hs', ?_, ?_, ?_⟩
      · rintro ⟨a, b, hab⟩
        apply findSub_none hf a.length
        rw [← hab, List.append_assoc, List.drop_left]
        exact List.prefix_append _ _
      · simp [rawMeta, hs, hf]
      · simp [rawPayload, hs, hf]
    | some i =>
      left
      obtain ⟨h1, h2, h3⟩ := findSub_some hf
      obtain ⟨t, ht⟩ := hs'
      have hpod : podPrefix = metaPrefix ++ asc "pod" := by decide
      have hi : 7 ≤ i := by
        rcases Nat.lt_or_ge i 7 with h | h
        · rw [suffix_eq, two_prefix, ← ht] at h1
          have : (podPrefix ++ t)[i]? ≠ some 93 := by
            rw [show podPrefix = [45, 45, 91, 91, 112, 111, 100] from by decide]
            rcases (by omega : i = 0 ∨ i = 1 ∨ i = 2 ∨ i = 3 ∨ i = 4 ∨ i = 5 ∨ i = 6) with rfl | rfl | rfl | rfl | rfl | rfl | rfl <;> simp
          exact absurd h1.1 this
        · exact h
      obtain ⟨r, hr⟩ := h1
      have hsplit : data = data.take i ++ metaSuffix ++ r := by rw [List.append_assoc, hr, List.take_append_drop]
      have hpay : rawPayload data = r := by
        simp only [rawPayload, hs, hf, Bool.not_true, Bool.false_eq_true, if_false]
        rw [← List.drop_drop, ← hr, suffix_eq]; rfl
      obtain ⟨md, hmd⟩ : ∃ md, data.take i = metaPrefix ++ (asc "pod" ++ md) := by
        refine ⟨t.take (i - 7), ?_⟩
        rw [← ht, hpod, List.take_append, List.take_of_length_le (by rw [prefix_eq]; simp; omega), List.append_assoc]
        rw [prefix_eq]; simp
      have hlen : i = 4 + (asc "pod" ++ md).length := by
        have := congrArg List.length hmd
        rw [List.length_take, Nat.min_eq_left h2, List.length_append, prefix_eq] at this
        simpa using this
      rw [hmd] at hsplit
      refine ⟨asc "pod" ++ md, ⟨⟨md, rfl⟩, ?_, ?_⟩, ?_⟩
      · rintro ⟨x, y, hxy⟩
        apply h3 (4 + x.length)
        · rw [hlen, ← hxy]; simp; omega
        · rw [hsplit, ← hxy, ← List.drop_drop]
          refine ⟨y ++ metaSuffix ++ r, ?_⟩
          rw [prefix_eq]; simp [suffix_eq]; rfl
      · intro hlast
        apply h3 (i - 1) (by omega)
        rw [suffix_eq, two_prefix]
        rw [List.getLast?_eq_getElem?] at hlast
        have hpos : (asc "pod" ++ md).length ≠ 0 := by simp
        constructor
        · rw [hsplit, List.append_assoc, List.append_assoc, List.getElem?_append_right (by rw [prefix_eq]; simp; omega),
            List.getElem?_append_left (by rw [prefix_eq]; simp only [List.length_cons, List.length_nil]; omega)]
          rw [← hlast, prefix_eq]
          congr 1
          simp only [List.length_cons, List.length_nil]; omega
        · rw [show i - 1 + 1 = i from by omega]
          have : (data.drop i)[0]? = some 93 := by rw [← hr, suffix_eq]; rfl
          rw [List.getElem?_drop] at this
          simpa using this
      · rw [hpay]; exact hsplit

/-! ### Escaping -/

/-- What `escape_meta` computes, from right to left. -/
def esc : List Nat → List Nat
  | [] => []
  | c :: s => if c = 93 ∧ (esc s).head? = some 93 then asc "\\93" ++ esc s else c :: esc s

theorem esc_head (s : List Nat) : (esc s).head? = s.head? ∨ (s.head? = some 93 ∧ (esc s).head? = some 92) := by
  cases s with
  | nil => left; rfl
  | cons c s =>
    unfold esc
    split
    · rename_i h; right; exact ⟨by rw [List.head?_cons, h.1], rfl⟩
    · left; rfl

theorem esc_append_ne {u : List Nat} (h : 93 ∉ u) (s : List Nat) : esc (u ++ s) = u ++ esc s := by
  induction u with
  | nil => rfl
  | cons c u ih =>
    rw [List.cons_append, esc, if_neg (by intro e; exact h (by simp [e.1])), ih (fun hu => h (by simp [hu]))]
    rfl

theorem esc_congr (u : List Nat) {s t : List Nat} (h : esc s = esc t) : esc (u ++ s) = esc (u ++ t) := by
  induction u with
  | nil => exact h
  | cons c u ih => simp only [List.cons_append, esc, ih]

theorem not_infix_cons {c : Nat} {s : List Nat} (h : ¬ [93, 93] <:+: c :: s) : ¬ [93, 93] <:+: s ∧ (c = 93 → s.head? ≠ some 93) := by
  constructor
  · intro hs; exact h (hs.trans (List.suffix_cons c s).isInfix)
  · rintro rfl hh
    apply h
    cases s with
    | nil => simp at hh
    | cons d s =>
      simp only [List.head?_cons, Option.some.injEq] at hh
      subst hh
      exact ⟨[], s, rfl⟩

theorem esc_id {s : List Nat} (h : ¬ [93, 93] <:+: s) : esc s = s := by
  induction s with
  | nil => rfl
  | cons c s ih =>
    obtain ⟨h1, h2⟩ := not_infix_cons h
    rw [esc, ih h1, if_neg (fun e => h2 e.1 e.2)]

theorem not_infix_of_cons {c : Nat} {s : List Nat} (h1 : ¬ [93, 93] <:+: s) (h2 : c = 93 → s.head? ≠ some 93) :
    ¬ [93, 93] <:+: c :: s := by
  intro h
  rw [List.infix_cons_iff] at h
  rcases h with ⟨t, ht⟩ | h
  · simp only [List.cons_append, List.nil_append, List.cons.injEq] at ht
    apply h2 ht.1.symm
    rw [← ht.2]; rfl
  · exact h1 h

theorem esc_no (s : List Nat) : ¬ [93, 93] <:+: esc s := by
  induction s with
  | nil => intro h; simpa [esc] using h.length_le
  | cons c s ih =>
    unfold esc
    split
    · show ¬ [93, 93] <:+: 92 :: 57 :: 51 :: esc s
      exact not_infix_of_cons (not_infix_of_cons (not_infix_of_cons ih (by omega)) (by omega)) (by omega)
    · rename_i h
      exact not_infix_of_cons ih fun hc hh => h ⟨hc, hh⟩

theorem rfind2_none {s : List Nat} (h : rfind2 s = none) : ¬ [93, 93] <:+: s := by
  induction s with
  | nil => intro h; simpa using h.length_le
  | cons c s ih =>
    unfold rfind2 at h
    split at h
    · simp at h
    · rename_i hr
      split at h
      · simp at h
      · rename_i hs
        refine not_infix_of_cons (ih hr) ?_
        rintro rfl hh
        apply hs
        cases s with
        | nil => simp at hh
        | cons d s =>
          simp only [List.head?_cons, Option.some.injEq] at hh
          subst hh
          rfl

theorem rfind2_some {s : List Nat} {i : Nat} (h : rfind2 s = some i) :
    s = s.take i ++ [93, 93] ++ s.drop (i + 2) ∧ ¬ [93, 93] <:+: s.drop (i + 1) := by
  induction s generalizing i with
  | nil => simp [rfind2] at h
  | cons c s ih =>
    unfold rfind2 at h
    split at h
    · rename_i j hr
      simp only [Option.some.injEq] at h
      subst h
      obtain ⟨h1, h2⟩ := ih hr
      refine ⟨?_, by simpa using h2⟩
      conv => lhs; rw [h1]
      simp
    · rename_i hr
      split at h
      · rename_i hs
        simp only [Option.some.injEq] at h
        subst h
        unfold starts at hs
        rw [List.isPrefixOf_iff_prefix, suffix_eq] at hs
        obtain ⟨t, ht⟩ := hs
        simp only [List.cons_append, List.nil_append, List.cons.injEq] at ht
        obtain ⟨rfl, ht⟩ := ht
        subst ht
        exact ⟨rfl, rfind2_none hr⟩
      · simp at h

theorem esc_step {a b : List Nat} (hb : ¬ [93, 93] <:+: 93 :: b) :
    esc (a ++ [93, 93] ++ b) = esc (a ++ asc "\\93]" ++ b) := by
  rw [List.append_assoc, List.append_assoc]
  apply esc_congr
  have h1 : esc (93 :: b) = 93 :: b := esc_id hb
  show esc (93 :: 93 :: b) = esc (92 :: 57 :: 51 :: 93 :: b)
  rw [esc, h1, if_pos ⟨rfl, rfl⟩, esc, if_neg (by simp), esc, if_neg (by simp), esc, if_neg (by simp), h1]
  rfl

theorem escapeLoop_eq (fuel : Nat) (s : List Nat) (h : s.count 93 ≤ fuel) : escapeLoop fuel s = some (esc s) := by
  induction fuel generalizing s with
  | zero =>
    unfold escapeLoop
    cases hr : rfind2 s with
    | none => simp [esc_id (rfind2_none hr)]
    | some i =>
      exfalso
      obtain ⟨h1, -⟩ := rfind2_some hr
      rw [h1] at h
      simp [List.count_append] at h
  | succ fuel ih =>
    unfold escapeLoop
    cases hr : rfind2 s with
    | none => simp [esc_id (rfind2_none hr)]
    | some i =>
      obtain ⟨h1, h2⟩ := rfind2_some hr
      have hlen : i + 2 ≤ s.length := by
        have := congrArg List.length h1
        simp at this; omega
      simp only
      rw [ih]
      · congr 1
        conv => rhs; rw [h1]
        refine (esc_step ?_).symm
        have : s.drop (i + 1) = 93 :: s.drop (i + 2) := by
          conv => lhs; rw [h1]
          rw [List.append_assoc, List.drop_append, List.drop_of_length_le (by simp; omega), List.length_take, Nat.min_eq_left (by omega)]
          simp
        rw [← this]; exact h2
      · rw [h1] at h
        simp only [List.count_append] at h ⊢
        have : (asc "\\93]").count 93 = 1 := by decide
        have : [93, 93].count 93 = 2 := by decide
        omega

theorem esc_last (s : List Nat) : (esc s).getLast? = s.getLast? := by
  induction s with
  | nil => rfl
  | cons c s ih =>
    unfold esc
    split
    · rename_i h
      rw [List.getLast?_append, ih, List.getLast?_cons]
      cases hs : s.getLast? with
      | none =>
        have : s = [] := by simpa using hs
        subst this
        simp [esc] at h
      | some d => rfl
    · rw [List.getLast?_cons, List.getLast?_cons, ih]

theorem parse_esc_litParts {isDig : Nat → Bool} (hd : AsciiDig isDig) {u p : Bool} {q : Nat} (hq : q = 34 ∨ q = 39) :
    ∀ v, parseBody p (esc (litParts isDig u q v)) = some v
  | [] => by simp [litParts, esc, parseBody]
  | c :: v => by
    have ih := parse_esc_litParts hd (u := u) (p := p) hq v
    have hdig : ∀ d, isDigit d = true → d ≠ 93 := by intro d h e; subst e; exact absurd h (by decide)
    have hhead : (∀ d, v.head? = some d → isDig d = false) →
        ∀ d, (esc (litParts isDig u q v)).head? = some d → isDigit d = false := by
      intro hv d h
      rcases esc_head (litParts isDig u q v) with e | ⟨_, e⟩
      · exact litParts_head hd hq hv d (e ▸ h)
      · rw [e] at h; simp only [Option.some.injEq] at h; subst h; decide
    rw [litParts_cons]
    rcases litPart_cases hd hq c v (u := u) with ⟨e, _, h, _⟩ | ⟨x, e, h, _⟩ | ⟨a, b, e, ha, hb, hn, hc⟩ | ⟨e, rfl, hv⟩ |
      ⟨b, e, hb, hn, hc, hv⟩ <;> rw [e]
    · rw [List.cons_append, List.nil_append, esc]
      split
      · rename_i h93
        obtain ⟨rfl, hh⟩ := h93
        have := parseEscape_dec (p := p) (e := 57) (c := 93) (ds := [51]) (rest := esc (litParts isDig u q v)) (by decide)
          (by decide) (by decide) (by omega) (by simp) (Or.inr (by
            intro d hd'; rw [hh] at hd'; simp only [Option.some.injEq] at hd'; subst hd'; decide))
        rw [show asc "\\93" ++ esc (litParts isDig u q v) = 92 :: 57 :: ([51] ++ esc (litParts isDig u q v)) from rfl,
          parseBody_esc this, ih]
        cases p <;> rfl
      · rw [parseBody_char h, ih]; rfl
    · have hx : x ≠ 93 := by intro e; subst e; rw [show charEscape 93 = none from by decide] at h; cases h
      rw [esc_append_ne (by simp [hx.symm]), List.cons_append, List.cons_append, List.nil_append,
        parseBody_esc (a := [c]) (r := esc (litParts isDig u q v)) (by simp [parseEscape, h]), ih]; rfl
    · have := parseEscape_dec (p := p) (e := 48) (ds := [a, b]) (rest := esc (litParts isDig u q v)) (by decide) (by simp [ha, hb]) hn
        (by omega) (by simp) (by simp)
      rw [esc_append_ne (by simp [(hdig a ha).symm, (hdig b hb).symm]), List.cons_append, List.cons_append, parseBody_esc this, ih]; rfl
    · have := parseEscape_dec (p := p) (e := 48) (c := 0) (ds := []) (rest := esc (litParts isDig u q v)) (by decide) (by simp) (by decide)
        (by omega) (by simp) (Or.inr (hhead hv))
      rw [esc_append_ne (by simp), List.cons_append, List.cons_append, parseBody_esc this, ih]; rfl
    · have := parseEscape_dec (p := p) (e := 49) (ds := [b]) (rest := esc (litParts isDig u q v)) (by decide) (by simp [hb]) hn
        (by omega) (by simp) (Or.inr (hhead hv))
      rw [esc_append_ne (by simp [(hdig b hb).symm]), List.cons_append, List.cons_append, parseBody_esc this, ih]; rfl

end Verif.PtFile
