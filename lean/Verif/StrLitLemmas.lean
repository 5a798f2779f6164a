import Verif.StrLit
/-! Helper lemmas for string literals (C17, C53). -/
namespace Verif

theorem lookup_mem {β : Type} {c : Nat} {b : β} : ∀ {l : List (Nat × β)}, l.lookup c = some b → (c, b) ∈ l
  | [], h => by simp at h
  | (k, v) :: l, h => by
    rw [List.lookup_cons] at h
    split at h
    · next hk =>
      simp only [Option.some.injEq] at h
      have : c = k := by simpa using hk
      subst this; subst h; simp
    · exact List.mem_cons_of_mem _ (lookup_mem h)

theorem escRev_spec {c : Nat} {esc : List Nat} (h : escRev c = some esc) :
    (∃ e, esc = [e] ∧ charEscape e = some c ∧ isDigit e = false ∧ e ≠ 122 ∧ e < 128) ∨ (c = 0 ∧ esc = [48]) ∨ (c = 14 ∧ esc = [49, 52]) ∨
      (c = 15 ∧ esc = [49, 53]) := by
  have hm := lookup_mem h
  simp only [List.mem_cons, List.not_mem_nil, or_false, Prod.mk.injEq] at hm
  rcases hm with ⟨rfl, rfl⟩ | ⟨rfl, rfl⟩ | ⟨rfl, rfl⟩ | ⟨rfl, rfl⟩ | ⟨rfl, rfl⟩ | ⟨rfl, rfl⟩ | ⟨rfl, rfl⟩ | ⟨rfl, rfl⟩ | ⟨rfl, rfl⟩ |
    ⟨rfl, rfl⟩ | ⟨rfl, rfl⟩ | ⟨rfl, rfl⟩ | ⟨rfl, rfl⟩ | ⟨rfl, rfl⟩ | ⟨rfl, rfl⟩ | ⟨rfl, rfl⟩ | ⟨rfl, rfl⟩ | ⟨rfl, rfl⟩ | ⟨rfl, rfl⟩ <;>
    first
    | exact Or.inl ⟨_, rfl, by decide, by decide, by decide, by decide⟩
    | simp

/-- The escape used for `c`, in either table. -/
def escOf (useCtrl : Bool) (c : Nat) : Option (List Nat) := if useCtrl then escRevMin c else escRev c

theorem escOf_rev {u : Bool} {c : Nat} {esc : List Nat} (h : escOf u c = some esc) : escRev c = some esc := by
  unfold escOf escRevMin at h
  split at h
  · split at h
    · exact h
    · cases h
  · exact h

theorem escOf_none {u : Bool} {c : Nat} (h : escOf u c = none) : c ∉ [0, 10, 13, 34, 39, 92] := by
  intro hc
  have : escRev c ≠ none := by
    simp only [List.mem_cons, List.not_mem_nil, or_false] at hc
    rcases hc with rfl | rfl | rfl | rfl | rfl | rfl <;> decide
  unfold escOf escRevMin at h
  rw [if_pos hc] at h
  split at h <;> exact this h

/-- The text standing for one character `c` followed by the characters `v`. -/
def litPart (isDig : Nat → Bool) (u : Bool) (q c : Nat) (v : List Nat) : List Nat :=
  match escOf u c with
  | none => [c]
  | some esc =>
    if c = (if q = 34 then 39 else 34) then [c]
    else 92 :: (if esc.all isDig && (v.head?.any isDig) then List.replicate (3 - esc.length) 48 ++ esc else esc)

theorem litParts_cons (isDig : Nat → Bool) (u : Bool) (q c : Nat) (v : List Nat) :
    litParts isDig u q (c :: v) = litPart isDig u q c v ++ litParts isDig u q v := rfl

/-- `str.isdigit` on ASCII. -/
def AsciiDig (isDig : Nat → Bool) : Prop := ∀ c, c < 128 → isDig c = isDigit c

/-- The possible shapes of `litPart`. -/
theorem litPart_cases {isDig : Nat → Bool} (hd : AsciiDig isDig) {u : Bool} {q : Nat} (hq : q = 34 ∨ q = 39) (c : Nat) (v : List Nat) :
    (litPart isDig u q c v = [c] ∧ c ≠ 10 ∧ c ≠ 92 ∧ c ≠ q) ∨
    (∃ e, litPart isDig u q c v = [92, e] ∧ charEscape e = some c ∧ e ≠ 122) ∨
    (∃ a b, litPart isDig u q c v = [92, 48, a, b] ∧ isDigit a = true ∧ isDigit b = true ∧ parseNat [48, a, b] = some c ∧ c < 16) ∨
    (litPart isDig u q c v = [92, 48] ∧ c = 0 ∧ ∀ d, v.head? = some d → isDig d = false) ∨
    (∃ b, litPart isDig u q c v = [92, 49, b] ∧ isDigit b = true ∧ parseNat [49, b] = some c ∧ c < 16 ∧
      ∀ d, v.head? = some d → isDig d = false) := by
  unfold litPart
  cases he : escOf u c with
  | none =>
    left
    have := escOf_none he
    simp only [List.mem_cons, List.not_mem_nil, or_false] at this
    refine ⟨rfl, ?_, ?_, ?_⟩ <;> omega
  | some esc =>
    simp only
    by_cases hc : c = (if q = 34 then 39 else 34)
    · rw [if_pos hc]
      left
      refine ⟨rfl, ?_, ?_, ?_⟩ <;> rcases hq with rfl | rfl <;> simp at hc <;> omega
    · rw [if_neg hc]
      right
      have hh : ∀ b : Bool, (b && v.head?.any isDig) = false → b = true → ∀ d, v.head? = some d → isDig d = false := by
        intro b hb hb' d hv
        subst hb'
        simpa [hv] using hb
      rcases escRev_spec (escOf_rev he) with ⟨e, rfl, h1, h2, h3, h4⟩ | ⟨rfl, rfl⟩ | ⟨rfl, rfl⟩ | ⟨rfl, rfl⟩
      · left
        refine ⟨e, ?_, h1, h3⟩
        have : [e].all isDig = false := by simp [hd e h4, h2]
        rw [this]; rfl
      · right
        have : [48].all isDig = true := by simp [hd 48 (by decide)]; decide
        cases hb : ([48].all isDig && v.head?.any isDig) with
        | true => left; exact ⟨48, 48, by simp, by decide, by decide, by decide, by decide⟩
        | false => right; left; exact ⟨by simp, rfl, hh _ hb this⟩
      · right
        have : [49, 52].all isDig = true := by simp [hd 49 (by decide), hd 52 (by decide)]; decide
        cases hb : ([49, 52].all isDig && v.head?.any isDig) with
        | true => left; exact ⟨49, 52, by simp, by decide, by decide, by decide, by decide⟩
        | false => right; right; exact ⟨52, by simp, by decide, by decide, by decide, hh _ hb this⟩
      · right
        have : [49, 53].all isDig = true := by simp [hd 49 (by decide), hd 53 (by decide)]; decide
        cases hb : ([49, 53].all isDig && v.head?.any isDig) with
        | true => left; exact ⟨49, 53, by simp, by decide, by decide, by decide, by decide⟩
        | false => right; right; exact ⟨53, by simp, by decide, by decide, by decide, hh _ hb this⟩

/-- Text after a character that is not a digit does not start with a digit. -/
theorem litParts_head {isDig : Nat → Bool} (hd : AsciiDig isDig) {u : Bool} {q : Nat} (hq : q = 34 ∨ q = 39) {v : List Nat}
    (hv : ∀ d, v.head? = some d → isDig d = false) : ∀ d, (litParts isDig u q v).head? = some d → isDigit d = false := by
  cases v with
  | nil => intro d h; simp [litParts] at h
  | cons c v =>
    intro d h
    rw [litParts_cons] at h
    have hc := hv c rfl
    have h92 : isDigit 92 = false := by decide
    rcases litPart_cases hd hq c v (u := u) with ⟨e, _⟩ | ⟨x, e, _⟩ | ⟨a, b, e, _⟩ | ⟨e, _⟩ | ⟨b, e, _⟩ <;> rw [e] at h <;>
      simp at h <;> subst h
    · by_cases hlt : c < 128
      · rw [← hd c hlt]; exact hc
      · simp [isDigit]; omega
    all_goals exact h92

theorem parseBody_esc {p : Bool} {s a r : List Nat} (h : parseEscape p s = some (a, r)) :
    parseBody p (92 :: s) = (parseBody p r).map (a ++ ·) := by
  rw [parseBody]
  simp only [if_true]
  split
  · next h' => rw [h] at h'; cases h'
  · next h' =>
    rw [h] at h'
    simp only [Option.some.injEq, Prod.mk.injEq] at h'
    rw [h'.1, h'.2]

theorem parseBody_char {p : Bool} {c : Nat} {s : List Nat} (h : c ≠ 92) :
    parseBody p (c :: s) = (parseBody p s).map (c :: ·) := by
  rw [parseBody, if_neg h]

theorem isDigit_esc {e : Nat} (h : isDigit e = true) : charEscape e = none ∧ e ≠ 122 ∧ e ≠ 120 ∧ e ≠ 117 ∧ e ≠ 10 ∧ e ≠ 92 ∧ e ≠ 34 ∧ e ≠ 39 := by
  have : ∀ n < 10, charEscape (48 + n) = none := by decide
  simp [isDigit] at h
  refine ⟨?_, by omega⟩
  have := this (e - 48) (by omega)
  rwa [show 48 + (e - 48) = e by omega] at this

/-- A decimal escape of digits `e :: ds` with nothing to extend it. -/
theorem parseEscape_dec {p : Bool} {e c : Nat} {ds rest : List Nat} (he : isDigit e = true) (hds : ∀ d ∈ ds, isDigit d = true)
    (hn : parseNat (e :: ds) = some c) (hc : c < 128) (hl : ds.length ≤ 2)
    (hr : ds.length = 2 ∨ ∀ d, rest.head? = some d → isDigit d = false) :
    parseEscape p (e :: (ds ++ rest)) = some ([c], rest) := by
  obtain ⟨h1, h2, h3, _⟩ := isDigit_esc he
  have htake : ((ds ++ rest).take 2).takeWhile isDigit = ds := by
    rw [List.take_append]
    rw [List.take_of_length_le hl]
    rw [List.takeWhile_append_of_pos hds]
    rcases hr with hr | hr
    · simp [hr]
    · cases rest with
      | nil => simp
      | cons d rest =>
        have := hr d rfl
        cases hk : 2 - ds.length with
        | zero => simp
        | succ k => simp [this]
  simp only [parseEscape, h1, h2, h3, he, if_false, if_true, htake, hn]
  rw [if_neg (by omega)]
  simp [langChr, hc]

theorem parseBody_litParts {isDig : Nat → Bool} (hd : AsciiDig isDig) {u p : Bool} {q : Nat} (hq : q = 34 ∨ q = 39) :
    ∀ v, parseBody p (litParts isDig u q v) = some v
  | [] => by simp [litParts, parseBody]
  | c :: v => by
    have ih := parseBody_litParts hd (u := u) (p := p) hq v
    rw [litParts_cons]
    rcases litPart_cases hd hq c v (u := u) with ⟨e, _, h, _⟩ | ⟨x, e, h, _⟩ | ⟨a, b, e, ha, hb, hn, hc⟩ | ⟨e, rfl, hv⟩ |
      ⟨b, e, hb, hn, hc, hv⟩ <;> rw [e]
    · rw [List.cons_append, List.nil_append, parseBody_char h, ih]; rfl
    · rw [List.cons_append, List.cons_append, List.nil_append,
        parseBody_esc (a := [c]) (r := litParts isDig u q v) (by simp [parseEscape, h]), ih]; rfl
    · have := parseEscape_dec (p := p) (e := 48) (ds := [a, b]) (rest := litParts isDig u q v) (by decide) (by simp [ha, hb]) hn
        (by omega) (by simp) (by simp)
      rw [List.cons_append, List.cons_append, parseBody_esc this, ih]; rfl
    · have := parseEscape_dec (p := p) (e := 48) (c := 0) (ds := []) (rest := litParts isDig u q v) (by decide) (by simp) (by decide)
        (by omega) (by simp) (Or.inr (litParts_head hd hq hv))
      rw [List.cons_append, List.cons_append, parseBody_esc this, ih]; rfl
    · have := parseEscape_dec (p := p) (e := 49) (ds := [b]) (rest := litParts isDig u q v) (by decide) (by simp [hb]) hn
        (by omega) (by simp) (Or.inr (litParts_head hd hq hv))
      rw [List.cons_append, List.cons_append, parseBody_esc this, ih]; rfl

theorem scan_skip {q c : Nat} {r : List Nat} (h1 : c ≠ 10) (h2 : c ≠ 92) (h3 : c ≠ q) : scanString q (c :: r) = scanString q r := by
  conv => lhs; unfold scanString
  rw [if_neg h1, if_neg h2, if_neg h3]

theorem scan_esc {q e : Nat} {r : List Nat} (h : e ≠ 122) : scanString q (92 :: e :: r) = scanString q r := by
  conv => lhs; unfold scanString
  rw [if_neg (by decide), if_pos rfl]
  simp only [if_neg h]

theorem scanString_litParts {isDig : Nat → Bool} (hd : AsciiDig isDig) {u : Bool} {q : Nat} (hq : q = 34 ∨ q = 39) (t : List Nat) :
    ∀ v, scanString q (litParts isDig u q v ++ q :: t) = some t
  | [] => by
    rw [litParts, List.nil_append]
    unfold scanString
    rcases hq with rfl | rfl <;> simp
  | c :: v => by
    have ih := scanString_litParts hd (u := u) hq t v
    have digq : ∀ {d r}, isDigit d = true → scanString q (d :: r) = scanString q r := by
      intro d r h
      obtain ⟨_, _, _, _, h5, h6, h7, h8⟩ := isDigit_esc h
      exact scan_skip h5 h6 (by rcases hq with rfl | rfl <;> assumption)
    rw [litParts_cons]
    rcases litPart_cases hd hq c v (u := u) with ⟨e, h1, h2, h3⟩ | ⟨x, e, h, hx⟩ | ⟨a, b, e, ha, hb, hn, hc⟩ | ⟨e, rfl, hv⟩ |
      ⟨b, e, hb, hn, hc, hv⟩ <;> rw [e] <;> simp only [List.cons_append, List.nil_append]
    · rw [scan_skip h1 h2 h3, ih]
    · rw [scan_esc hx, ih]
    · rw [scan_esc (by decide), digq ha, digq hb, ih]
    · rw [scan_esc (by decide), ih]
    · rw [scan_esc (by decide), digq hb, ih]

/-! ### Long brackets -/

theorem splitAt_infix {p : List Nat} : ∀ {s : List Nat}, (splitAt p s).isSome = true ↔ p <:+: s
  | [] => by
    simp only [splitAt]
    by_cases hp : p = [] <;> simp [hp]
  | c :: s => by
    simp only [splitAt]
    by_cases hp : p.isPrefixOf (c :: s) = true
    · simp only [hp, if_true, Option.isSome_some, true_iff]
      exact (List.isPrefixOf_iff_prefix.mp hp).isInfix
    · rw [if_neg hp, Option.isSome_map, splitAt_infix, List.infix_cons_iff]
      rw [List.isPrefixOf_iff_prefix] at hp
      simp [hp]

theorem hasCloser_iff {v : List Nat} {n : Nat} : hasCloser v n = true ↔ closer n <:+: v := splitAt_infix

/-- The first occurrence is found when no occurrence starts inside `v`. -/
theorem splitAt_first {p t : List Nat} (hp : p ≠ []) : ∀ {v : List Nat}, ¬ p <:+: v ++ p.dropLast → splitAt p (v ++ p ++ t) = some (v, t)
  | [], _ => by
    cases p with
    | nil => contradiction
    | cons a p =>
      simp only [List.nil_append, List.cons_append, splitAt]
      rw [if_pos (by rw [List.isPrefixOf_iff_prefix]; exact ⟨t, rfl⟩)]
      simp
  | c :: v, h => by
    have hn : ¬ p <:+: v ++ p.dropLast := fun h' => h (by rw [List.cons_append]; exact h'.trans (List.suffix_cons _ _).isInfix)
    simp only [List.cons_append, splitAt]
    rw [if_neg, splitAt_first hp hn]; rfl
    intro hpre
    rw [List.isPrefixOf_iff_prefix] at hpre
    apply h
    have e : c :: (v ++ p ++ t) = (c :: v ++ p.dropLast) ++ (p.getLast hp :: t) := by
      conv => lhs; rw [← List.dropLast_concat_getLast hp]
      simp
    rw [e] at hpre
    have hl : p.length ≤ (c :: v ++ p.dropLast).length := by simp; omega
    exact (List.prefix_of_prefix_length_le hpre (List.prefix_append _ _) hl).isInfix

theorem splitAt_le {p : List Nat} : ∀ {s a b a' b' : List Nat}, splitAt p s = some (a, b) → s = a' ++ p ++ b' → a.length ≤ a'.length
  | [], a, b, a', b', h, e => by
    simp only [splitAt] at h
    split at h
    · simp only [Option.some.injEq, Prod.mk.injEq] at h; rw [← h.1]; simp
    · cases h
  | c :: s, a, b, a', b', h, e => by
    simp only [splitAt] at h
    split at h
    · simp only [Option.some.injEq, Prod.mk.injEq] at h; rw [← h.1]; simp
    · next hp =>
      rw [List.isPrefixOf_iff_prefix] at hp
      simp only [Option.map_eq_some_iff] at h
      obtain ⟨⟨x, y⟩, h1, h2⟩ := h
      simp only [Prod.mk.injEq] at h2
      cases a' with
      | nil => exact absurd ⟨b', by simpa using e.symm⟩ hp
      | cons d a' =>
        simp only [List.cons_append, List.cons.injEq] at e
        have := splitAt_le h1 e.2
        rw [← h2.1]; simp; omega

theorem closer_dropLast (n : Nat) : (closer n).dropLast = 93 :: List.replicate n 61 := by
  unfold closer
  rw [← List.cons_append, List.dropLast_concat]

/-- The closing bracket is not completed early, unless the value ends with its beginning. -/
theorem closer_not_early {n : Nat} {v : List Nat} (h : ¬ closer n <:+: v) (hs : ¬ (93 :: List.replicate n 61) <:+ v) :
    ¬ closer n <:+: v ++ (closer n).dropLast := by
  rw [closer_dropLast]
  rintro ⟨a, b, e⟩
  have e1 : a ++ (93 :: List.replicate n 61) ++ 93 :: b = v ++ (93 :: List.replicate n 61) := by
    rw [← e]; simp [closer]
  have hk : (v ++ (93 :: List.replicate n 61))[a.length + (n + 1)]? = some 93 := by
    rw [← e1, List.getElem?_append_right (by simp)]; simp
  by_cases hlt : a.length + (n + 1) < v.length
  · apply h
    have : closer n = (93 :: List.replicate n 61) ++ [93] := by simp [closer]
    have h2 : (a ++ closer n) <+: v := by
      refine List.prefix_of_prefix_length_le (l₃ := v ++ (93 :: List.replicate n 61)) ⟨b, by rw [← e]⟩ (List.prefix_append _ _) ?_
      simp [closer]; omega
    exact List.IsInfix.trans (List.suffix_append a _).isInfix h2.isInfix
  · rw [List.getElem?_append_right (by omega)] at hk
    have hz : a.length + (n + 1) - v.length = 0 := by
      cases hj : a.length + (n + 1) - v.length with
      | zero => rfl
      | succ j =>
        rw [hj, List.getElem?_cons_succ, List.getElem?_replicate] at hk
        split at hk <;> simp at hk
    apply hs
    have hle : (a ++ (93 :: List.replicate n 61)).length = v.length := by simp; omega
    exact ⟨a, (List.append_inj e1 hle).1⟩

theorem longEqsFrom_spec {v : List Nat} (i : Nat) : hasCloser v (longEqsFrom v i) = false := by
  unfold longEqsFrom
  split
  · exact longEqsFrom_spec (i + 1)
  · next h => simpa using h
termination_by v.length - i
decreasing_by
  rename_i h
  unfold hasCloser at h
  obtain ⟨⟨a, b⟩, h⟩ := Option.isSome_iff_exists.mp h
  have := congrArg List.length (splitAt_some h)
  simp [closer] at this; omega

theorem longEqs_spec (v : List Nat) : ¬ closer (longEqs v) <:+: v := by
  have := longEqsFrom_spec (v := v) 0
  rw [← hasCloser_iff]
  simp [longEqs, this]

theorem longEqs_zero {v : List Nat} (h : hasCloser v 0 = false) : longEqs v = 0 := by
  unfold longEqs longEqsFrom
  simp [h]

theorem normNl_id : ∀ {l : List Nat}, 13 ∉ l → normNl l = l
  | [], _ => rfl
  | [c], h => by
    simp at h
    simp [normNl]; omega
  | c :: d :: r, h => by
    have h2 := normNl_id (l := d :: r) (fun hm => h (List.mem_cons_of_mem _ hm))
    simp at h
    rw [normNl, if_neg (by omega), h2, if_neg (by omega)]

theorem takeWhile_replicate61 {n : Nat} {r : List Nat} : (List.replicate n 61 ++ 91 :: r).takeWhile (· == 61) = List.replicate n 61 := by
  rw [List.takeWhile_append_of_pos (by intro a ha; rw [List.eq_of_mem_replicate ha]; rfl)]
  simp

theorem takeWhile_replicate61' {n : Nat} {r : List Nat} :
    (List.replicate n 61 ++ 91 :: r).takeWhile (fun x => decide (x ≠ 91)) = List.replicate n 61 := by
  rw [List.takeWhile_append_of_pos (by intro a ha; rw [List.eq_of_mem_replicate ha]; rfl)]
  simp

theorem parseLiteral_long {p : Bool} {n : Nat} {body : List Nat} (h : 13 ∉ body) :
    parseLiteral p (91 :: (List.replicate n 61 ++ 91 :: (body ++ 93 :: (List.replicate n 61 ++ [93])))) =
      some (if body.head? = some 10 then body.drop 1 else body) := by
  simp only [parseLiteral]
  rw [if_pos (by simp), takeWhile_replicate61', List.length_replicate]
  have e : 91 :: (List.replicate n 61 ++ 91 :: (body ++ 93 :: (List.replicate n 61 ++ [93]))) =
      ((91 :: (List.replicate n 61 ++ [91])) ++ body) ++ (93 :: (List.replicate n 61 ++ [93])) := by simp
  rw [e, List.take_append_of_le_length (by simp; omega), List.take_of_length_le (by simp; omega)]
  rw [List.drop_append_of_le_length (by simp), List.drop_of_length_le (by simp), List.nil_append, normNl_id h]

end Verif
