import Verif.CartTitle
import Verif.P8SourceLemmas
import Verif.Props.Charset
import Verif.Spec.CartTitle
/-! Lemmas about titles. -/
namespace Verif.CartTitle

open TitleSpec

theorem heading_mem {l : List Nat} {x : Nat} (h : x ∈ heading l) : x ∈ l := by
  unfold heading at h
  split at h
  · exact List.mem_cons_of_mem _ (List.mem_cons_of_mem _ (List.mem_cons_of_mem _ h))
  · exact List.mem_cons_of_mem _ (List.mem_cons_of_mem _ h)
  · simp at h

theorem heading_iff {l t : List Nat} : Heading l t ↔ heading l = t := by
  constructor
  · intro h
    cases h with
    | spaced => rfl
    | tight t h =>
      cases t with
      | nil => rfl
      | cons x t =>
        unfold heading
        split
        · rename_i e; simp at e; simp [e.1] at h
        · rename_i e; simp at e; simp [e]
        · rename_i h1 h2; exact absurd rfl (h2 _)
    | code l h =>
      unfold heading
      split
      · exact absurd (by simp [List.prefix_iff_eq_append]) h
      · exact absurd (by simp [List.prefix_iff_eq_append]) h
      · rfl
  · rintro rfl
    unfold heading
    split
    · exact .spaced _
    · rename_i t h
      refine .tight t ?_
      cases t with
      | nil => simp
      | cons x t => simp only [List.head?_cons, ne_eq, Option.some.injEq]; rintro rfl; exact h _ rfl
    · rename_i h1 h2
      refine .code _ ?_
      rintro ⟨r, rfl⟩
      exact h2 r rfl

/-- `rstrip("\n")`. -/
def rstripNl (s : List Nat) : List Nat := (s.reverse.dropWhile (· == 10)).reverse

theorem rstripNl_nl (s : List Nat) : rstripNl (s ++ [10]) = rstripNl s := by
  simp [rstripNl]

theorem rstripNl_tight {s : List Nat} (h : s.getLast? ≠ some 10) : rstripNl s = s := by
  unfold rstripNl
  rcases List.eq_nil_or_concat s with rfl | ⟨t, x, rfl⟩
  · rfl
  · have : x ≠ 10 := by simpa using h
    simp [this]

theorem getLast_ne {s : List Nat} {x : Nat} (h : x ∉ s) : s.getLast? ≠ some x := fun e => h (List.mem_of_getLast? e)

theorem codeTitle_one {a : List Nat} (h : 10 ∉ a) : codeTitle a = heading a := by
  have : codeTitle a = rstripNl (heading a ++ [10]) := by
    unfold codeTitle rstripNl
    rw [splitNl_simple h]
    simp
  rw [this, rstripNl_nl, rstripNl_tight (getLast_ne fun hm => h (heading_mem hm))]

theorem codeTitle_two {code a b : List Nat} {rest : List (List Nat)} (hs : splitNl code = a :: b :: rest) :
    codeTitle code = if heading b = [] then heading a else heading a ++ 10 :: heading b := by
  have ha : 10 ∉ a := splitNl_no_nl code a (by simp [hs])
  have hb : 10 ∉ b := splitNl_no_nl code b (by simp [hs])
  have : codeTitle code = rstripNl ((heading a ++ 10 :: heading b) ++ [10]) := by
    unfold codeTitle rstripNl
    rw [hs]
    simp
  rw [this, rstripNl_nl]
  split
  · next e => rw [e, rstripNl_nl, rstripNl_tight (getLast_ne fun hm => ha (heading_mem hm))]
  · next e =>
    refine rstripNl_tight ?_
    intro h
    rw [List.getLast?_append] at h
    cases hh : heading b with
    | nil => exact e hh
    | cons x t =>
      rw [hh, List.getLast?_cons_cons, List.getLast?_eq_some_getLast (by simp), Option.some_or] at h
      have h2 := Option.some.inj h
      have h3 : (10 : Nat) ∈ x :: t := h2 ▸ List.getLast_mem (by simp)
      exact hb (heading_mem (hh ▸ h3))

theorem splitNl_length (s : List Nat) : (splitNl s).length = s.count 10 + 1 := by
  induction s with
  | nil => rfl
  | cons c s ih =>
    unfold splitNl
    split
    · next e => subst e; simp [ih]
    · next e =>
      rw [List.count_cons_of_ne e, ← ih]
      cases h : splitNl s with
      | nil => exact absurd h (splitNl_ne_nil s)
      | cons => rfl

theorem splitNl_first {p : List Nat} (h : p.count 10 = 1) : ∃ a b, splitNl p = [a, b] := by
  have := splitNl_length p
  rw [h] at this
  match hs : splitNl p, this with
  | [a, b], _ => exact ⟨a, b, rfl⟩

theorem codeTitle_iff {code t : List Nat} : CodeTitle code t ↔ codeTitle code = t := by
  constructor
  · intro h
    induction h with
    | one a t h1 h2 => rw [codeTitle_one h1, heading_iff.1 h2]
    | first a b ta h1 h2 h3 h4 =>
      rw [codeTitle_two (a := a) (b := b) (rest := []) (by rw [splitNl_append, splitNl_simple h1, splitNl_simple h2]; rfl),
        if_pos (heading_iff.1 h4), heading_iff.1 h3]
    | two a b ta tb h1 h2 h3 h4 h5 =>
      rw [codeTitle_two (a := a) (b := b) (rest := []) (by rw [splitNl_append, splitNl_simple h1, splitNl_simple h2]; rfl),
        heading_iff.1 h3, heading_iff.1 h4, if_neg h5]
    | more p rest t h1 h2 ih =>
      obtain ⟨a, b, hs⟩ := splitNl_first h1
      rw [codeTitle_two (rest := splitNl rest) (by rw [splitNl_append, hs]; rfl), ← ih, codeTitle_two hs]
  · rintro rfl
    have two : ∀ a b : List Nat, 10 ∉ a → 10 ∉ b → CodeTitle (a ++ 10 :: b) (codeTitle (a ++ 10 :: b)) := by
      intro a b ha hb
      rw [codeTitle_two (a := a) (b := b) (rest := []) (by rw [splitNl_append, splitNl_simple ha, splitNl_simple hb]; rfl)]
      split
      · next e => exact .first a b _ ha hb (heading_iff.2 rfl) (heading_iff.2 e)
      · next e => exact .two a b _ _ ha hb (heading_iff.2 rfl) (heading_iff.2 rfl) e
    have hj := joinNl_splitNl code
    have hn := splitNl_no_nl code
    match hs : splitNl code with
    | [] => exact absurd hs (splitNl_ne_nil code)
    | [a] =>
      rw [hs] at hj hn
      have e : a = code := hj
      subst e
      rw [codeTitle_one (hn a (by simp))]
      exact .one _ _ (hn a (by simp)) (heading_iff.2 rfl)
    | [a, b] =>
      rw [hs] at hj hn
      have e : a ++ 10 :: b = code := hj
      subst e
      exact two a b (hn a (by simp)) (hn b (by simp))
    | a :: b :: r :: rs =>
      rw [hs] at hj hn
      have e : (a ++ 10 :: b) ++ 10 :: joinNl (r :: rs) = code := by rw [← hj]; simp [joinNl]
      have ha := hn a (by simp)
      have hb := hn b (by simp)
      have ht : codeTitle code = codeTitle (a ++ 10 :: b) := by
        rw [codeTitle_two hs, codeTitle_two (a := a) (b := b) (rest := []) (by rw [splitNl_append, splitNl_simple ha, splitNl_simple hb]; rfl)]
      rw [ht, ← e]
      refine .more _ _ _ ?_ (two a b ha hb)
      rw [List.count_append, List.count_cons_self, List.count_eq_zero.2 ha, List.count_eq_zero.2 hb]

theorem codeTitle_mem {code : List Nat} {x : Nat} (h : x ∈ codeTitle code) : x ∈ code ∨ x = 10 := by
  unfold codeTitle at h
  rw [List.mem_reverse] at h
  have h := (List.dropWhile_sublist _).subset h
  rw [List.mem_reverse, List.mem_flatMap] at h
  obtain ⟨l, hl, hx⟩ := h
  rw [List.mem_append] at hx
  rcases hx with hx | hx
  · left
    have hl := List.mem_of_mem_take hl
    have hx := heading_mem hx
    have : x ∈ joinNl (splitNl code) := by
      clear h
      generalize splitNl code = ls at hl
      induction ls with
      | nil => simp at hl
      | cons a ls ih =>
        cases ls with
        | nil => simp at hl; subst hl; exact hx
        | cons b ls =>
          rw [joinNl, List.mem_append]
          rcases List.mem_cons.1 hl with rfl | hl
          · exact .inl hx
          · exact .inr (List.mem_cons_of_mem _ (ih hl))
    rwa [joinNl_splitNl] at this
  · right; simpa using hx

theorem codeTitle_last (code : List Nat) : (codeTitle code).getLast? ≠ some 10 := by
  unfold codeTitle
  intro h
  rw [List.getLast?_reverse] at h
  have := List.head?_dropWhile_not (fun x : Nat => x == 10) (List.flatMap (fun l => heading l ++ [10]) (List.take 2 (splitNl code))).reverse
  rw [h] at this
  simp at this

/-! ### Writing and reading a title -/

theorem entry_break_table : ∀ c : Fin 256, c.1 ≠ 10 → c.1 ≠ 13 → ∀ a ∈ entry false c.1, isBreak a = false := by decide +kernel

theorem fromP8_no_break {l : List Nat} (h : ∀ c ∈ l, c < 256 ∧ c ≠ 10 ∧ c ≠ 13) : ∀ a ∈ fromP8str false l, isBreak a = false := by
  intro a ha
  unfold fromP8str at ha
  rw [List.mem_flatMap] at ha
  obtain ⟨c, hc, ha⟩ := ha
  obtain ⟨h1, h2, h3⟩ := h c hc
  exact entry_break_table ⟨c, h1⟩ h2 h3 a ha

theorem splitLines_cons {c : Nat} (h : isBreak c = false) (cs : List Nat) :
    splitLines (c :: cs) = match splitLines cs with
      | [] => [[c]]
      | l :: ls => (c :: l) :: ls := by
  rw [splitLines.eq_3 _ _ (by rintro _ rfl _; exact absurd h (by decide)), h]
  rfl

theorem splitLines_nl (cs : List Nat) : splitLines (10 :: cs) = [] :: splitLines cs := by
  rw [splitLines.eq_3 _ _ (by intro _ e; exact absurd e (by decide))]
  rfl

theorem splitLines_line {l : List Nat} (h : ∀ a ∈ l, isBreak a = false) (hl : l ≠ []) : splitLines l = [l] := by
  induction l with
  | nil => contradiction
  | cons c l ih =>
    rw [splitLines_cons (h c (by simp))]
    cases l with
    | nil => rfl
    | cons d l => rw [ih (fun a ha => h a (List.mem_cons_of_mem _ ha)) (by simp)]

theorem splitLines_append {l : List Nat} (h : ∀ a ∈ l, isBreak a = false) (s : List Nat) :
    splitLines (l ++ 10 :: s) = l :: splitLines s := by
  induction l with
  | nil => exact splitLines_nl s
  | cons c l ih =>
    rw [List.cons_append, splitLines_cons (h c (by simp)), ih fun a ha => h a (List.mem_cons_of_mem _ ha)]

theorem splitLines_joinNl {ls : List (List Nat)} (h : ∀ l ∈ ls, ∀ a ∈ l, isBreak a = false) (hne : ls ≠ [])
    (hlast : ls.getLast? ≠ some []) : splitLines (joinNl ls) = ls := by
  induction ls with
  | nil => contradiction
  | cons l ls ih =>
    cases ls with
    | nil =>
      have : l ≠ [] := by rintro rfl; exact hlast rfl
      exact splitLines_line (h l (by simp)) this
    | cons m ls =>
      rw [joinNl, splitLines_append (h l (by simp)), ih (fun x hx => h x (List.mem_cons_of_mem _ hx)) (by simp)
        (by rwa [List.getLast?_cons_cons] at hlast)]

theorem joinNl_getLast {ls : List (List Nat)} (hne : ls ≠ []) (h : ls.getLast? = some []) :
    joinNl ls = [] ∨ (joinNl ls).getLast? = some 10 := by
  induction ls with
  | nil => contradiction
  | cons l ls ih =>
    cases ls with
    | nil => simp at h; subst h; exact .inl rfl
    | cons m ls =>
      rw [List.getLast?_cons_cons] at h
      rw [joinNl]
      right
      rcases ih (by simp) h with e | e
      · rw [e]; simp
      · rw [List.getLast?_append, List.getLast?_cons, e]; rfl

theorem splitNl_mem {t l : List Nat} {c : Nat} (hl : l ∈ splitNl t) (hc : c ∈ l) : c ∈ t := by
  rw [← joinNl_splitNl t]
  generalize splitNl t = ls at hl
  induction ls with
  | nil => simp at hl
  | cons a ls ih =>
    cases ls with
    | nil => simp at hl; subst hl; exact hc
    | cons b ls =>
      rw [joinNl, List.mem_append]
      rcases List.mem_cons.1 hl with rfl | hl
      · exact .inl hc
      · exact .inr (List.mem_cons_of_mem _ (ih hl))

/-- The lines kept for a title are its lines. -/
theorem title_split {t : List Nat} (ht : ∀ c ∈ t, c < 256) (hcr : 13 ∉ t) (hlast : t.getLast? ≠ some 10) (h0 : t ≠ []) :
    splitLines (fromP8str false t) = (splitNl t).map (fromP8str false) := by
  have hj := joinNl_splitNl t
  have hne := splitNl_ne_nil t
  have e : fromP8str false t = joinNl ((splitNl t).map (fromP8str false)) := by
    rw [← splitNl_fromP8 false ht, joinNl_splitNl]
  rw [e]
  refine splitLines_joinNl ?_ (by simpa using hne) ?_
  · intro l hl a ha
    obtain ⟨l', hl', rfl⟩ := List.mem_map.1 hl
    exact fromP8_no_break (fun c hc => ⟨ht c (splitNl_mem hl' hc), fun e => splitNl_no_nl t l' hl' (e ▸ hc), fun e => hcr (e ▸ splitNl_mem hl' hc)⟩) a ha
  · intro h
    rw [List.getLast?_map] at h
    cases hg : (splitNl t).getLast? with
    | none => rw [hg] at h; simp at h
    | some l =>
      rw [hg] at h
      have h : fromP8str false l = [] := by simpa using h
      have hl := List.mem_of_getLast? hg
      have : l = [] := by
        cases l with
        | nil => rfl
        | cons c l =>
          have := (entry_special (u := false) (ht c (splitNl_mem hl (by simp)))).1
          rw [fromP8_cons] at h
          simp [this] at h
      subst this
      rcases joinNl_getLast hne hg with e | e
      · exact h0 (hj ▸ e)
      · exact hlast (hj ▸ e)

/-- The lines kept for a title give the title again. -/
theorem title_lines {t : List Nat} (ht : ∀ c ∈ t, c < 256) (hcr : 13 ∉ t) (hlast : t.getLast? ≠ some 10) :
    ((splitLines (fromP8str false t)).mapM toP8str).map joinNl = some t := by
  by_cases h0 : t = []
  · subst h0; rfl
  rw [title_split ht hcr hlast h0, List.mapM_map, mapM_some (f := toP8str ∘ fromP8str false) (g := id) (fun l hl => C16_roundtrip (fun c hc => ht c (splitNl_mem hl hc)) false)]
  simp [joinNl_splitNl]

theorem lookup_setMeta (name : List Nat) (ls : List (List Nat)) (ms : List (List Nat × List (List Nat))) (n : List Nat) :
    (setMeta name ls ms).lookup n = if n = name then some ls else ms.lookup n := by
  induction ms with
  | nil =>
    by_cases h : n = name
    · subst h; simp [setMeta]
    · rw [if_neg h]
      have : (n == name) = false := by simpa using h
      simp [setMeta, List.lookup, this]
  | cons m ms ih =>
    obtain ⟨k, old⟩ := m
    unfold setMeta
    by_cases hk : k = name
    · subst hk
      rw [if_pos rfl]
      by_cases h : n = k
      · subst h; simp [List.lookup]
      · have : (n == k) = false := by simpa using h
        rw [if_neg h]; simp [List.lookup, this]
    · rw [if_neg hk]
      by_cases h : n = k
      · subst h; rw [if_neg hk]; simp [List.lookup]
      · have : (n == k) = false := by simpa using h
        simp only [List.lookup, this, ih]

theorem title_setRaw (c : SCart) (ls : List (List Nat)) : title (setRawTitle c ls) = (ls.mapM toP8str).map joinNl := by
  unfold title setRawTitle
  simp only [lookup_setMeta, if_true]

end Verif.CartTitle
