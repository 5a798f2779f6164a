import Verif.SourceMap
/-!
C44: reported line, column and tab.  C45: tab selection in includes.
-/
namespace Verif

theorem nl_prefix {s : List Nat} {j : Nat} : [10] <+: s.drop j ↔ s[j]? = some 10 := by
  rw [← List.head?_drop]
  cases s.drop j with
  | nil => simp
  | cons a l => simp [eq_comm]

theorem not_mem_slice {s : List Nat} {a b : Nat} {x : Nat} (h : ∀ j, a ≤ j → j < b → s[j]? ≠ some x) : x ∉ (s.take b).drop a := by
  intro hm
  obtain ⟨k, hk⟩ := List.mem_iff_getElem?.1 hm
  rw [List.getElem?_drop, List.getElem?_take] at hk
  split at hk
  · exact h (a + k) (by omega) (by omega) hk
  · cases hk

theorem slice_split (s : List Nat) {a b c : Nat} (h1 : a ≤ b) (h2 : b ≤ c) :
    (s.take c).drop a = (s.take b).drop a ++ (s.take c).drop b := by
  rw [← List.take_append_drop (b - a) ((s.take c).drop a), List.take_drop, List.drop_drop, List.take_take]
  congr 3 <;> omega

theorem lineLoop_spec (text : List Nat) (idx start line : Nat) (h1 : start ≤ idx) (h2 : idx ≤ text.length) :
    ∃ pre last, (text.take idx).drop start = pre ++ last ∧ 10 ∉ last ∧ (pre = [] ∨ pre.getLast? = some 10) ∧
      (lineLoop text idx start line).1 = line + pre.count 10 ∧ (lineLoop text idx start line).2 + last.length = idx := by
  revert h1
  fun_induction lineLoop text idx start line with
  | case1 start line hlt hf =>
    intro h1
    have := findFrom_none hf
    refine ⟨[], (text.take idx).drop start, by simp, not_mem_slice fun j hj _ => by simpa [nl_prefix] using this j hj, Or.inl rfl, by simp, ?_⟩
    simp; omega
  | case2 start line hlt e hf hge =>
    intro h1
    have := (findFrom_some hf).2.2
    refine ⟨[], (text.take idx).drop start, by simp, not_mem_slice fun j hj hj2 => by simpa [nl_prefix] using this j hj (by omega), Or.inl rfl, by simp, ?_⟩
    simp; omega
  | case3 start line hlt e hf hge ih =>
    intro h1
    obtain ⟨a1, a2, a3⟩ := findFrom_some hf
    rw [nl_prefix] at a2
    obtain ⟨pre, last, b1, b2, b3, b4, b5⟩ := ih (by omega)
    have hseg : (text.take (e + 1)).drop start = (text.take e).drop start ++ [10] := by
      rw [slice_split text a1 (Nat.le_succ e)]
      congr 1
      rw [List.take_add_one, a2, List.drop_append]
      have : (text.take e).length = e := by simp; omega
      rw [List.drop_eq_nil_of_le (by omega), this]; simp
    have hnot : 10 ∉ (text.take e).drop start := not_mem_slice fun j hj hj2 => by simpa [nl_prefix] using a3 j hj hj2
    refine ⟨(text.take (e + 1)).drop start ++ pre, last, ?_, b2, Or.inr ?_, ?_, b5⟩
    · rw [slice_split text (b := e + 1) (by omega) (by omega), b1, List.append_assoc]
    · rcases b3 with b3 | b3
      · rw [b3, hseg]; simp
      · rw [List.getLast?_append, b3]; rfl
    · rw [b4, List.count_append, hseg, List.count_append, List.count_eq_zero_of_not_mem hnot]; simp; omega
  | case4 start line hlt =>
    intro h1
    have : start = idx := by omega
    exact ⟨[], [], by simp [this], by simp, Or.inl rfl, by simp, by simp [this]⟩

/-- Specification: `before`, the text before a position, is some whole lines and then `col` characters of line `line`. -/
def IsLineCol (before : List Nat) (line : Nat) (col : Int) : Prop :=
  ∃ pre last, before = pre ++ last ∧ 10 ∉ last ∧ (pre = [] ∨ pre.getLast? = some 10) ∧ line = pre.count 10 ∧ col = last.length

theorem getLineCol_spec (text : List Nat) (idx start : Nat) (h1 : start ≤ idx) (h2 : idx ≤ text.length) :
    IsLineCol ((text.take idx).drop start) (getLineCol text idx start).1 (getLineCol text idx start).2 := by
  obtain ⟨pre, last, b1, b2, b3, b4, b5⟩ := lineLoop_spec text idx start 0 h1 h2
  refine ⟨pre, last, b1, b2, b3, ?_, ?_⟩
  · simp only [getLineCol, b4]; omega
  · simp only [getLineCol]; omega

/-- The line is the number of newlines before the position and the column the distance from the last one. -/
theorem C44_line_col (text : List Nat) (idx : Nat) (h : idx ≤ text.length) :
    IsLineCol (text.take idx) (getLineCol text idx 0).1 (getLineCol text idx 0).2 := by
  have := getLineCol_spec text idx 0 (Nat.zero_le _) h
  simpa using this

/-- The specification leaves no choice. -/
theorem C44_unique {before : List Nat} {l l' : Nat} {c c' : Int} (h : IsLineCol before l c) (h' : IsLineCol before l' c') : l = l' ∧ c = c' := by
  obtain ⟨p, q, e1, e2, e3, e4, e5⟩ := h
  obtain ⟨p', q', f1, f2, f3, f4, f5⟩ := h'
  have key : ∀ {p q : List Nat}, before = p ++ q → 10 ∉ q → before.count 10 = p.count 10 := by
    intro p q h1 h2
    rw [h1, List.count_append, List.count_eq_zero_of_not_mem h2, Nat.add_zero]
  have rev : ∀ {p q : List Nat}, before = p ++ q → 10 ∉ q → (p = [] ∨ p.getLast? = some 10) →
      q.length = (before.reverse.takeWhile (· != 10)).length := by
    intro p q h1 h2 h3
    have hq : ∀ a ∈ q.reverse, (a != 10) = true := by
      intro a ha; rw [List.mem_reverse] at ha; simp; rintro rfl; exact h2 ha
    rw [h1, List.reverse_append, List.takeWhile_append_of_pos hq, List.length_append, List.length_reverse]
    have : p.reverse.takeWhile (· != 10) = [] := by
      rcases h3 with h3 | h3
      · simp [h3]
      · rw [← List.head?_reverse] at h3
        cases hr : p.reverse with
        | nil => rfl
        | cons a l => rw [hr] at h3; simp at h3; subst h3; simp
    rw [this]; simp
  have k1 := key e1 e2; have k2 := key f1 f2
  have r1 := rev e1 e2 e3; have r2 := rev f1 f2 f3
  omega

theorem tabBreak_len : tabBreak.length = 6 := rfl

/-- Text made of tabs, each followed by a tab break, cut at the leftmost breaks. -/
inductive TabsBefore : List (List Nat) → List Nat → List Nat → Prop
  | nil (text) : TabsBefore [] text text
  | cons (t rest ts) {left} (h : ∀ j < t.length, ¬ tabBreak <+: (t ++ (tabBreak ++ rest)).drop j) (hr : TabsBefore ts rest left) :
      TabsBefore (t :: ts) (t ++ (tabBreak ++ rest)) left

theorem drop_prefix_split {s : List Nat} {i : Nat} (h : tabBreak <+: s.drop i) : s.drop i = tabBreak ++ s.drop (i + 6) := by
  obtain ⟨r, hr⟩ := h
  rw [← List.drop_drop, ← hr, List.drop_append]
  simp [tabBreak]

theorem slice_to {s : List Nat} {a b : Nat} (h : a ≤ b) : s.drop a = (s.drop a).take (b - a) ++ s.drop b := by
  have := List.take_append_drop (b - a) (s.drop a)
  rw [List.drop_drop, Nat.add_sub_of_le h] at this
  exact this.symm

/-- One step to the next tab. -/
theorem tab_step {text : List Nat} {start e : Nat} (hf : findFrom tabBreak text start = some e) :
    ∃ t, t.length = e - start ∧ t = (text.drop start).take (e - start) ∧ text.drop start = t ++ (tabBreak ++ text.drop (e + 6)) ∧
      ∀ j < t.length, ¬ tabBreak <+: (t ++ (tabBreak ++ text.drop (e + 6))).drop j := by
  obtain ⟨a1, a2, a3⟩ := findFrom_some hf
  have hl := prefix_drop_len a2 (by simp [tabBreak])
  rw [tabBreak_len] at hl
  have hlen : ((text.drop start).take (e - start)).length = e - start := by simp; omega
  have heq : text.drop start = (text.drop start).take (e - start) ++ (tabBreak ++ text.drop (e + 6)) := by
    rw [← drop_prefix_split a2]; exact slice_to a1
  refine ⟨_, hlen, rfl, heq, ?_⟩
  rw [← heq, hlen]
  intro j hj
  rw [List.drop_drop]
  exact a3 _ (by omega) (by omega)

/-- A position strictly inside a tab break. -/
def InsideBreak (text : List Nat) (idx : Nat) : Prop := ∃ i, tabBreak <+: text.drop i ∧ i < idx ∧ idx < i + 6

theorem tabLoop_spec (text : List Nat) (idx start tab : Nat) (hin : ¬ InsideBreak text idx) (ht : tab ≤ 15) :
    start ≤ idx → ∃ ts, TabsBefore ts (text.drop start) (text.drop (tabLoop text idx start tab).2) ∧
      (tabLoop text idx start tab).1 = tab + ts.length ∧ (tabLoop text idx start tab).2 ≤ idx ∧
      ((tabLoop text idx start tab).1 = 15 ∨ (tabLoop text idx start tab).1 < 15 ∧ ∀ i, (tabLoop text idx start tab).2 ≤ i → i < idx → ¬ tabBreak <+: text.drop i) := by
  fun_induction tabLoop text idx start tab with
  | case1 start tab hlt hf =>
    intro h
    exact ⟨[], TabsBefore.nil _, by simp, h, Or.inr ⟨by omega, fun i hi _ => findFrom_none hf i hi⟩⟩
  | case2 start tab hlt e hf hge =>
    intro h
    exact ⟨[], TabsBefore.nil _, by simp, h, Or.inr ⟨by omega, fun i hi hi2 => (findFrom_some hf).2.2 i hi (by omega)⟩⟩
  | case3 start tab hlt e hf hge ih =>
    intro h
    obtain ⟨a1, a2, a3⟩ := findFrom_some hf
    have he : e + 6 ≤ idx := by
      rcases Nat.lt_or_ge idx (e + 6) with h3 | h3
      · exact absurd ⟨e, a2, by omega, h3⟩ hin
      · exact h3
    obtain ⟨ts, b1, b2, b3, b4⟩ := ih (by omega) he
    obtain ⟨t, c1, c2, c3, c4⟩ := tab_step hf
    refine ⟨t :: ts, ?_, by rw [b2]; simp; omega, b3, b4⟩
    rw [c3]
    exact TabsBefore.cons t _ ts c4 b1
  | case4 start tab hlt =>
    intro h
    refine ⟨[], TabsBefore.nil _, by simp, h, ?_⟩
    rcases Nat.lt_or_ge tab 15 with h3 | h3
    · exact Or.inr ⟨h3, fun i hi hi2 => absurd hi2 (by omega)⟩
    · exact Or.inl (by omega)

/-- With tabs: `tab` is the number of tab breaks before the position (at most 15), and line and column are counted within the tab. -/
theorem C44_tab_partial (text : List Nat) (idx : Nat) (h : idx ≤ text.length) (hin : ¬ InsideBreak text idx) :
    ∃ tabs rest k, TabsBefore tabs text rest ∧ rest = text.drop k ∧ k ≤ idx ∧ (getTabLineCol text idx).1 = tabs.length ∧
      (tabs.length = 15 ∨ tabs.length < 15 ∧ ∀ i < idx - k, ¬ tabBreak <+: rest.drop i) ∧
      IsLineCol (rest.take (idx - k)) (getTabLineCol text idx).2.1 (getTabLineCol text idx).2.2 := by
  obtain ⟨ts, b1, b2, b3, b4⟩ := tabLoop_spec text idx 0 0 hin (by omega) (Nat.zero_le _)
  refine ⟨ts, text.drop (tabLoop text idx 0 0).2, (tabLoop text idx 0 0).2, by simpa using b1, rfl, b3, ?_, ?_, ?_⟩
  · simp only [getTabLineCol]; omega
  · rw [b2, Nat.zero_add] at b4
    refine b4.imp id fun ⟨x, y⟩ => ⟨x, fun i hi => ?_⟩
    rw [List.drop_drop]
    exact y _ (by omega) (by omega)
  · have := getLineCol_spec text idx (tabLoop text idx 0 0).2 b3 h
    rw [List.take_drop, Nat.add_sub_of_le b3]
    exact this

/-- A position inside the tab break itself gets a negative column. -/
theorem C44_marker_counterexample : ∃ (text : List Nat) (idx : Nat), idx ≤ text.length ∧ (getTabLineCol text idx).2.2 < 0 :=
  ⟨97 :: tabBreak ++ [98], 3, by decide, by decide +kernel⟩

/-- `x`, newline, `y`, break, `ab`, newline, `cd`: position 12 is tab 1, line 1, column 1. -/
example : getTabLineCol ([120, 10, 121] ++ tabBreak ++ [97, 98, 10, 99, 100]) 13 = (1, 1, 1) ∧
    getLineCol ([120, 10, 121] ++ tabBreak ++ [97, 98, 10, 99, 100]) 13 0 = (4, 1) := by decide +kernel

example : ¬ InsideBreak ([120, 10, 121] ++ tabBreak ++ [97, 98, 10, 99, 100]) 13 := by
  rintro ⟨i, h1, h2, h3⟩
  have : i < 13 := h2
  have : ∀ i < 13, 13 < i + 6 → ¬ tabBreak <+: (([120, 10, 121] ++ tabBreak ++ [97, 98, 10, 99, 100]).drop i) := by decide +kernel
  exact this i h2 h3 h1

/-! ### C45 -/

/-- Specification: the tabs of a text, cut at the leftmost breaks. -/
inductive Tabs : List Nat → List (List Nat) → Prop
  | last (t) (h : ∀ j, ¬ tabBreak <+: t.drop j) : Tabs t [t]
  | cons (t rest ts) (h : ∀ j < t.length, ¬ tabBreak <+: (t ++ (tabBreak ++ rest)).drop j) (hr : Tabs rest ts) :
      Tabs (t ++ (tabBreak ++ rest)) (t :: ts)

theorem tabs_ne_nil {s ts} (h : Tabs s ts) : ts ≠ [] := by cases h <;> simp

/-- Every text has tabs. -/
theorem tabs_exists (text : List Nat) : ∃ ts, Tabs text ts := by
  obtain ⟨n, hn⟩ : ∃ n, n = text.length := ⟨_, rfl⟩
  induction n using Nat.strongRecOn generalizing text with
  | ind n ih =>
    cases hf : findFrom tabBreak text 0 with
    | none => exact ⟨[text], Tabs.last text fun j => findFrom_none hf j (Nat.zero_le _)⟩
    | some e =>
      obtain ⟨t, c1, c2, c3, c4⟩ := tab_step hf
      have hl := congrArg List.length c3
      simp [tabBreak] at hl
      obtain ⟨ts, hts⟩ := ih (text.drop (e + 6)).length (by simp; omega) (text.drop (e + 6)) rfl
      refine ⟨t :: ts, ?_⟩
      rw [List.drop_zero] at c3
      rw [c3]
      exact Tabs.cons t _ ts c4 hts

theorem trimLoop_spec {rest : List Nat} {ts : List (List Nat)} (hts : Tabs rest ts) : ∀ (code : List Nat) (start tab n : Nat),
    start ≤ code.length → code.drop start = rest →
    (if n + 1 = ts.length ∧ ts.getLast? = some [] then trimLoop code (tab + n) tab start = none
     else (trimLoop code (tab + n) tab start).map (fun p => (code.drop p.1).take (p.2 - p.1)) = ts[n]?) := by
  induction hts with
  | last t h =>
    intro code start tab n hs hr
    have hnone : findFrom tabBreak code start = none := by
      cases hf : findFrom tabBreak code start with
      | none => rfl
      | some e =>
        obtain ⟨a1, a2, a3⟩ := findFrom_some hf
        refine absurd ?_ (h (e - start))
        rw [← hr, List.drop_drop, Nat.add_sub_of_le a1]; exact a2
    have hlen : t.length = code.length - start := by rw [← hr]; simp
    rw [trimLoop.eq_1]
    by_cases ht : t = []
    · subst ht
      have : ¬ start < code.length := by simp at hlen; omega
      cases n with
      | zero => rw [if_pos (by simp)]; rw [if_neg this]
      | succ n => rw [if_neg (by simp)]; rw [if_neg this]; simp
    · have hlt : start < code.length := by
        have := List.length_pos_iff.2 ht; omega
      rw [if_neg (by simp [ht]), if_pos hlt]
      split
      · cases n with
        | zero =>
          rw [if_pos (by omega)]
          simp [hr, List.take_of_length_le (Nat.le_of_eq hlen)]
        | succ n =>
          rw [if_neg (by omega), trimLoop.eq_1, if_neg (by omega)]; simp
      · rename_i e hf; rw [hnone] at hf; cases hf
  | cons t rest ts h hr ih =>
    intro code start tab n hs hd
    have hlen := congrArg List.length hd
    simp only [List.length_drop, List.length_append, tabBreak_len] at hlen
    have hp : tabBreak <+: code.drop (start + t.length) := by
      rw [← List.drop_drop, hd]; simp
    have hfind : findFrom tabBreak code start = some (start + t.length) := by
      cases hf : findFrom tabBreak code start with
      | none => exact absurd hp (findFrom_none hf _ (by omega))
      | some e =>
        obtain ⟨a1, a2, a3⟩ := findFrom_some hf
        rcases Nat.lt_trichotomy e (start + t.length) with h1 | h1 | h1
        · refine absurd ?_ (h (e - start) (by omega))
          rw [← hd, List.drop_drop, Nat.add_sub_of_le a1]; exact a2
        · rw [h1]
        · exact absurd hp (a3 _ (by omega) h1)
    have hne := tabs_ne_nil hr
    have hstep : trimLoop code (tab + n) tab start =
        if tab = tab + n then some (start, start + t.length) else trimLoop code (tab + n) (tab + 1) (start + t.length + 6) := by
      conv => lhs; rw [trimLoop.eq_1]
      rw [if_pos (by omega)]
      split
      · rename_i hf; rw [hfind] at hf; cases hf
      · rename_i e hf; rw [hfind] at hf; cases hf; rfl
    cases n with
    | zero =>
      have : ¬ (0 + 1 = (t :: ts).length ∧ (t :: ts).getLast? = some []) := by
        rintro ⟨h1, _⟩; simp at h1; exact hne h1
      rw [if_neg this, hstep, if_pos (by omega)]
      simp [hd]
    | succ n =>
      have := ih code (start + t.length + 6) (tab + 1) n (by omega) (by
        have := drop_prefix_split hp
        rw [← List.drop_drop, hd] at this
        simp at this
        exact this.symm)
      rw [if_neg (by omega : ¬ tab = tab + (n + 1))] at hstep
      rw [hstep]
      have e1 : tab + 1 + n = tab + (n + 1) := by omega
      rw [e1] at this
      have e2 : (n + 1 + 1 = (t :: ts).length ∧ (t :: ts).getLast? = some []) ↔ (n + 1 = ts.length ∧ ts.getLast? = some []) := by
        rw [List.getLast?_cons]
        obtain ⟨a, ha⟩ := Option.ne_none_iff_exists'.1 (by simpa using hne : ts.getLast? ≠ none)
        simp [ha]
      simp only [e2, List.getElem?_cons_succ]
      exact this

/-- Selecting tab `n` gives exactly its text, and an error if there is no such tab, for every tab except an empty last one. -/
theorem C45_tab_partial (path code : List Nat) (maps : List CodeMap) (ts : List (List Nat)) (hts : Tabs code ts) (n : Nat)
    (hne : ¬ (n + 1 = ts.length ∧ ts.getLast? = some [])) : (trimCart path code maps n).map Prod.fst = ts[n]? := by
  have := trimLoop_spec hts code 0 0 n (Nat.zero_le _) (by simp)
  rw [if_neg hne, Nat.zero_add] at this
  rw [← this]
  unfold trimCart
  cases trimLoop code n 0 0 <;> rfl

/-- An empty last tab (or the only tab of an empty text) is reported as missing. -/
theorem C45_empty_counterexample (path code : List Nat) (maps : List CodeMap) (ts : List (List Nat)) (hts : Tabs code ts) (n : Nat)
    (hn : n + 1 = ts.length) (he : ts.getLast? = some []) : ts[n]? = some [] ∧ trimCart path code maps n = none := by
  have := trimLoop_spec hts code 0 0 n (Nat.zero_le _) (by simp)
  rw [if_pos ⟨hn, he⟩, Nat.zero_add] at this
  refine ⟨?_, by simp only [trimCart, this]⟩
  rw [List.getLast?_eq_getElem?] at he
  rwa [← hn] at he

/-- The tabs of `a`, break, `b`, break. -/
theorem demoTabs : Tabs (97 :: (tabBreak ++ (98 :: (tabBreak ++ [])))) [[97], [98], []] := by
  refine Tabs.cons [97] (98 :: (tabBreak ++ [])) _ (by decide) (Tabs.cons [98] [] _ (by decide) (Tabs.last [] ?_))
  intro j; simp [tabBreak]

example : (trimCart [] (97 :: (tabBreak ++ (98 :: (tabBreak ++ [])))) [] 1).map Prod.fst = some [98] :=
  C45_tab_partial _ _ _ _ demoTabs 1 (by decide)

example : trimCart [] (97 :: (tabBreak ++ (98 :: (tabBreak ++ [])))) [] 2 = none :=
  (C45_empty_counterexample _ _ _ _ demoTabs 2 rfl rfl).2

end Verif
