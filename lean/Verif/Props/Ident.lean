import Verif.Spec.LuaWords
import Verif.IdentLemmas
/-!
C26: the generated identifiers.
-/
namespace Verif

/-- What the character set of each focus amounts to. -/
theorem identifierChars_ok (focus : Focus) : (identifierChars focus).Nodup ∧ 97 ∈ identifierChars focus := by
  cases focus <;> exact ⟨by decide +kernel, by decide +kernel⟩

theorem mem_identChars (focus : Focus) (order : List Nat) (c : Nat) : c ∈ identChars focus order ↔ c ∈ identifierChars focus := by
  unfold identChars
  simp only [List.mem_append, List.mem_filter, List.contains_eq_mem, decide_eq_true_eq, Bool.not_eq_true', decide_eq_false_iff_not]
  tauto

theorem charsOk (focus : Focus) (order : List Nat) (h : order.Nodup) : CharsOk (identChars focus order) where
  nodup := by
    unfold identChars
    refine List.Nodup.append (h.filter _) ((identifierChars_ok focus).1.filter _) ?_
    intro x hx hx'
    simp only [List.mem_filter, List.contains_eq_mem, Bool.not_eq_true', decide_eq_false_iff_not, decide_eq_true_eq] at hx hx'
    exact hx'.2 hx
  letter := ⟨97, (mem_identChars focus order 97).2 (identifierChars_ok focus).2, by decide⟩

theorem identifierChars_valid (focus : Focus) : ∀ c ∈ identifierChars focus, isIdentChar true c = true := by
  cases focus <;> decide +kernel

theorem identifierChars_valid_lua (focus : Focus) (h : focus ≠ .chars) : ∀ c ∈ identifierChars focus, isIdentChar false c = true := by
  cases focus with
  | chars => exact absurd rfl h
  | compressed => decide +kernel
  | other => decide +kernel

theorem ident_state {chars : List Nat} (h : CharsOk chars) (n : Nat) : ∃ t, identState chars n = some t ∧ ident chars n = some t.reverse ∧
    StateOk chars t ∧ t ≠ [] ∧ t.reverse ∉ keywords := by
  obtain ⟨k, h1, _, h3⟩ := identState_ok h n
  exact ⟨_, h1, by simp [ident, h1], rawState_ok h stateOk_nil (k + 1), bump_ne_nil _ _, by simpa using h3⟩

/-- Whatever the frequencies of characters, the generator always goes on, and what it yields is an identifier: not empty, made of
identifier characters, not starting with a digit, and not a keyword.  Picotron does not offer the focus on characters. -/
theorem C26_valid (focus : Focus) (order : List Nat) (ho : order.Nodup) (pico8 : Bool) (hp : pico8 = true ∨ focus ≠ .chars) (n : Nat) :
    ∃ s, ident (identChars focus order) n = some s ∧ s ≠ [] ∧ (∀ c ∈ s, isIdentChar pico8 c = true) ∧
      (∀ c, s.head? = some c → ¬ (48 ≤ c ∧ c ≤ 57)) ∧ s ∉ keywords := by
  obtain ⟨t, _, h1, hok, hne, hk⟩ := ident_state (charsOk focus order ho) n
  refine ⟨t.reverse, h1, by simpa using hne, ?_, ?_, hk⟩
  · intro c hc
    have hmem := (mem_identChars focus order c).1 (hok.mem c (by simpa using hc))
    cases pico8 with
    | true => exact identifierChars_valid focus c hmem
    | false => exact identifierChars_valid_lua focus (by simpa using hp) c hmem
  · intro c hc
    rw [List.head?_reverse] at hc
    have := hok.first c hc
    intro hd
    simp [isDigitChar, hd.1, hd.2] at this

/-- The same as the tokenizer sees it. -/
theorem C26_is_identifier (focus : Focus) (order : List Nat) (ho : order.Nodup) (pico8 : Bool) (hp : pico8 = true ∨ focus ≠ .chars)
    (n : Nat) : ∃ s, ident (identChars focus order) n = some s ∧ isIdentifier pico8 s = true := by
  obtain ⟨t, _, h1, hok, hne, hk⟩ := ident_state (charsOk focus order ho) n
  obtain ⟨s, h2, h3, h4, _, h6⟩ := C26_valid focus order ho pico8 hp n
  rw [h1] at h2
  cases h2
  refine ⟨_, h1, ?_⟩
  unfold isIdentifier
  simp only [Bool.and_eq_true, Bool.not_eq_true', List.isEmpty_eq_false_iff, List.all_eq_true, List.contains_eq_mem,
    decide_eq_false_iff_not]
  refine ⟨⟨⟨h3, h4⟩, ?_⟩, h6⟩
  cases hr : t.reverse with
  | nil => rfl
  | cons c cs => exact hok.first c (by rw [← List.head?_reverse, hr]; rfl)

/-- The words the tokenizer keeps for itself are the reserved words of Lua. -/
theorem keywords_reserved (s : List Nat) : s ∈ keywords ↔ ∃ w ∈ LuaWords.reserved, s = LuaWords.chars w := by
  constructor
  · intro h
    obtain ⟨w, hw, e⟩ := List.mem_map.1 h
    exact ⟨w, hw, e.symm⟩
  · rintro ⟨w, hw, rfl⟩
    exact List.mem_map.2 ⟨w, hw, rfl⟩

/-- Without PICO-8's special characters, what is generated is a name as defined by the Lua manual. -/
theorem C26_lua_name (focus : Focus) (order : List Nat) (ho : order.Nodup) (hp : focus ≠ .chars) (n : Nat) :
    ∃ s, ident (identChars focus order) n = some s ∧ LuaWords.IsName s := by
  obtain ⟨s, h1, h2, h3, h4, h5⟩ := C26_valid focus order ho false (.inr hp) n
  refine ⟨s, h1, ?_, ?_, ?_⟩
  · cases s with
    | nil => exact absurd rfl h2
    | cons c r => exact ⟨c, r, rfl, h4 c rfl⟩
  · intro c hc
    have := h3 c hc
    simp only [isIdentChar, Bool.false_and, Bool.or_false, Bool.or_eq_true, Bool.and_eq_true, decide_eq_true_eq, beq_iff_eq] at this
    omega
  · intro w hw e
    exact h5 ((keywords_reserved s).2 ⟨w, hw, e⟩)

/-- With them, it is still never a reserved word. -/
theorem C26_not_reserved (focus : Focus) (order : List Nat) (ho : order.Nodup) (n : Nat) (w : String) (hw : w ∈ LuaWords.reserved) :
    ident (identChars focus order) n ≠ some (LuaWords.chars w) := by
  intro h
  obtain ⟨s, h1, _, _, _, h5⟩ := C26_valid focus order ho true (.inl rfl) n
  rw [h] at h1
  exact h5 ((keywords_reserved s).2 ⟨w, hw, (Option.some.inj h1).symm⟩)

/-- No identifier is generated twice. -/
theorem C26_distinct (focus : Focus) (order : List Nat) (ho : order.Nodup) (m n : Nat)
    (h : ident (identChars focus order) m = ident (identChars focus order) n) : m = n := by
  have hc := charsOk focus order ho
  have aux : ∀ {a b : Nat}, a < b → ident (identChars focus order) a = ident (identChars focus order) b → False := by
    intro a b hab he
    obtain ⟨s, t, h1, h2, hlt⟩ := identState_lt hc hab
    simp only [ident, h1, h2, Option.map_some, Option.some.injEq] at he
    rw [List.reverse_inj.1 he] at hlt
    exact hlt.irrefl
  rcases Nat.lt_trichotomy m n with hlt | heq | hlt
  · exact absurd h (fun he => aux hlt he)
  · exact heq
  · exact absurd h (fun he => aux hlt he.symm)

/-- Shorter identifiers come first. -/
theorem C26_short_first (focus : Focus) (order : List Nat) (ho : order.Nodup) (m n : Nat) (hmn : m ≤ n) (s t : List Nat)
    (hs : ident (identChars focus order) m = some s) (ht : ident (identChars focus order) n = some t) : s.length ≤ t.length := by
  rcases Nat.lt_or_eq_of_le hmn with hlt | rfl
  · obtain ⟨a, b, h1, h2, hlt⟩ := identState_lt (charsOk focus order ho) hlt
    simp only [ident, h1, h2, Option.map_some, Option.some.injEq] at hs ht
    subst hs ht
    simp only [List.length_reverse]
    rcases hlt with h | h <;> omega
  · rw [hs] at ht; cases ht; exact Nat.le_refl _

/-- Nothing is left out: every string over the characters that starts with no digit and is no keyword is generated. -/
theorem C26_complete (focus : Focus) (order : List Nat) (ho : order.Nodup) (s : List Nat) (hne : s ≠ [])
    (hc : ∀ c ∈ s, c ∈ identifierChars focus) (hd : ∀ c, s.head? = some c → isDigitChar c = false) (hk : s ∉ keywords) :
    ∃ n, ident (identChars focus order) n = some s := by
  have hch := charsOk focus order ho
  have hok : StateOk (identChars focus order) s.reverse :=
    ⟨fun c h => (mem_identChars focus order c).2 (hc c (by simpa using h)), fun c h => hd c (by rwa [List.getLast?_reverse] at h)⟩
  obtain ⟨m, hm⟩ := raw_surj hch _ hok
  cases m with
  | zero => simp [rawState] at hm; exact absurd hm.symm (by simpa using hne)
  | succ m =>
    obtain ⟨n, hn⟩ := identState_surj hch m (by rw [hm]; simpa using hk)
    exact ⟨n, by simp [ident, hn, hm]⟩

/-- A program full of zeros: the digit 0 is the favourite character, but no identifier starts with it: e, d, then e0, ee, ed … -/
example : (List.range 3).map (ident [48, 101, 100]) = [some [101], some [100], some [101, 48]] ∧
    identChars .compressed [48, 101, 100] = [48, 101, 100] ++ (identifierChars .compressed).filter (fun c => !([48, 101, 100].contains c)) ∧
    [48, 101, 100].Nodup := by decide +kernel

/-- The keyword `do` is passed over: with the characters o, d and 0 the string after `od` is not `do`… -/
example : keywords.contains [100, 111] = true ∧ ident [111, 100] 4 = some [100, 100] ∧ ident [111, 100] 3 = some [111, 100] := by
  decide +kernel

end Verif
