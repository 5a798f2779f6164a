import Verif.Ident
import Mathlib.Data.List.Nodup
import Mathlib.Data.List.Perm.Subperm
/-
Lemmas on the generator of identifiers.
-/
namespace Verif

section
variable {chars : List Nat}

theorem nextOf_some : ∀ {chars : List Nat} {c n : Nat}, chars.Nodup → nextOf chars c = some n →
    n ∈ chars ∧ chars.idxOf n = chars.idxOf c + 1
  | [], c, n, _, h => by simp [nextOf] at h
  | [a], c, n, _, h => by simp [nextOf] at h
  | a :: b :: cs, c, n, hd, h => by
    simp only [nextOf] at h
    have hab : a ≠ b := by
      intro hab; subst hab; simp at hd
    split at h
    · rename_i hac
      cases h
      subst hac
      refine ⟨by simp, ?_⟩
      rw [List.idxOf_cons_self, List.idxOf_cons_ne _ hab, List.idxOf_cons_self]
    · rename_i hac
      have ih := nextOf_some (List.nodup_cons.1 hd).2 h
      have han : a ≠ n := by rintro rfl; exact (List.nodup_cons.1 hd).1 ih.1
      exact ⟨List.mem_cons_of_mem _ ih.1, by rw [List.idxOf_cons_ne _ han, List.idxOf_cons_ne _ hac, ih.2]⟩

theorem nextNonDigit_some : ∀ {chars : List Nat} {c n : Nat}, chars.Nodup → nextNonDigit chars c = some n →
    n ∈ chars ∧ isDigitChar n = false ∧ chars.idxOf c < chars.idxOf n
  | [], c, n, _, h => by simp [nextNonDigit] at h
  | a :: cs, c, n, hd, h => by
    simp only [nextNonDigit] at h
    split at h
    · rename_i hac
      subst hac
      have hmem := List.mem_of_find?_eq_some h
      have hne : a ≠ n := by rintro rfl; exact (List.nodup_cons.1 hd).1 hmem
      refine ⟨List.mem_cons_of_mem _ hmem, by simpa using List.find?_some h, ?_⟩
      rw [List.idxOf_cons_self, List.idxOf_cons_ne _ hne]
      omega
    · rename_i hac
      have ih := nextNonDigit_some (List.nodup_cons.1 hd).2 h
      have han : a ≠ n := by rintro rfl; exact (List.nodup_cons.1 hd).1 ih.1
      refine ⟨List.mem_cons_of_mem _ ih.1, ih.2.1, ?_⟩
      rw [List.idxOf_cons_ne _ han, List.idxOf_cons_ne _ hac]
      omega

/-- A state of the generator read as a number, least significant character first. -/
def stateVal (chars : List Nat) : List Nat → Nat
  | [] => 0
  | c :: s => chars.idxOf c + chars.length * stateVal chars s

/-- Shorter, or as long and smaller. -/
def StateLt (chars : List Nat) (s t : List Nat) : Prop :=
  s.length < t.length ∨ (s.length = t.length ∧ stateVal chars s < stateVal chars t)

theorem StateLt.trans {s t u : List Nat} (h : StateLt chars s t) (h' : StateLt chars t u) : StateLt chars s u := by
  unfold StateLt at *; omega

theorem StateLt.irrefl {s : List Nat} (h : StateLt chars s s) : False := by
  unfold StateLt at h; omega

/-- A string (reversed) that is an identifier apart from keywords. -/
structure StateOk (chars : List Nat) (s : List Nat) : Prop where
  mem : ∀ c ∈ s, c ∈ chars
  first : ∀ c, s.getLast? = some c → isDigitChar c = false

/-- The hypotheses on the characters: no duplicates, and not only digits. -/
structure CharsOk (chars : List Nat) : Prop where
  nodup : chars.Nodup
  letter : ∃ c ∈ chars, isDigitChar c = false

theorem CharsOk.first (h : CharsOk chars) : firstIdentChar chars ∈ chars ∧ isDigitChar (firstIdentChar chars) = false := by
  unfold firstIdentChar
  obtain ⟨c, hc, hd⟩ := h.letter
  cases hf : chars.find? fun x => !isDigitChar x with
  | none => simp at hf; exact absurd (hf c hc) (by simp [hd])
  | some n => exact ⟨List.mem_of_find?_eq_some hf, by simpa using List.find?_some hf⟩

theorem CharsOk.head (h : CharsOk chars) : chars.headD 0 ∈ chars ∧ chars.idxOf (chars.headD 0) = 0 := by
  obtain ⟨c, hc, _⟩ := h.letter
  cases chars with
  | nil => simp at hc
  | cons a cs => simp

theorem nextIdentChar_ok (h : CharsOk chars) {c : Nat} {first : Bool} :
    (nextIdentChar chars c first).1 ∈ chars ∧
    ((nextIdentChar chars c first).2 = true → chars.idxOf c < chars.idxOf (nextIdentChar chars c first).1 ∧
      (first = true → isDigitChar (nextIdentChar chars c first).1 = false)) ∧
    ((nextIdentChar chars c first).2 = false → chars.idxOf (nextIdentChar chars c first).1 = 0) := by
  unfold nextIdentChar
  cases first with
  | true =>
    cases hn : nextNonDigit chars c with
    | none => simpa [hn] using h.head
    | some n => have := nextNonDigit_some h.nodup hn; simpa [hn] using ⟨this.1, this.2.2, this.2.1⟩
  | false =>
    cases hn : nextOf chars c with
    | none => simpa [hn] using h.head
    | some n => have := nextOf_some h.nodup hn; simp [this.1, this.2]

theorem bump_ne_nil (chars s : List Nat) : bump chars s ≠ [] := by
  cases s with
  | nil => simp [bump]
  | cons c s => simp only [bump]; split <;> simp

theorem bump_ok (h : CharsOk chars) : ∀ {s : List Nat}, StateOk chars s → StateOk chars (bump chars s)
  | [], _ => by
    refine ⟨?_, ?_⟩
    · intro c hc; simp [bump] at hc; subst hc; exact h.first.1
    · intro c hc; simp [bump] at hc; subst hc; exact h.first.2
  | c :: rest, hs => by
    have hn := nextIdentChar_ok h (c := c) (first := rest.isEmpty)
    simp only [bump]
    have hrest : StateOk chars rest := ⟨fun c hc => hs.mem c (List.mem_cons_of_mem _ hc), fun d hd => by
      apply hs.first d
      cases rest with
      | nil => simp at hd
      | cons r rs => rw [List.getLast?_cons_cons]; exact hd⟩
    split
    · rename_i hf
      refine ⟨?_, ?_⟩
      · intro d hd
        rcases List.mem_cons.1 hd with rfl | hd
        · exact hn.1
        · exact hrest.mem d hd
      · intro d hd
        cases rest with
        | nil =>
          simp at hd
          subst hd
          exact (hn.2.1 hf).2 rfl
        | cons r rs => rw [List.getLast?_cons_cons] at hd; exact hrest.first d hd
    · have ih := bump_ok h hrest
      refine ⟨?_, ?_⟩
      · intro d hd
        rcases List.mem_cons.1 hd with rfl | hd
        · exact hn.1
        · exact ih.mem d hd
      · intro d hd
        obtain ⟨b, bs, hb⟩ := List.exists_cons_of_ne_nil (bump_ne_nil chars rest)
        rw [hb, List.getLast?_cons_cons, ← hb] at hd
        exact ih.first d hd

theorem bump_lt (h : CharsOk chars) : ∀ {s : List Nat}, (∀ c ∈ s, c ∈ chars) → StateLt chars s (bump chars s)
  | [], _ => by simp [bump, StateLt]
  | c :: rest, hs => by
    have hn := nextIdentChar_ok h (c := c) (first := rest.isEmpty)
    have hlt : chars.idxOf c < chars.length := List.idxOf_lt_length_iff.2 (hs c (by simp))
    simp only [bump]
    split
    · rename_i hf
      right
      have := (hn.2.1 hf).1
      simp only [List.length_cons, stateVal, true_and]
      omega
    · rename_i hf
      have ih := bump_lt h (s := rest) (fun c hc => hs c (List.mem_cons_of_mem _ hc))
      rcases ih with ih | ⟨h1, h2⟩
      · left; simp only [List.length_cons]; omega
      · right
        simp only [List.length_cons, stateVal]
        refine ⟨by omega, ?_⟩
        have := Nat.mul_le_mul_left chars.length h2
        rw [Nat.mul_succ] at this
        omega

/-- The strings the generator goes through, keywords included. -/
def rawState (chars : List Nat) (s : List Nat) : Nat → List Nat
  | 0 => s
  | n + 1 => bump chars (rawState chars s n)

theorem rawState_succ (s : List Nat) (n : Nat) : rawState chars s (n + 1) = rawState chars (bump chars s) n := by
  induction n with
  | zero => rfl
  | succ n ih => rw [rawState, ih]; rfl

theorem rawState_ok (h : CharsOk chars) {s : List Nat} (hs : StateOk chars s) (n : Nat) : StateOk chars (rawState chars s n) := by
  induction n with
  | zero => exact hs
  | succ n ih => exact bump_ok h ih

theorem rawState_lt (h : CharsOk chars) {s : List Nat} (hs : StateOk chars s) {m n : Nat} (hmn : m < n) :
    StateLt chars (rawState chars s m) (rawState chars s n) := by
  induction n with
  | zero => omega
  | succ n ih =>
    have h1 := bump_lt h (rawState_ok h hs n).mem
    rcases Nat.lt_succ_iff_lt_or_eq.1 hmn with hlt | rfl
    · exact (ih hlt).trans h1
    · exact h1

theorem rawState_inj (h : CharsOk chars) {s : List Nat} (hs : StateOk chars s) {m n : Nat}
    (he : rawState chars s m = rawState chars s n) : m = n := by
  rcases Nat.lt_trichotomy m n with hlt | rfl | hlt
  · exact absurd (he ▸ rawState_lt h hs hlt) (fun h => h.irrefl)
  · rfl
  · exact absurd (he ▸ rawState_lt h hs hlt) (fun h => h.irrefl)

theorem nextIdent_spec : ∀ (fuel : Nat) (s : List Nat),
    (nextIdent chars fuel s = none ∧ ∀ k < fuel, keywords.contains (rawState chars s (k + 1)).reverse = true) ∨
    (∃ k < fuel, nextIdent chars fuel s = some (rawState chars s (k + 1)) ∧ keywords.contains (rawState chars s (k + 1)).reverse = false ∧
      ∀ i < k, keywords.contains (rawState chars s (i + 1)).reverse = true)
  | 0, s => Or.inl ⟨rfl, by omega⟩
  | fuel + 1, s => by
    simp only [nextIdent]
    split
    · rename_i hk
      rcases nextIdent_spec fuel (bump chars s) with ⟨h1, h2⟩ | ⟨k, hk', h1, h2, h3⟩
      · left
        refine ⟨h1, fun k hkl => ?_⟩
        cases k with
        | zero => exact hk
        | succ k => rw [rawState_succ]; exact h2 k (by omega)
      · right
        refine ⟨k + 1, by omega, ?_, ?_, ?_⟩
        · rw [rawState_succ]; exact h1
        · rw [rawState_succ]; exact h2
        · intro i hi
          cases i with
          | zero => exact hk
          | succ i => rw [rawState_succ]; exact h3 i (by omega)
    · rename_i hk
      exact Or.inr ⟨0, by omega, rfl, Bool.eq_false_iff.2 hk, by omega⟩

/-- 23 strings in a row are never all keywords. -/
theorem nextIdent_some (h : CharsOk chars) {s : List Nat} (hs : StateOk chars s) :
    ∃ k < 23, nextIdent chars 23 s = some (rawState chars s (k + 1)) ∧ keywords.contains (rawState chars s (k + 1)).reverse = false ∧
      ∀ i < k, keywords.contains (rawState chars s (i + 1)).reverse = true := by
  rcases nextIdent_spec (chars := chars) 23 s with ⟨_, h2⟩ | h2
  · exfalso
    have hnd : ((List.range 23).map fun k => (rawState chars s (k + 1)).reverse).Nodup := by
      refine List.Nodup.map_on (fun a _ b _ hab => ?_) List.nodup_range
      have := rawState_inj h hs (List.reverse_inj.1 hab)
      omega
    have hsub : ((List.range 23).map fun k => (rawState chars s (k + 1)).reverse) ⊆ keywords := by
      intro x hx
      simp only [List.mem_map, List.mem_range] at hx
      obtain ⟨k, hk, rfl⟩ := hx
      simpa using h2 k hk
    have := (List.subperm_of_subset hnd hsub).length_le
    simp only [List.length_map, List.length_range] at this
    exact absurd this (by decide)
  · exact h2

theorem nextOf_pred : ∀ {chars : List Nat} {c : Nat}, chars.Nodup → c ∈ chars →
    c = chars.headD 0 ∨ ∃ p ∈ chars, nextOf chars p = some c
  | [], c, _, h => by simp at h
  | [a], c, _, h => by simp at h; left; simpa using h
  | a :: b :: cs, c, hd, h => by
    rcases List.mem_cons.1 h with rfl | h
    · left; rfl
    · right
      rcases nextOf_pred (List.nodup_cons.1 hd).2 h with hb | ⟨p, hp, hn⟩
      · exact ⟨a, by simp, by simp only [nextOf, if_true]; rw [hb]; rfl⟩
      · have : a ≠ p := by rintro rfl; exact (List.nodup_cons.1 hd).1 hp
        exact ⟨p, List.mem_cons_of_mem _ hp, by simp only [nextOf, if_neg this]; exact hn⟩

theorem nextNonDigit_pred : ∀ {chars : List Nat} {c : Nat}, chars.Nodup → c ∈ chars → isDigitChar c = false →
    chars.find? (fun x => !isDigitChar x) = some c ∨ ∃ p ∈ chars, isDigitChar p = false ∧ nextNonDigit chars p = some c
  | [], c, _, h, _ => by simp at h
  | a :: cs, c, hd, h, hc => by
    rcases List.mem_cons.1 h with rfl | h
    · left; simp [hc]
    · cases ha : isDigitChar a with
      | true =>
        rcases nextNonDigit_pred (List.nodup_cons.1 hd).2 h hc with hf | ⟨p, hp, hpd, hn⟩
        · left; simpa [ha] using hf
        · right
          have : a ≠ p := by rintro rfl; exact (List.nodup_cons.1 hd).1 hp
          exact ⟨p, List.mem_cons_of_mem _ hp, hpd, by simp only [nextNonDigit, if_neg this]; exact hn⟩
      | false =>
        right
        rcases nextNonDigit_pred (List.nodup_cons.1 hd).2 h hc with hf | ⟨p, hp, hpd, hn⟩
        · exact ⟨a, by simp, ha, by simp only [nextNonDigit, if_true]; exact hf⟩
        · have : a ≠ p := by rintro rfl; exact (List.nodup_cons.1 hd).1 hp
          exact ⟨p, List.mem_cons_of_mem _ hp, hpd, by simp only [nextNonDigit, if_neg this]; exact hn⟩

theorem nextOf_last : ∀ {chars : List Nat}, chars.Nodup → chars ≠ [] → ∃ p ∈ chars, nextOf chars p = none
  | [], _, h => by simp at h
  | [a], _, _ => ⟨a, by simp, by simp [nextOf]⟩
  | a :: b :: cs, hd, _ => by
    obtain ⟨p, hp, hn⟩ := nextOf_last (List.nodup_cons.1 hd).2 (by simp)
    have : a ≠ p := by rintro rfl; exact (List.nodup_cons.1 hd).1 hp
    exact ⟨p, List.mem_cons_of_mem _ hp, by simp only [nextOf, if_neg this]; exact hn⟩

theorem nextNonDigit_last : ∀ {chars : List Nat}, chars.Nodup → (∃ c ∈ chars, isDigitChar c = false) →
    ∃ p ∈ chars, isDigitChar p = false ∧ nextNonDigit chars p = none
  | [], _, h => by simp at h
  | a :: cs, hd, h => by
    by_cases hcs : ∃ c ∈ cs, isDigitChar c = false
    · obtain ⟨p, hp, hpd, hn⟩ := nextNonDigit_last (List.nodup_cons.1 hd).2 hcs
      have : a ≠ p := by rintro rfl; exact (List.nodup_cons.1 hd).1 hp
      exact ⟨p, List.mem_cons_of_mem _ hp, hpd, by simp only [nextNonDigit, if_neg this]; exact hn⟩
    · obtain ⟨c, hc, hcd⟩ := h
      rcases List.mem_cons.1 hc with rfl | hc
      · refine ⟨c, by simp, hcd, ?_⟩
        simp only [nextNonDigit, if_true, List.find?_eq_none]
        intro x hx hxd
        exact hcs ⟨x, hx, by simpa using hxd⟩
      · exact absurd ⟨c, hc, hcd⟩ hcs

/-- Every identifier has a predecessor. -/
theorem bump_pred (h : CharsOk chars) : ∀ {s : List Nat}, StateOk chars s → s ≠ [] → ∃ p, StateOk chars p ∧ bump chars p = s
  | [], _, hne => absurd rfl hne
  | [c], hs, _ => by
    have hc := hs.mem c (by simp)
    have hd := hs.first c (by simp)
    rcases nextNonDigit_pred h.nodup hc hd with hf | ⟨p, hp, hpd, hn⟩
    · exact ⟨[], ⟨by simp, by simp⟩, by simp [bump, firstIdentChar, hf]⟩
    · exact ⟨[p], ⟨by simpa using hp, by simpa using hpd⟩, by simp [bump, nextIdentChar, hn]⟩
  | c :: r :: rs, hs, _ => by
    have hrest : StateOk chars (r :: rs) := ⟨fun c hc => hs.mem c (List.mem_cons_of_mem _ hc), fun d hd => by
      apply hs.first d; rw [List.getLast?_cons_cons]; exact hd⟩
    rcases nextOf_pred h.nodup (hs.mem c (by simp)) with hc | ⟨p, hp, hn⟩
    · obtain ⟨q, hq, hbq⟩ := bump_pred h hrest (by simp)
      cases q with
      | nil =>
        obtain ⟨p, hp, hpd, hn⟩ := nextNonDigit_last h.nodup h.letter
        refine ⟨[p], ⟨by simpa using hp, by simpa using hpd⟩, ?_⟩
        simp only [bump, nextIdentChar, List.isEmpty_nil, if_true, hn, Bool.false_eq_true, if_false]
        rw [← hbq, hc]
        rfl
      | cons a q =>
        obtain ⟨p, hp, hn⟩ := nextOf_last h.nodup (by rintro rfl; obtain ⟨_, h, _⟩ := h.letter; simp at h)
        refine ⟨p :: a :: q, ⟨?_, ?_⟩, ?_⟩
        · intro d hd
          rcases List.mem_cons.1 hd with rfl | hd
          · exact hp
          · exact hq.mem d hd
        · intro d hd
          rw [List.getLast?_cons_cons] at hd
          exact hq.first d hd
        · conv => lhs; unfold bump
          simp only [nextIdentChar, List.isEmpty_cons, Bool.false_eq_true, if_false, hn]
          rw [hbq, hc]
    · refine ⟨p :: r :: rs, ⟨?_, ?_⟩, ?_⟩
      · intro d hd
        rcases List.mem_cons.1 hd with rfl | hd
        · exact hp
        · exact hrest.mem d hd
      · intro d hd
        rw [List.getLast?_cons_cons] at hd
        exact hrest.first d hd
      · simp [bump, nextIdentChar, hn]

theorem raw_surj (h : CharsOk chars) (s : List Nat) (hs : StateOk chars s) : ∃ n, rawState chars [] n = s := by
  by_cases hne : s = []
  · exact ⟨0, hne.symm⟩
  · obtain ⟨p, hp, hb⟩ := bump_pred h hs hne
    have hlt := bump_lt h hp.mem
    obtain ⟨n, hn⟩ := raw_surj h p hp
    exact ⟨n + 1, by rw [rawState, hn, hb]⟩
termination_by (s.length, stateVal chars s)
decreasing_by
  rw [hb] at hlt
  rcases hlt with h | ⟨h1, h2⟩
  · exact Prod.Lex.left _ _ h
  · rw [h1]; exact Prod.Lex.right _ h2

theorem stateOk_nil : StateOk chars [] := ⟨by simp, by simp⟩

theorem identState_ok (h : CharsOk chars) : ∀ n, ∃ k, identState chars n = some (rawState chars [] (k + 1)) ∧ n ≤ k ∧
    keywords.contains (rawState chars [] (k + 1)).reverse = false
  | 0 => by
    obtain ⟨k, _, h1, h2, _⟩ := nextIdent_some h stateOk_nil
    exact ⟨k, h1, by omega, h2⟩
  | n + 1 => by
    obtain ⟨k, h1, h2, h3⟩ := identState_ok h n
    obtain ⟨j, _, h4, h5, _⟩ := nextIdent_some h (rawState_ok h stateOk_nil (k + 1))
    have hadd : ∀ a b, rawState chars (rawState chars [] a) b = rawState chars [] (a + b) := by
      intro a b
      induction b with
      | zero => rfl
      | succ b ih => rw [rawState, ih]; rfl
    rw [hadd] at h4 h5
    refine ⟨k + 1 + j, ?_, by omega, h5⟩
    simp only [identState, h1, Option.bind_some, h4]
    rfl

theorem rawState_add (a b : Nat) : rawState chars (rawState chars [] a) b = rawState chars [] (a + b) := by
  induction b with
  | zero => rfl
  | succ b ih => rw [rawState, ih]; rfl

/-- The generator yields later what comes later. -/
theorem identState_lt (h : CharsOk chars) {m n : Nat} (hmn : m < n) : ∃ s t, identState chars m = some s ∧ identState chars n = some t ∧
    StateLt chars s t := by
  induction n with
  | zero => omega
  | succ n ih =>
    obtain ⟨b, hb, _, _⟩ := identState_ok h n
    obtain ⟨j, _, h4, _, _⟩ := nextIdent_some h (rawState_ok h stateOk_nil (b + 1))
    have hn : identState chars (n + 1) = some (rawState chars (rawState chars [] (b + 1)) (j + 1)) := by
      simp only [identState, hb, Option.bind_some, h4]
    have hlt := rawState_lt h (rawState_ok h stateOk_nil (b + 1)) (m := 0) (n := j + 1) (by omega)
    rcases Nat.lt_succ_iff_lt_or_eq.1 hmn with hm | rfl
    · obtain ⟨s, t, h1, h2, h3⟩ := ih hm
      rw [hb] at h2
      cases h2
      exact ⟨_, _, h1, hn, h3.trans hlt⟩
    · exact ⟨_, _, hb, hn, hlt⟩

/-- Every string that is no keyword is yielded at some point. -/
theorem identState_surj (h : CharsOk chars) (m : Nat) (hk : keywords.contains (rawState chars [] (m + 1)).reverse = false) :
    ∃ n, identState chars n = some (rawState chars [] (m + 1)) := by
  -- the last string yielded (or the empty one) before the m-th, with only keywords in between
  have key : ∀ m, (∃ n, identState chars n = some (rawState chars [] (m + 1))) ∨ keywords.contains (rawState chars [] (m + 1)).reverse = true := by
    have inv : ∀ m, ∃ a j, m = a + j ∧ (∀ i < j, keywords.contains (rawState chars [] (a + i + 1)).reverse = true) ∧
        ((a = 0 ∧ ∃ k, k = 0 ∧ identState chars k = nextIdent chars 23 (rawState chars [] a)) ∨
          ∃ n, identState chars n = some (rawState chars [] a)) := by
      intro m
      induction m with
      | zero => exact ⟨0, 0, rfl, by omega, Or.inl ⟨rfl, 0, rfl, rfl⟩⟩
      | succ m ih =>
        obtain ⟨a, j, rfl, hkw, hst⟩ := ih
        by_cases hc : keywords.contains (rawState chars [] (a + j + 1)).reverse = true
        · refine ⟨a, j + 1, by omega, ?_, hst⟩
          intro i hi
          rcases Nat.lt_succ_iff_lt_or_eq.1 hi with hi | rfl
          · exact hkw i hi
          · exact hc
        · obtain ⟨k, _, h1, h2, h3⟩ := nextIdent_some h (rawState_ok h stateOk_nil a)
          have hkj : k = j := by
            rcases Nat.lt_trichotomy k j with hlt | heq | hlt
            · have := hkw k hlt
              rw [rawState_add] at h2
              rw [show a + k + 1 = a + (k + 1) by omega] at this
              rw [this] at h2
              cases h2
            · exact heq
            · have := h3 j hlt
              rw [rawState_add] at this
              exact absurd this hc
          subst hkj
          rw [rawState_add] at h1
          have hnext : ∃ n, identState chars n = some (rawState chars [] (a + k + 1)) := by
            rcases hst with ⟨_, n, _, hn⟩ | ⟨n, hn⟩
            · exact ⟨n, by rw [hn, h1]; rfl⟩
            · exact ⟨n + 1, by simp only [identState, hn, Option.bind_some, h1]; rfl⟩
          exact ⟨a + k + 1, 0, rfl, by omega, Or.inr hnext⟩
    intro m
    obtain ⟨a, j, hm, hkw, hst⟩ := inv (m + 1)
    cases j with
    | zero =>
      left
      rcases hst with ⟨h0, _⟩ | ⟨n, hn⟩
      · omega
      · exact ⟨n, by rw [hm]; exact hn⟩
    | succ j =>
      right
      have := hkw j (by omega)
      rw [show a + j + 1 = m + 1 by omega] at this
      exact this
  rcases key m with h1 | h1
  · exact h1
  · rw [h1] at hk; cases hk

end
end Verif
