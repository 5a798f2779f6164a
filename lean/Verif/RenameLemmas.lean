import Verif.Rename
import Verif.IdentLemmas
/-
Lemmas on the choice of new names.
-/
namespace Verif

variable {u : Used}

theorem compat_comm (v1 v2 : RVar) : compat u v1 v2 = compat u v2 v1 := by
  unfold compat
  cases h1 : v1.isGlobal <;> cases h2 : v2.isGlobal <;> simp
  · rw [Bool.and_comm, decide_eq_decide.2 (eq_comm (a := v1.kind))]
  · rw [bne_comm]

/-- The selected variables are compatible with what was excluded and among themselves. -/
def SelOk (u : Used) (excluded chosen : List RVar) : Prop :=
  (∀ v ∈ chosen, ∀ e ∈ excluded, compat u v e = true) ∧ chosen.Pairwise fun a b => compat u b a = true

theorem SelOk.nil (excluded : List RVar) : SelOk u excluded [] := ⟨by simp, by simp⟩

theorem SelOk.append {excluded a b : List RVar} (ha : SelOk u excluded a) (hb : SelOk u (excluded ++ a) b) : SelOk u excluded (a ++ b) := by
  refine ⟨?_, ?_⟩
  · intro v hv e he
    rcases List.mem_append.1 hv with hv | hv
    · exact ha.1 v hv e he
    · exact hb.1 v hv e (List.mem_append_left _ he)
  · rw [List.pairwise_append]
    exact ⟨ha.2, hb.2, fun x hx y hy => hb.1 y hy x (List.mem_append_right _ hx)⟩

theorem fits_iff {avoids excluded : List RVar} {v : RVar} :
    fits u avoids excluded v = true ↔ v ∉ avoids ∧ ∀ e ∈ excluded, compat u v e = true := by
  simp [fits, List.contains_eq_mem]

theorem selectOne_ok (avoids excluded : List RVar) : ∀ rem, SelOk u excluded (selectOne u avoids excluded rem).1 ∧
    List.Perm rem ((selectOne u avoids excluded rem).1 ++ (selectOne u avoids excluded rem).2) ∧
    ∀ v ∈ (selectOne u avoids excluded rem).1, v ∉ avoids
  | [] => ⟨SelOk.nil _, List.Perm.refl _, by simp [selectOne]⟩
  | v :: vs => by
    simp only [selectOne]
    by_cases hf : fits u avoids excluded v = true
    · rw [if_pos hf]
      have := fits_iff.1 hf
      exact ⟨⟨by simpa using this.2, by simp⟩, List.Perm.refl _, by simpa using this.1⟩
    · rw [if_neg hf]
      have ih := selectOne_ok avoids excluded vs
      refine ⟨ih.1, ?_, ih.2.2⟩
      exact (List.Perm.cons v ih.2.1).trans List.perm_middle.symm

theorem selectAll_ok (avoids : List RVar) : ∀ excluded rem, SelOk u excluded (selectAll u avoids excluded rem).1 ∧
    List.Perm rem ((selectAll u avoids excluded rem).1 ++ (selectAll u avoids excluded rem).2) ∧
    ∀ v ∈ (selectAll u avoids excluded rem).1, v ∉ avoids
  | _, [] => ⟨SelOk.nil _, List.Perm.refl _, by simp [selectAll]⟩
  | excluded, v :: vs => by
    simp only [selectAll]
    by_cases hf : fits u avoids excluded v = true
    · rw [if_pos hf]
      have hv := fits_iff.1 hf
      have ih := selectAll_ok avoids (excluded ++ [v]) vs
      refine ⟨?_, List.Perm.cons v ih.2.1, ?_⟩
      · exact SelOk.append (a := [v]) ⟨by simpa using hv.2, by simp⟩ ih.1
      · intro w hw
        rcases List.mem_cons.1 hw with rfl | hw
        · exact hv.1
        · exact ih.2.2 w hw
    · rw [if_neg hf]
      have ih := selectAll_ok avoids excluded vs
      exact ⟨ih.1, (List.Perm.cons v ih.2.1).trans List.perm_middle.symm, ih.2.2⟩

theorem selectNames_ok (c : RenameCfg) (ident : List Nat) (st : RenameSt) :
    SelOk c.used (excludedFor c ident) (selectNames c ident st).1 ∧
    List.Perm (st.locals ++ st.globals ++ st.members)
      ((selectNames c ident st).1 ++ ((selectNames c ident st).2.1 ++ (selectNames c ident st).2.2.1 ++ (selectNames c ident st).2.2.2)) ∧
    (∀ v ∈ (selectNames c ident st).1, v ∉ avoidFor c ident) ∧ (ident = envName → (selectNames c ident st).1 = []) := by
  unfold selectNames
  simp only
  by_cases he : ident = envName
  · rw [if_pos he]
    exact ⟨SelOk.nil _, List.Perm.refl _, by simp, fun _ => rfl⟩
  · rw [if_neg he]
    have perm3 : ∀ (a1 a2 b1 b2 c1 c2 : List RVar), List.Perm ((a1 ++ a2) ++ (b1 ++ b2) ++ (c1 ++ c2)) (a1 ++ b1 ++ c1 ++ (a2 ++ b2 ++ c2)) := by
      intro a1 a2 b1 b2 c1 c2
      rw [List.perm_iff_count]
      intro x
      simp only [List.count_append]
      omega
    have perm3' : ∀ (a1 a2 b1 b2 c1 c2 : List RVar), List.Perm ((a1 ++ a2) ++ (b1 ++ b2) ++ (c1 ++ c2)) (b1 ++ c1 ++ a1 ++ (a2 ++ b2 ++ c2)) := by
      intro a1 a2 b1 b2 c1 c2
      rw [List.perm_iff_count]
      intro x
      simp only [List.count_append]
      omega
    by_cases hf : c.focusChars = true
    · rw [if_pos hf]
      have hg := selectOne_ok (u := c.used) (avoidFor c ident) (excludedFor c ident) st.globals
      have hm := selectOne_ok (u := c.used) (avoidFor c ident)
        (excludedFor c ident ++ (selectOne c.used (avoidFor c ident) (excludedFor c ident) st.globals).1) st.members
      have hl := selectAll_ok (u := c.used) (avoidFor c ident)
        (excludedFor c ident ++ ((selectOne c.used (avoidFor c ident) (excludedFor c ident) st.globals).1 ++
          (selectOne c.used (avoidFor c ident)
            (excludedFor c ident ++ (selectOne c.used (avoidFor c ident) (excludedFor c ident) st.globals).1) st.members).1)) st.locals
      refine ⟨(hg.1.append hm.1).append hl.1, ?_, ?_, fun h => absurd h he⟩
      · exact ((hl.2.1.append hg.2.1).append hm.2.1).trans (perm3' _ _ _ _ _ _)
      · intro v hv
        rcases List.mem_append.1 hv with hv | hv
        · rcases List.mem_append.1 hv with hv | hv
          · exact hg.2.2 v hv
          · exact hm.2.2 v hv
        · exact hl.2.2 v hv
    · rw [if_neg hf]
      have hl := selectAll_ok (u := c.used) (avoidFor c ident) (excludedFor c ident) st.locals
      have hg := selectOne_ok (u := c.used) (avoidFor c ident)
        (excludedFor c ident ++ (selectAll c.used (avoidFor c ident) (excludedFor c ident) st.locals).1) st.globals
      have hm := selectOne_ok (u := c.used) (avoidFor c ident)
        (excludedFor c ident ++ ((selectAll c.used (avoidFor c ident) (excludedFor c ident) st.locals).1 ++
          (selectOne c.used (avoidFor c ident)
            (excludedFor c ident ++ (selectAll c.used (avoidFor c ident) (excludedFor c ident) st.locals).1) st.globals).1)) st.members
      refine ⟨(hl.1.append hg.1).append hm.1, ?_, ?_, fun h => absurd h he⟩
      · exact ((hl.2.1.append hg.2.1).append hm.2.1).trans (perm3 _ _ _ _ _ _)
      · intro v hv
        rcases List.mem_append.1 hv with hv | hv
        · rcases List.mem_append.1 hv with hv | hv
          · exact hl.2.2 v hv
          · exact hg.2.2 v hv
        · exact hm.2.2 v hv

/-- All variables of a state, whether they have their name yet or not. -/
def RenameSt.all (st : RenameSt) : List RVar := st.locals ++ st.globals ++ st.members ++ st.labels ++ st.renames.map (·.1)

theorem renameRound_perm (c : RenameCfg) (ident : List Nat) (st : RenameSt) : List.Perm st.all (renameRound c ident st).all := by
  have h1 := (selectNames_ok c ident st).2.1
  have h2 := (selectAll_ok (u := c.used) [] ((c.labelExcl.filter fun p => p.1 == ident).map (·.2)) st.labels).2.1
  rw [List.perm_iff_count] at h1 h2 ⊢
  intro x
  have h1 := h1 x
  have h2 := h2 x
  simp only [RenameSt.all, renameRound, selectLabels, List.count_append, List.map_append, List.map_map, Function.comp_def, List.map_id']
    at h1 h2 ⊢
  omega

/-- What is known of the names given so far. -/
structure NamesOk (c : RenameCfg) (ids : Nat → Option (List Nat)) (n : Nat) (renames : List (RVar × List Nat)) : Prop where
  ident : ∀ p ∈ renames, ∃ k < n, ids k = some p.2
  env : ∀ p ∈ renames, p.1.kind ≠ .lab → p.2 ≠ envName
  excl : ∀ p ∈ renames, p.1.kind ≠ .lab → ∀ e ∈ excludedFor c p.2, compat c.used p.1 e = true
  exclLab : ∀ p ∈ renames, p.1.kind = .lab → ∀ e ∈ c.labelExcl, e.1 = p.2 → compat c.used p.1 e.2 = true
  avoid : ∀ p ∈ renames, p.1.kind ≠ .lab → p.1 ∉ avoidFor c p.2
  pair : renames.Pairwise fun p q => p.2 = q.2 → (p.1.kind = .lab ↔ q.1.kind = .lab) → compat c.used q.1 p.1 = true

/-- The lists hold what they should. -/
structure KindsOk (st : RenameSt) : Prop where
  names : ∀ v ∈ st.locals ++ st.globals ++ st.members, v.kind ≠ .lab
  labels : ∀ v ∈ st.labels, v.kind = .lab

theorem KindsOk.round {st : RenameSt} (h : KindsOk st) (c : RenameCfg) (ident : List Nat) : KindsOk (renameRound c ident st) where
  names := fun v hv => h.names v ((selectNames_ok c ident st).2.1.mem_iff.2 (List.mem_append_right _ hv))
  labels := fun v hv => h.labels v ((selectAll_ok (u := c.used) [] _ st.labels).2.1.mem_iff.2 (List.mem_append_right _ hv))

theorem NamesOk.round {c : RenameCfg} {ids : Nat → Option (List Nat)} {n : Nat} {st : RenameSt} (hk : KindsOk st)
    (h : NamesOk c ids n st.renames) (hinj : ∀ a b, ids a = ids b → a = b) {ident : List Nat} (hid : ids n = some ident) :
    NamesOk c ids (n + 1) (renameRound c ident st).renames := by
  have hs := selectNames_ok c ident st
  have hl := selectAll_ok (u := c.used) [] ((c.labelExcl.filter fun p => p.1 == ident).map (·.2)) st.labels
  have hsk : ∀ v ∈ (selectNames c ident st).1, v.kind ≠ .lab := fun v hv => hk.names v (hs.2.1.mem_iff.2 (List.mem_append_left _ hv))
  have hlk : ∀ v ∈ (selectLabels c ident st.labels).1, v.kind = .lab := fun v hv => hk.labels v (hl.2.1.mem_iff.2 (List.mem_append_left _ hv))
  have hnew : ∀ p ∈ (renameRound c ident st).renames, p ∈ st.renames ∨
      (p.2 = ident ∧ (p.1 ∈ (selectNames c ident st).1 ∨ p.1 ∈ (selectLabels c ident st.labels).1)) := by
    intro p hp
    simp only [renameRound, List.mem_append, List.mem_map] at hp
    rcases hp with hp | ⟨v, hv, rfl⟩
    · exact Or.inl hp
    · exact Or.inr ⟨rfl, hv⟩
  refine ⟨?_, ?_, ?_, ?_, ?_, ?_⟩
  · intro p hp
    rcases hnew p hp with hp | ⟨he, _⟩
    · obtain ⟨k, hk, hi⟩ := h.ident p hp; exact ⟨k, by omega, hi⟩
    · exact ⟨n, by omega, by rw [hid, he]⟩
  · intro p hp hkind
    rcases hnew p hp with hp | ⟨he, hv | hv⟩
    · exact h.env p hp hkind
    · intro henv
      rw [he] at henv
      rw [hs.2.2.2 henv] at hv
      simp at hv
    · exact absurd (hlk _ hv) hkind
  · intro p hp hkind e hme
    rcases hnew p hp with hp | ⟨he, hv | hv⟩
    · exact h.excl p hp hkind e hme
    · rw [he] at hme; exact hs.1.1 p.1 hv e hme
    · exact absurd (hlk _ hv) hkind
  · intro p hp hkind e hme hee
    rcases hnew p hp with hp | ⟨he, hv | hv⟩
    · exact h.exclLab p hp hkind e hme hee
    · exact absurd hkind (hsk _ hv)
    · refine hl.1.1 p.1 hv e.2 ?_
      simp only [List.mem_map, List.mem_filter, beq_iff_eq]
      exact ⟨e, ⟨hme, by rw [hee, he]⟩, rfl⟩
  · intro p hp hkind
    rcases hnew p hp with hp | ⟨he, hv | hv⟩
    · exact h.avoid p hp hkind
    · rw [he]; exact hs.2.2.1 p.1 hv
    · exact absurd (hlk _ hv) hkind
  · simp only [renameRound]
    rw [List.pairwise_append]
    refine ⟨h.pair, ?_, ?_⟩
    · rw [List.pairwise_map, List.pairwise_append]
      refine ⟨hs.1.2.imp (fun h _ _ => h), hl.1.2.imp (fun h _ _ => h), ?_⟩
      intro a ha b hb _ hkind
      exact absurd (hkind.2 (hlk b hb)) (hsk a ha)
    · intro p hp q hq heq
      exfalso
      simp only [List.mem_map] at hq
      obtain ⟨v, _, rfl⟩ := hq
      obtain ⟨k, hkn, hik⟩ := h.ident p hp
      simp only at heq
      rw [heq, ← hid] at hik
      have := hinj _ _ hik
      omega

theorem renameLoop_ok (c : RenameCfg) (ids : Nat → Option (List Nat)) (hinj : ∀ a b, ids a = ids b → a = b) :
    ∀ (fuel n : Nat) (st : RenameSt) (r : List (RVar × List Nat)), KindsOk st → NamesOk c ids n st.renames →
    renameLoop c ids fuel n st = some r → List.Perm st.all (r.map (·.1)) ∧ ∃ m, NamesOk c ids m r
  | 0, _, _, _, _, _, h => by simp [renameLoop] at h
  | fuel + 1, n, st, r, hk, hn, h => by
    simp only [renameLoop] at h
    split at h
    · rename_i he
      simp only [Bool.and_eq_true, List.isEmpty_iff] at he
      cases h
      refine ⟨?_, n, hn⟩
      simp [RenameSt.all, he.1.1.1, he.1.1.2, he.1.2, he.2]
    · simp only [Option.bind_eq_some_iff] at h
      obtain ⟨ident, hid, h⟩ := h
      have := renameLoop_ok c ids hinj fuel (n + 1) _ r (hk.round c ident) (hn.round hk hinj hid) h
      exact ⟨(renameRound_perm c ident st).trans this.1, this.2⟩

/-! ### Termination -/

def RenameSt.size (st : RenameSt) : Nat := st.locals.length + st.globals.length + st.members.length + st.labels.length

/-- An identifier that is in nobody's way. -/
structure FreeIdent (c : RenameCfg) (ident : List Nat) : Prop where
  env : ident ≠ envName
  names : excludedFor c ident = []
  labels : ∀ e ∈ c.labelExcl, e.1 ≠ ident
  avoid : avoidFor c ident = []

theorem selectOne_free {rem : List RVar} (h : rem ≠ []) : (selectOne u [] [] rem).1 ≠ [] := by
  cases rem with
  | nil => exact absurd rfl h
  | cons v vs => simp [selectOne, fits]

theorem selectAll_free {rem : List RVar} (h : rem ≠ []) : (selectAll u [] [] rem).1 ≠ [] := by
  cases rem with
  | nil => exact absurd rfl h
  | cons v vs => simp [selectAll, fits]

theorem round_size (c : RenameCfg) (ident : List Nat) (st : RenameSt) : (renameRound c ident st).size +
    (selectNames c ident st).1.length + (selectLabels c ident st.labels).1.length = st.size := by
  have h1 := (selectNames_ok c ident st).2.1.length_eq
  have h2 := (selectAll_ok (u := c.used) [] ((c.labelExcl.filter fun p => p.1 == ident).map (·.2)) st.labels).2.1.length_eq
  simp only [List.length_append] at h1 h2
  simp only [RenameSt.size, renameRound, selectLabels]
  omega

theorem free_progress {c : RenameCfg} {ident : List Nat} (hf : FreeIdent c ident) (st : RenameSt) (hne : 0 < st.size) :
    (renameRound c ident st).size < st.size := by
  have hsz := round_size c ident st
  suffices (selectNames c ident st).1 ≠ [] ∨ (selectLabels c ident st.labels).1 ≠ [] by
    rcases this with h | h
    · have := List.length_pos_iff.2 h; omega
    · have := List.length_pos_iff.2 h; omega
  by_cases hl : st.labels = []
  · left
    unfold selectNames
    simp only [if_neg hf.env, hf.names, hf.avoid, List.nil_append]
    have hnil : ∀ e, selectOne c.used [] e [] = ([], []) := fun _ => rfl
    have hnil' : ∀ e, selectAll c.used [] e [] = ([], []) := fun _ => rfl
    simp only [RenameSt.size, hl, List.length_nil] at hne
    by_cases hc : c.focusChars = true
    · simp only [if_pos hc]
      by_cases hg : st.globals = []
      · by_cases hm : st.members = []
        · have : st.locals ≠ [] := by intro h; simp [h, hg, hm] at hne
          simp only [hg, hm, hnil, List.append_nil, List.nil_append]
          exact selectAll_free this
        · have := selectOne_free (u := c.used) hm
          simp only [hg, hnil, List.append_nil, List.nil_append]
          simp [this]
      · have := selectOne_free (u := c.used) hg
        simp [this]
    · simp only [if_neg hc]
      by_cases hg : st.locals = []
      · by_cases hm : st.globals = []
        · have : st.members ≠ [] := by intro h; simp [h, hg, hm] at hne
          simp only [hg, hm, hnil, hnil', List.append_nil, List.nil_append]
          exact selectOne_free this
        · have := selectOne_free (u := c.used) hm
          simp only [hg, hnil', List.append_nil, List.nil_append]
          simp [this]
      · have := selectAll_free (u := c.used) hg
        simp [this]
  · right
    unfold selectLabels
    rw [show (c.labelExcl.filter fun p => p.1 == ident) = [] by
      rw [List.filter_eq_nil_iff]; intro e he; simpa using hf.labels e he]
    exact selectAll_free hl

theorem renameLoop_ends {c : RenameCfg} {ids : Nat → Option (List Nat)} (hall : ∀ n, ∃ i, ids n = some i)
    (hfree : ∀ n, ∃ m ≥ n, ∃ i, ids m = some i ∧ FreeIdent c i) : ∀ (k n : Nat) (st : RenameSt), st.size ≤ k →
    ∃ fuel r, renameLoop c ids fuel n st = some r := by
  intro k
  induction k with
  | zero =>
    intro n st hk
    refine ⟨1, st.renames, ?_⟩
    have : st.locals = [] ∧ st.globals = [] ∧ st.members = [] ∧ st.labels = [] := by
      simp only [RenameSt.size] at hk
      refine ⟨?_, ?_, ?_, ?_⟩ <;> apply List.eq_nil_of_length_eq_zero <;> omega
    simp [renameLoop, this.1, this.2.1, this.2.2.1, this.2.2.2]
  | succ k ih =>
    intro n st hk
    obtain ⟨m, hm, i, hi, hfi⟩ := hfree n
    obtain ⟨d, rfl⟩ : ∃ d, m = n + d := ⟨m - n, by omega⟩
    clear hm
    induction d generalizing n st with
    | zero =>
      by_cases he : st.size = 0
      · exact ih n st (by omega)
      · have hp := free_progress hfi st (by omega)
        obtain ⟨fuel, r, hr⟩ := ih (n + 1) (renameRound c i st) (by omega)
        refine ⟨fuel + 1, r, ?_⟩
        have hne : (st.locals.isEmpty && st.globals.isEmpty && st.members.isEmpty && st.labels.isEmpty) = false := by
          rw [Bool.eq_false_iff]
          intro h
          simp only [Bool.and_eq_true, List.isEmpty_iff] at h
          simp [RenameSt.size, h.1.1.1, h.1.1.2, h.1.2, h.2] at he
        simp only [renameLoop, hne, Bool.false_eq_true, if_false]
        rw [show ids n = some i from hi]
        exact hr
    | succ d ihd =>
      obtain ⟨j, hj⟩ := hall n
      have hsz := round_size c j st
      obtain ⟨fuel, r, hr⟩ := ihd (n + 1) (renameRound c j st) (by omega) (by rw [← hi]; congr 1; omega)
      by_cases he : (st.locals.isEmpty && st.globals.isEmpty && st.members.isEmpty && st.labels.isEmpty) = true
      · exact ⟨1, st.renames, by simp only [renameLoop, he, if_true]⟩
      · refine ⟨fuel + 1, r, ?_⟩
        simp only [renameLoop, he, if_false]
        rw [hj]
        exact hr

end Verif
