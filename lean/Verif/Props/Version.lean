import Verif.Version
import Verif.TextLemmas
/-! C51: version numbers. -/
namespace Verif

/-- Version order: by major number, then minor, then patch, then letter. -/
def NotNewer (a b : Nat × Nat × Nat × Nat) : Prop :=
  a.1 < b.1 ∨ a.1 = b.1 ∧ (a.2.1 < b.2.1 ∨ a.2.1 = b.2.1 ∧ (a.2.2.1 < b.2.2.1 ∨ a.2.2.1 = b.2.2.1 ∧ a.2.2.2 ≤ b.2.2.2))

theorem tupleGe_iff (a b c d w x y z : Nat) : tupleGe [a, b, c, d] [w, x, y, z] = true ↔ NotNewer (w, x, y, z) (a, b, c, d) := by
  unfold NotNewer
  simp only [tupleGe]
  split
  · split
    · split
      · split
        · simp; omega
        · simp; omega
      · simp; omega
    · simp; omega
  · simp; omega

theorem digitGroups_head {n : Nat} {rest : List Nat} (h : ∀ c ∈ rest.head?, ¬ (48 ≤ c ∧ c ≤ 57)) :
    ∃ more, digitGroups (natDigits n ++ rest) = (natDigits n, rest) :: more := by
  have hd := natDigits_digit n
  have htw : (natDigits n ++ rest).takeWhile (fun c => 48 ≤ c && c ≤ 57) = natDigits n := by
    rw [List.takeWhile_append_of_pos (fun c hc => by have := hd c hc; simp [this])]
    cases rest with
    | nil => simp
    | cons c r =>
      rw [List.takeWhile_cons_of_neg, List.append_nil]
      have := h c (by simp)
      simp; omega
  unfold digitGroups
  rw [htw]
  obtain ⟨k, hk⟩ : ∃ k, (natDigits n).length = k + 1 := ⟨(natDigits n).length - 1, by
    have := List.length_pos_iff.mpr (natDigits_ne_nil n); omega⟩
  rw [hk, List.range_succ, List.reverse_append]
  simp only [List.reverse_singleton, List.cons_append, List.nil_append, List.map_cons]
  rw [List.take_left' hk, List.drop_left' hk]
  exact ⟨_, rfl⟩

theorem head_flatMap {α β : Type} {l : List α} {a : α} {more : List α} (h : l = a :: more) {f : α → List β} {b : β} (hb : (f a).head? = some b) :
    (l.flatMap f).head? = some b := by
  subst h
  rw [List.flatMap_cons]
  cases hf : f a with
  | nil => rw [hf] at hb; simp at hb
  | cons x xs => rw [hf] at hb; simpa using hb

/-- The text of a version is taken apart as it was put together, in spite of the wildcard dots of the pattern. -/
theorem versionMatches_format (a b c : Nat) {d : Nat} (hb : 2 ≤ b) (hd : d < 26) :
    (versionMatches (formatVersion [a, b, c, d])).head? = some (natDigits a, natDigits b, natDigits c, d) := by
  have e : formatVersion [a, b, c, d] =
      118 :: (natDigits a ++ 46 :: (natDigits b ++ 46 :: (natDigits c ++ if 26 > d ∧ d > 0 then [97 + d] else []))) := by
    unfold formatVersion
    simp only [List.getD_cons_succ, List.getD_cons_zero]
    rw [if_pos hb]
  rw [e]
  unfold versionMatches
  simp only [ne_eq, not_true_eq_false, if_false]
  obtain ⟨m1, h1⟩ := digitGroups_head (n := a) (rest := 46 :: (natDigits b ++ 46 :: (natDigits c ++ if 26 > d ∧ d > 0 then [97 + d] else [])))
    (by simp)
  obtain ⟨m2, h2⟩ := digitGroups_head (n := b) (rest := 46 :: (natDigits c ++ if 26 > d ∧ d > 0 then [97 + d] else [])) (by simp)
  obtain ⟨m3, h3⟩ := digitGroups_head (n := c) (rest := if 26 > d ∧ d > 0 then [97 + d] else []) (by
    split
    · simp; omega
    · simp)
  refine head_flatMap h1 (head_flatMap (a := _) (more := []) (by simp [anyChar]) (head_flatMap h2
    (head_flatMap (a := _) (more := []) (by simp [anyChar]) (head_flatMap h3 ?_))))
  simp only
  by_cases h0 : d = 0
  · subst h0; simp [letterEnd]
  · rw [if_pos ⟨by omega, by omega⟩]
    simp only [letterEnd]
    rw [if_pos (by omega)]
    simp

/-- The latest known version is the one with the greatest id. -/
def latestTuple : Nat × Nat × Nat × Nat := (0, 2, 7, 0)

def verList (t : Nat × Nat × Nat × Nat) : Ver := [t.1, t.2.1, t.2.2.1, t.2.2.2]

theorem versionFold_spec (t : Ver) : ∀ (l : List (Nat × Ver)) (init : Option Nat),
    let r := l.foldl (versionStep t) init
    (∀ mk, r = some mk → (init = some mk ∨ ∃ kv ∈ l, tupleGe t kv.2 = true ∧ kv.1 = mk) ∧ (∀ k, init = some k → k ≤ mk) ∧
      ∀ kv ∈ l, tupleGe t kv.2 = true → kv.1 ≤ mk) ∧
    (r = none → init = none ∧ ∀ kv ∈ l, tupleGe t kv.2 = false)
  | [], init => by
    refine ⟨fun mk h => ⟨.inl h, fun k hk => ?_, by simp⟩, fun h => ⟨h, by simp⟩⟩
    have h : init = some mk := h
    rw [hk] at h; simp at h; omega
  | kv :: l, init => by
    have ih := versionFold_spec t l (versionStep t init kv)
    rw [List.foldl_cons]
    simp only at ih ⊢
    unfold versionStep at ih ⊢
    by_cases hg : tupleGe t kv.2 = true
    · rw [if_pos hg] at ih ⊢
      refine ⟨fun mk h => ?_, fun h => ?_⟩
      · obtain ⟨h1, h2, h3⟩ := ih.1 mk h
        have h2 := h2 _ rfl
        refine ⟨?_, ?_, ?_⟩
        · rcases h1 with h1 | ⟨kv', hm, h4, h5⟩
          · simp only [Option.some.injEq] at h1
            cases init with
            | none => exact .inr ⟨kv, by simp, hg, h1⟩
            | some k =>
              simp only at h1
              by_cases hk : kv.1 ≤ k
              · exact .inl (by rw [← h1, Nat.max_eq_left hk])
              · exact .inr ⟨kv, by simp, hg, by omega⟩
          · exact .inr ⟨kv', by simp [hm], h4, h5⟩
        · intro k hk
          rw [hk] at h2; simp only at h2; omega
        · intro kv' hm h4
          rcases List.mem_cons.mp hm with rfl | hm
          · cases init with
            | none => exact h2
            | some k => simp only at h2; omega
          · exact h3 kv' hm h4
      · exact absurd (ih.2 h).1 (by simp)
    · rw [if_neg hg] at ih ⊢
      refine ⟨fun mk h => ?_, fun h => ?_⟩
      · obtain ⟨h1, h2, h3⟩ := ih.1 mk h
        refine ⟨?_, h2, ?_⟩
        · rcases h1 with h1 | ⟨kv', hm, h4, h5⟩
          · exact .inl h1
          · exact .inr ⟨kv', by simp [hm], h4, h5⟩
        · intro kv' hm h4
          rcases List.mem_cons.mp hm with rfl | hm
          · exact absurd h4 hg
          · exact h3 kv' hm h4
      · refine ⟨(ih.2 h).1, fun kv' hm => ?_⟩
        rcases List.mem_cons.mp hm with rfl | hm
        · simpa using hg
        · exact (ih.2 h).2 kv' hm

theorem versionTable_shape : ∀ kv ∈ versionTuples, kv.2 = verList (kv.2.getD 0 0, kv.2.getD 1 0, kv.2.getD 2 0, kv.2.getD 3 0) ∧
    versionGet kv.1 = some kv.2 ∧ kv.1 ≤ 43 ∧ (kv.1 = 43 → kv.2 = [0, 2, 7, 0]) := by decide

theorem versionTable_sorted : ∀ kv ∈ versionTuples, ∀ kv' ∈ versionTuples, kv.1 ≤ kv'.1 → tupleGe kv'.2 kv.2 = true := by decide

theorem verList_inj {a b : Nat × Nat × Nat × Nat} (h : verList a = verList b) : a = b := by
  obtain ⟨a1, a2, a3, a4⟩ := a
  obtain ⟨b1, b2, b3, b4⟩ := b
  simpa [verList] using h

theorem tupleGe_verList (a b : Nat × Nat × Nat × Nat) : tupleGe (verList a) (verList b) = true ↔ NotNewer b a :=
  tupleGe_iff ..

/-- **C51.** For every version from 0.2.0 on: its text is mapped to the id of the newest known version that is not newer than it – or is
rejected, if it is newer than all known versions. -/
theorem C51_parse {t : Nat × Nat × Nat × Nat} (hb : 2 ≤ t.2.1) (hd : t.2.2.2 < 26) :
    (NotNewer t latestTuple → ∃ id v, parseVersion (formatVersion (verList t)) = some id ∧ (id, verList v) ∈ versionTuples ∧ NotNewer v t ∧
      ∀ id' v', (id', verList v') ∈ versionTuples → NotNewer v' t → NotNewer v' v ∧ id' ≤ id) ∧
    (¬ NotNewer t latestTuple → parseVersion (formatVersion (verList t)) = none) := by
  obtain ⟨a, b, c, d⟩ := t
  simp only at hb hd
  have hparse : parseVersion (formatVersion (verList (a, b, c, d))) = versionFind (verList (a, b, c, d)) := by
    unfold parseVersion
    rw [show verList (a, b, c, d) = [a, b, c, d] from rfl, versionMatches_format a b c hb hd]
    simp only [parseNat_natDigits]
  rw [hparse]
  have h2 : ¬ (verList (a, b, c, d)).getD 1 0 < 2 := by
    rw [show (verList (a, b, c, d)).getD 1 0 = b from rfl]; omega
  unfold versionFind
  rw [if_neg h2]
  have hspec := versionFold_spec (verList (a, b, c, d)) versionTuples none
  simp only at hspec
  obtain ⟨r, hr⟩ : ∃ r, r = versionTuples.foldl (versionStep (verList (a, b, c, d))) none := ⟨_, rfl⟩
  rw [← hr] at hspec ⊢
  clear hr
  have hlatest : latestVersionId = 43 := by decide
  cases r with
  | none =>
    exfalso
    have := (hspec.2 rfl).2 (28, [0, 2, 0, 0]) (by decide)
    have h3 : tupleGe (verList (a, b, c, d)) (verList (0, 2, 0, 0)) = true := by
      rw [tupleGe_verList]; simp only [NotNewer]; omega
    simp only at this
    rw [show verList (0, 2, 0, 0) = [0, 2, 0, 0] from rfl, this] at h3
    simp at h3
  | some mk =>
    obtain ⟨g1, _, g3⟩ := hspec.1 mk rfl
    rcases g1 with g1 | ⟨⟨k, v⟩, hm, hge, rfl⟩
    · simp at g1
    · obtain ⟨s1, s2, s3, s4⟩ := versionTable_shape _ hm
      simp only at s1 s2 s3 s4 hge g3 ⊢
      obtain ⟨w, hw⟩ : ∃ w, v = verList w := ⟨_, s1⟩
      subst hw
      rw [tupleGe_verList] at hge
      rw [s2, hlatest]
      constructor
      · intro hnn
        refine ⟨k, w, ?_, hm, hge, ?_⟩
        · rw [if_neg]
          rintro ⟨h3, h4⟩
          apply h3
          have h5 := verList_inj ((s4 h4).trans (show [0, 2, 7, 0] = verList (0, 2, 7, 0) from rfl))
          subst h5
          rw [Option.some.injEq]
          congr 1
          simp only [NotNewer, latestTuple] at hnn hge
          simp only [Prod.mk.injEq]
          omega
        · intro id' v' hm' hnn'
          have h3 := g3 _ hm' ((tupleGe_verList _ _).mpr hnn')
          exact ⟨(tupleGe_verList _ _).mp (versionTable_sorted _ hm' _ hm h3), h3⟩
      · intro hnew
        have h3 : NotNewer latestTuple (a, b, c, d) := by
          simp only [NotNewer, latestTuple] at hnew ⊢; omega
        have h4 := g3 (43, verList latestTuple) (by decide) ((tupleGe_verList _ _).mpr h3)
        simp only at h4
        have h5 : k = 43 := by omega
        rw [if_pos]
        refine ⟨fun h6 => ?_, h5⟩
        simp only [Option.some.injEq] at h6
        have h7 := verList_inj ((s4 h5).trans (show [0, 2, 7, 0] = verList (0, 2, 7, 0) from rfl))
        have h8 := verList_inj h6
        rw [← h8, h7] at hnew
        exact hnew (by simp [NotNewer, latestTuple])

/-- **C51 (known ids).** The text of each known version id parses to the same id. -/
theorem C51_roundtrip {id : Nat} {v : Ver} (h : versionGet id = some v) : parseVersion (formatVersion (versionTuple id)) = some id := by
  have hall : ∀ kv ∈ versionTuples, kv.2.getD 1 0 ≥ 2 ∧ kv.2.getD 3 0 < 26 ∧ versionFind kv.2 = some kv.1 ∧
      kv.2 = [kv.2.getD 0 0, kv.2.getD 1 0, kv.2.getD 2 0, kv.2.getD 3 0] := by decide
  have hm : (id, v) ∈ versionTuples := by
    have : ∀ (l : List (Nat × Ver)), l.lookup id = some v → (id, v) ∈ l := by
      intro l
      induction l with
      | nil => simp
      | cons a l ih =>
        intro h
        rw [List.lookup_cons] at h
        split at h
        · rename_i he
          simp only [Option.some.injEq] at h
          have : id = a.1 := by simpa using he
          rw [this, ← h]; simp
        · exact List.mem_cons_of_mem _ (ih h)
    exact this _ h
  obtain ⟨h1, h2, h3, h4⟩ := hall _ hm
  simp only at h1 h2 h3 h4
  have : versionTuple id = v := by unfold versionTuple; rw [h]
  rw [this, h4]
  unfold parseVersion
  rw [versionMatches_format _ _ _ h1 h2]
  simp only [parseNat_natDigits]
  rw [← h4]; exact h3

/-- **C51 (raw numbers).** A plain number is taken as the id itself; any other text that is not of the version form is rejected. -/
theorem C51_raw (n : Nat) : parseVersion (natDigits n) = some n := by
  have : versionMatches (natDigits n) = [] := by
    cases h : natDigits n with
    | nil => rfl
    | cons c s =>
      have := natDigits_digit n c (by rw [h]; simp)
      unfold versionMatches
      simp only
      rw [if_pos (by omega)]
  unfold parseVersion
  rw [this]
  exact parseNat_natDigits n

/-- Before 0.2.0 there is no text for a version: it cannot be parsed. -/
theorem C51_old {t : Ver} (h : t.getD 1 0 < 2) : parseVersion (formatVersion t) = none := by
  have : formatVersion t = preText := by
    unfold formatVersion
    simp only
    rw [if_neg (by omega)]
  rw [this]
  decide

/-- 0.2.5d and 0.2.6 have no id of their own. -/
example : parseVersion (formatVersion [0, 2, 5, 3]) = some 38 ∧ parseVersion (formatVersion [0, 2, 6, 0]) = some 41 ∧
    parseVersion (formatVersion [0, 2, 7, 1]) = none ∧ parseVersion (formatVersion [0, 2, 5, 2]) = some 38 := by decide +kernel
/-- The dots of the pattern match anything. -/
example : parseVersion [118, 48, 120, 50, 121, 53, 99] = some 38 := by decide +kernel

/-- **C51 (old ids).** The ids from 8 on stand for 0.1.13, 0.1.14 and so on up to 0.1.23. -/
theorem C51_early (k : Nat) (h : k ≤ 10) : versionTuple (8 + k) = verList (0, 1, 13 + k, 0) := by
  have : ∀ k, k ≤ 10 → versionTuple (8 + k) = verList (0, 1, 13 + k, 0) := by decide
  exact this k h

/-- **C51 (order).** A greater id (up to the latest) never stands for an older version. -/
theorem C51_order {a b : Nat} (hab : a ≤ b) (hb : b ≤ 43) :
    ∃ t u, versionTuple a = verList t ∧ versionTuple b = verList u ∧ NotNewer t u := by
  have key : ∀ b, b ≤ 43 → ∀ a, a ≤ b → versionTuple a = verList ((versionTuple a).getD 0 0, (versionTuple a).getD 1 0, (versionTuple a).getD 2 0,
      (versionTuple a).getD 3 0) ∧ tupleGe (versionTuple b) (versionTuple a) = true := by decide +kernel
  obtain ⟨h1, h3⟩ := key b hb a hab
  have h2 := (key b hb b (Nat.le_refl _)).1
  refine ⟨_, _, h1, h2, ?_⟩
  rw [h1, h2] at h3
  exact (tupleGe_verList _ _).1 h3

end Verif
