import Verif.Lz77
import Verif.Spec.Cover
/-! Lemmas about the match finder. -/
namespace Verif
variable {κ : Type}

theorem slice_length (code : List Nat) (i c : Nat) : (slice code i c).length = min c (code.length - i) := by
  simp [slice]

theorem slice_get {code : List Nat} {i c k : Nat} (hk : k < c) : (slice code i c)[k]? = code[i + k]? := by
  simp [slice, hk, List.getElem?_drop]

/-- Equal slices at an earlier position mean a real match of full length. -/
theorem slice_eq_match {code : List Nat} {i j c : Nat} (hji : j < i) (hi : i ≤ code.length)
    (h : slice code j c = slice code i c) : i + c ≤ code.length ∧ ∀ k, k < c → code[i + k]? = code[j + k]? := by
  have hl := congrArg List.length h
  rw [slice_length, slice_length] at hl
  refine ⟨by omega, fun k hk => ?_⟩
  rw [← slice_get hk, ← slice_get (code := code) (i := j) hk, h]

theorem matchLoop_spec (code : List Nat) (i j : Nat) (as bs : List Nat) (c : Nat)
    (ha : as = code.drop (i + c)) (hb : bs = code.drop (j + c)) (hi : i + c ≤ code.length) (hj : j + c ≤ code.length)
    (hm : ∀ k, k < c → code[i + k]? = code[j + k]?) :
    (i + matchLoop as bs c ≤ code.length ∧ j + matchLoop as bs c ≤ code.length) ∧ c ≤ matchLoop as bs c ∧
      ∀ k, k < matchLoop as bs c → code[i + k]? = code[j + k]? := by
  fun_induction matchLoop as bs c with
  | case1 as b bs c ih =>
    have e : ∀ {x : Nat} {xs : List Nat} {n : Nat}, x :: xs = code.drop n →
        code[n]? = some x ∧ xs = code.drop (n + 1) ∧ n < code.length := by
      intro x xs n h
      have h1 : n < code.length := by
        rcases Nat.lt_or_ge n code.length with h1 | h1
        · exact h1
        · rw [List.drop_eq_nil_iff.mpr h1] at h; simp at h
      rw [List.drop_eq_getElem_cons h1] at h
      injection h with h2 h3
      exact ⟨by rw [List.getElem?_eq_getElem h1, h2], h3, h1⟩
    obtain ⟨a1, a2, a3⟩ := e ha
    obtain ⟨b1, b2, b3⟩ := e hb
    have := ih a2 b2 (by omega) (by omega) (by
      intro k hk
      rcases Nat.lt_or_eq_of_le (Nat.le_of_lt_succ hk) with h1 | h1
      · exact hm k h1
      · subst h1; rw [a1, b1])
    exact ⟨this.1, by omega, this.2.2⟩
  | case2 a as b bs c h => exact ⟨⟨hi, hj⟩, Nat.le_refl _, hm⟩
  | case3 as bs c h => exact ⟨⟨hi, hj⟩, Nat.le_refl _, hm⟩

theorem matchLength_spec (code : List Nat) (i j start : Nat) (hi : i + start ≤ code.length)
    (hj : j + start ≤ code.length) (hm : ∀ k, k < start → code[i + k]? = code[j + k]?) :
    (i + matchLength code i j start ≤ code.length ∧ j + matchLength code i j start ≤ code.length) ∧
      start ≤ matchLength code i j start ∧
      ∀ k, k < matchLength code i j start → code[i + k]? = code[j + k]? :=
  matchLoop_spec code i j _ _ start rfl rfl hi hj hm

theorem clipC_le (p : LzParams κ) (i j c : Nat) : clipC p i j c ≤ c := by
  unfold clipC
  cases p.maxC <;> simp only <;> split <;> omega

theorem clipC_max (p : LzParams κ) (i j c : Nat) {m : Nat} (h : p.maxC = some m) : clipC p i j c ≤ m := by
  unfold clipC
  rw [h]; simp only; split <;> omega

theorem clipC_noRepeat (p : LzParams κ) (i j c : Nat) (h : p.noRepeat = true) : clipC p i j c ≤ i - j := by
  unfold clipC
  rw [h]; simp only [if_true]; omega

theorem clipC_ge (p : LzParams κ) (i j c : Nat) (h : p.noRepeat = false) {b : Nat} (hb : b ≤ c)
    (hm : ∀ m, p.maxC = some m → b ≤ m) : b ≤ clipC p i j c := by
  unfold clipC
  rw [h]
  cases hc : p.maxC with
  | none => simpa using hb
  | some m => have := hm m hc; simp; omega

/-- A correct match found at `i`: count `c` (0 = none) from position `bj`. -/
def GoodMatch (p : LzParams κ) (code : List Nat) (i : Nat) (maxO : Option Nat) (c : Nat) (bj : Option Nat) : Prop :=
  c = 0 ∨ ∃ j, bj = some j ∧ j < i ∧ i + c ≤ code.length ∧ (∀ k, k < c → code[i + k]? = code[j + k]?) ∧
    (∀ m, maxO = some m → i - j ≤ m) ∧ (∀ m, p.maxC = some m → c ≤ m) ∧ (p.noRepeat = true → c ≤ i - j) ∧
    (p.noRepeat = false → (∀ m, p.maxC = some m → p.minC ≤ m) → p.minC ≤ c)

theorem tooFar_false {maxO : Option Nat} {i j : Nat} (h : tooFar maxO i j = false) :
    ∀ m, maxO = some m → i - j ≤ m := by
  intro m hm
  rw [hm] at h
  simp [tooFar] at h
  omega

theorem scanMatches_spec (p : LzParams κ) (code : List Nat) (i minC : Nat) (hminC : p.minC ≤ minC) (maxO : Option Nat)
    (hi : i ≤ code.length) (js : List Nat) (bestC : Nat) (bestJ : Option Nat)
    (hjs : ∀ j ∈ js, j < i ∧ slice code j minC = slice code i minC)
    (hgood : GoodMatch p code i maxO bestC bestJ) (hlen : bestC ≠ 0 → i + bestC ≤ code.length) :
    GoodMatch p code i maxO (scanMatches p code i minC maxO js bestC bestJ).1
      (scanMatches p code i minC maxO js bestC bestJ).2 := by
  induction js generalizing bestC bestJ with
  | nil => exact hgood
  | cons j js ih =>
    have hjs' : ∀ j ∈ js, j < i ∧ slice code j minC = slice code i minC := fun j hj => hjs j (by simp [hj])
    obtain ⟨hji, hjk⟩ := hjs j (by simp)
    unfold scanMatches
    split
    · rename_i hslice
      simp only
      have hstart := slice_eq_match hji hi hjk
      have hst : i + (if bestC > 0 then bestC else minC) ≤ code.length ∧
          ∀ k, k < (if bestC > 0 then bestC else minC) → code[i + k]? = code[j + k]? := by
        by_cases h0 : bestC > 0
        · simp only [h0, if_true]; exact slice_eq_match hji hi hslice.symm
        · simp only [h0, if_false]; exact hstart
      generalize (if bestC > 0 then bestC else minC) = st at hst ⊢
      have hml := matchLength_spec code i j st hst.1 (by omega) hst.2
      have hcl := clipC_le p i j (matchLength code i j st)
      generalize matchLength code i j st = ml at hml hcl ⊢
      have hmx := fun m hm => clipC_max p i j ml (m := m) hm
      have hnr := fun hn => clipC_noRepeat p i j ml hn
      generalize clipC p i j ml = c at hcl hmx hnr ⊢
      have hc1 : i + c ≤ code.length := by omega
      by_cases hfar : tooFar maxO i j = true
      · rw [if_pos hfar]; exact hgood
      · rw [if_neg hfar]
        have hfar' : tooFar maxO i j = false := by simpa using hfar
        by_cases hacc : (c > bestC ∧ c ≥ minC) ∨ (c = bestC ∧ gtJ j bestJ = true)
        · rw [if_pos hacc]
          apply ih _ _ hjs'
          · by_cases h0 : c = 0
            · exact Or.inl h0
            · refine Or.inr ⟨j, rfl, hji, hc1, fun k hk => hml.2.2 k (by omega), tooFar_false hfar', hmx, hnr,
                fun hn hm => ?_⟩
              rcases hacc with h1 | h1
              · omega
              · rcases hgood with h2 | ⟨_, _, _, _, _, _, _, _, h2⟩
                · omega
                · have := h2 hn hm; omega
          · intro _; exact hc1
        · rw [if_neg hacc]; exact ih _ _ hjs' hgood hlen
    · exact ih _ _ hjs' hgood hlen

/-- All positions stored below a key are earlier than `bound` and have that key. -/
def MInv (code : List Nat) (bound : Nat) : Nat → List Nat → Matches → Prop
  | c, k, .list js => ∀ j ∈ js, j < bound ∧ slice code j c = k
  | c, k, .sub _ f best => (∀ j, best = some j → j < bound ∧ slice code j c = k) ∧
      ∀ k', MInv code bound (c + 1) k' (f k')

def DInv (p : LzParams κ) (code : List Nat) (bound : Nat) (d : MDict) : Prop :=
  ∀ k, MInv code bound p.minC k (d.f k)

theorem MInv.mono {code : List Nat} {b b' : Nat} (hb : b ≤ b') {m : Matches} {c : Nat} {k : List Nat}
    (h : MInv code b c k m) : MInv code b' c k m := by
  induction m generalizing c k with
  | list js => intro j hj; have := h j hj; exact ⟨by omega, this.2⟩
  | sub keys f best ih =>
    refine ⟨fun j hj => ?_, fun k' => ih k' (h.2 k')⟩
    have := h.1 j hj; exact ⟨by omega, this.2⟩

theorem updKey_inv {code : List Nat} {b c : Nat} {f : List Nat → Matches} (hf : ∀ k', MInv code b c k' (f k'))
    {k : List Nat} {m : Matches} (hm : MInv code b c k m) (k' : List Nat) : MInv code b c k' (updKey f k m k') := by
  unfold updKey
  split
  · rename_i h; subst h; exact hm
  · exact hf k'

theorem findIn_spec (p : LzParams κ) (code : List Nat) (i : Nat) (hi : i ≤ code.length) (maxO : Option Nat)
    {b : Nat} (hb : b ≤ i) (m : Matches) (c : Nat) (hc : p.minC ≤ c) (h : MInv code b c (slice code i c) m) :
    MInv code b c (slice code i c) (findIn p code i maxO c m).1 ∧
      GoodMatch p code i maxO (findIn p code i maxO c m).2.1 (findIn p code i maxO c m).2.2 := by
  induction m generalizing c with
  | list js =>
    unfold findIn
    refine ⟨h, ?_⟩
    apply scanMatches_spec p code i c hc maxO hi
    · intro j hj
      have := h j (by simpa using hj)
      exact ⟨by omega, this.2⟩
    · exact Or.inl rfl
    · simp
  | sub keys f best ih =>
    have ih' := ih (slice code i (c + 1)) (c + 1) (by omega) (h.2 _)
    unfold findIn
    simp only
    have hm' : MInv code b c (slice code i c) (.sub (touchKey (slice code i (c + 1)) keys)
        (updKey f (slice code i (c + 1)) (findIn p code i maxO (c + 1) (f (slice code i (c + 1)))).1) best) :=
      ⟨h.1, fun k' => updKey_inv h.2 ih'.1 k'⟩
    split
    · cases best with
      | none => exact ⟨hm', ih'.2⟩
      | some j =>
        simp only
        split
        · exact ⟨hm', ih'.2⟩
        · rename_i hfar
          have hfar' : tooFar maxO i j = false := by simpa using hfar
          refine ⟨hm', ?_⟩
          obtain ⟨hj1, hj2⟩ := h.1 j rfl
          have hm := slice_eq_match (by omega : j < i) hi hj2
          have hcl := clipC_le p i j c
          simp only
          refine Or.inr ⟨j, rfl, by omega, by omega, fun k hk => hm.2 k (by omega), tooFar_false hfar',
            fun m hm => clipC_max p i j _ hm, fun hn => clipC_noRepeat p i j _ hn,
            fun hn hmx => clipC_ge p i j c hn hc hmx⟩
    · exact ⟨hm', ih'.2⟩

theorem findMatch_spec (p : LzParams κ) (code : List Nat) {d : MDict} {i : Nat} (hi : i ≤ code.length)
    {b : Nat} (hb : b ≤ i) (h : DInv p code b d) (maxO : Option Nat) :
    DInv p code b (findMatch p code d i maxO).1 ∧
      GoodMatch p code i maxO (findMatch p code d i maxO).2.1 (findMatch p code d i maxO).2.2 := by
  have := findIn_spec p code i hi maxO hb (d.f (slice code i p.minC)) p.minC (Nat.le_refl _) (h _)
  exact ⟨fun k => updKey_inv h this.1 k, this.2⟩

theorem convertLoop_inv {code : List Nat} {b : Nat} (maxO : Option Nat) (minI c : Nat) (key : List Nat) (js : List Nat)
    (keys : List (List Nat)) (f : List Nat → List Nat) (best : Option Nat)
    (hjs : ∀ j ∈ js, j < b ∧ slice code j c = key)
    (hf : ∀ k, ∀ j ∈ f k, j < b ∧ slice code j (c + 1) = k)
    (hbest : ∀ j, best = some j → j < b ∧ slice code j c = key) :
    MInv code b c key (convertLoop code maxO minI (c + 1) js keys f best) := by
  induction js generalizing keys f best with
  | nil => exact ⟨hbest, fun k => hf k⟩
  | cons j js ih =>
    have hj := hjs j (by simp)
    have hjs' : ∀ j ∈ js, j < b ∧ slice code j c = key := fun j hj => hjs j (by simp [hj])
    unfold convertLoop
    split
    · exact ih _ _ _ hjs' hf hbest
    · apply ih _ _ _ hjs'
      · intro k' j' hj'
        split at hj'
        · rename_i hk
          rcases List.mem_append.mp hj' with h1 | h1
          · rw [hk]; exact hf _ j' h1
          · simp at h1; subst h1; exact ⟨hj.1, hk.symm⟩
        · exact hf _ j' hj'
      · intro j' hj'; simp at hj'; subst hj'; exact hj

theorem addIn_inv (p : LzParams κ) (code : List Nat) (i j : Nat) {b : Nat} (hj : j < b) (m : Matches) (size c : Nat)
    (h : MInv code b c (slice code j c) m) : MInv code b c (slice code j c) (addIn p code i j size c m) := by
  induction m generalizing size c with
  | list js =>
    have hjs : ∀ j' ∈ js ++ [j], j' < b ∧ slice code j' c = slice code j c := by
      intro j' hj'
      rcases List.mem_append.mp hj' with h1 | h1
      · exact h j' h1
      · simp at h1; subst h1; exact ⟨hj, rfl⟩
    unfold addIn
    simp only
    split
    · exact convertLoop_inv _ _ _ _ _ _ _ _ hjs (by simp) (by simp)
    · exact hjs
  | sub keys f best ih =>
    unfold addIn
    simp only
    refine ⟨?_, fun k' => updKey_inv h.2 (ih _ _ _ (h.2 _)) k'⟩
    intro j' hj'; simp at hj'; subst hj'; exact ⟨hj, rfl⟩

theorem addPos_inv (p : LzParams κ) (code : List Nat) (i : Nat) {b : Nat} {d : MDict} (h : DInv p code b d) {j : Nat}
    (hj : j < b) : DInv p code b (addPos p code i d j) := by
  intro k
  exact updKey_inv h (addIn_inv p code i j hj _ _ _ (h _)) k

theorem addRange_inv (p : LzParams κ) (code : List Nat) (i : Nat) {b : Nat} (js : List Nat) {d : MDict}
    (h : DInv p code b d) (hjs : ∀ j ∈ js, j < b) : DInv p code b (js.foldl (addPos p code i) d) := by
  induction js generalizing d with
  | nil => exact h
  | cons j js ih => exact ih (addPos_inv p code i h (hjs j (by simp))) (fun j hj => hjs j (by simp [hj]))

theorem finishStep_inv (p : LzParams κ) (code : List Nat) (bc : Option Nat) {s : LzState κ}
    (h : DInv p code s.prevI s.dict) (hle : s.prevI ≤ s.i) :
    DInv p code (finishStep p code bc s).i (finishStep p code bc s).dict := by
  show DInv p code s.i (finishStep p code bc s).dict
  have h' : DInv p code s.i s.dict := fun k => (h k).mono hle
  unfold finishStep
  simp only
  split
  · apply addRange_inv _ _ _ _ h'
    intro j hj
    rw [List.mem_range'_1] at hj
    omega
  · exact h'

/-! ### Covers -/

theorem CoversPos.append {code : List Nat} {a : List (Nat × Item)} {b : List (Nat × Item)} {i j k : Nat}
    (h1 : CoversPos code i a j) (h2 : CoversPos code j b k) : CoversPos code i (a ++ b) k := by
  induction a generalizing i with
  | nil => simp [CoversPos] at h1; subst h1; exact h2
  | cons x a ih => exact ⟨h1.1, h1.2.1, ih h1.2.2⟩

theorem CoversPos.covers {code : List Nat} {xs : List (Nat × Item)} {i : Nat} (h : CoversPos code i xs code.length) :
    Covers code i (xs.map (·.2)) := by
  induction xs generalizing i with
  | nil => exact h
  | cons x xs ih => exact ⟨h.2.1, ih h.2.2⟩

/-- Limits for the parameters `p`. -/
def Lim (p : LzParams κ) (it : Item) : Prop := ItemLimits p.minC p.maxC p.maxO p.noRepeat it

/-- A match or a single character. -/
def Single : Item → Prop
  | .str s => s.length = 1
  | .mat _ _ => True

/-- An advance from base `b` is correct. -/
def AdvOk (p : LzParams κ) (code : List Nat) (b : Nat) (a : Advance κ) : Prop :=
  CoversPos code b a.path.reverse a.nextI ∧ a.nextI ≤ code.length ∧ ∀ x ∈ a.path, Lim p x.2 ∧ Single x.2

theorem addAdvance_ok (p : LzParams κ) (P : Advance κ → Prop) {new : Advance κ} (hn : P new) {advs : List (Advance κ)}
    (h : ∀ a ∈ advs, P a) : ∀ a ∈ addAdvance p new advs, P a := by
  induction advs with
  | nil => simpa [addAdvance] using hn
  | cons adv rest ih =>
    have h1 := h adv (by simp)
    have h2 := ih (fun a ha => h a (by simp [ha]))
    unfold addAdvance
    split
    · split
      · exact h
      · split
        · intro a ha
          rcases List.mem_cons.mp ha with h3 | h3
          · subst h3; exact hn
          · exact h a (by simp [h3])
        · intro a ha
          rcases List.mem_cons.mp ha with h3 | h3
          · subst h3; exact hn
          · exact h a h3
    · intro a ha
      rcases List.mem_cons.mp ha with h3 | h3
      · subst h3; exact h1
      · exact h2 a h3

/-- Advances are strictly sorted by their end and end after `i`. -/
def Sorted (i : Nat) (advs : List (Advance κ)) : Prop :=
  (∀ a ∈ advs, i < a.nextI) ∧ advs.Pairwise (fun a b => a.nextI < b.nextI)

theorem addAdvance_sorted (p : LzParams κ) {i : Nat} {new : Advance κ} (hn : i < new.nextI) {advs : List (Advance κ)}
    (h : Sorted i advs) : Sorted i (addAdvance p new advs) := by
  refine ⟨addAdvance_ok p (fun a => i < a.nextI) hn h.1, ?_⟩
  have hp := h.2
  clear h
  induction advs with
  | nil => simp [addAdvance]
  | cons adv rest ih =>
    rw [List.pairwise_cons] at hp
    unfold addAdvance
    split
    · rename_i hle
      split
      · exact List.pairwise_cons.mpr hp
      · split
        · rename_i he
          exact List.pairwise_cons.mpr ⟨fun a ha => by have := hp.1 a ha; omega, hp.2⟩
        · refine List.pairwise_cons.mpr ⟨fun a ha => ?_, List.pairwise_cons.mpr hp⟩
          rcases List.mem_cons.mp ha with h3 | h3
          · subst h3; omega
          · have := hp.1 a h3; omega
    · rename_i hle
      refine List.pairwise_cons.mpr ⟨?_, ih hp.2⟩
      exact addAdvance_ok p (fun a => adv.nextI < a.nextI) (by omega) hp.1

theorem addAdvance_ne_nil (p : LzParams κ) (new : Advance κ) (advs : List (Advance κ)) :
    addAdvance p new advs ≠ [] := by
  cases advs with
  | nil => simp [addAdvance]
  | cons a r =>
    unfold addAdvance
    split
    · split
      · simp
      · split <;> simp
    · simp

end Verif
