import Verif.Lz77Lemmas
/-! The loop invariant of the match finder. -/
namespace Verif
variable {κ : Type} {Q : Item → Prop}

/-- What is promised of the emitted items: at least everything `Single` is, and never an empty text. -/
structure QOk (Q : Item → Prop) : Prop where
  single : ∀ it, Single it → Q it
  nonempty : ¬ Q (.str [])

/-- Correctness invariant at the start of an iteration. -/
structure LInv (p : LzParams κ) (code : List Nat) (Q : Item → Prop) (s : LzState κ) : Prop where
  base : ∃ b, CoversPos code 0 s.out b ∧
    (s.curr = none → b = min s.i code.length) ∧
    (∀ a, s.curr = some a → a.nextI = s.i ∧ AdvOk p code b a) ∧
    (∀ a ∈ s.advances, AdvOk p code b a)
  lim : ∀ x ∈ s.out, Lim p x.2 ∧ Q x.2
  dict : DInv p code s.i s.dict
  prev : s.prevI = s.i

/-- Progress invariant. -/
structure TInv (s : LzState κ) : Prop where
  sorted : Sorted s.i s.advances
  none_nil : s.curr = none → s.advances = []
  some_ne : s.curr ≠ none → s.advances ≠ []

theorem goodMatch_itemAt {p : LzParams κ} {code : List Nat} {i : Nat} {maxO : Option Nat} {c j : Nat}
    (h : GoodMatch p code i maxO (c + 1) (some j)) :
    j < i ∧ i + (c + 1) ≤ code.length ∧ ∀ c', c' ≤ c + 1 → ItemAt code i (.mat (i - j) c') := by
  rcases h with h | ⟨j', hj, h1, h2, h3, _⟩
  · omega
  · simp at hj; subst hj
    refine ⟨h1, h2, fun c' hc' => ⟨by omega, by omega, by omega, fun k hk => ?_⟩⟩
    rw [h3 k (by omega)]; congr 1; omega

theorem goodMatch_lim {p : LzParams κ} {code : List Nat} {i : Nat} {maxO : Option Nat} {c j : Nat}
    (h : GoodMatch p code i maxO (c + 1) (some j)) (hmo : ∀ m, p.maxO = some m → i - j ≤ m) :
    Lim p (.mat (i - j) (c + 1)) := by
  rcases h with h | ⟨j', hj, _, _, _, _, h5, h6, h7⟩
  · omega
  · simp at hj; subst hj
    exact ⟨by omega, hmo, h5, h6, h7⟩

theorem goodMatch_lim_le {p : LzParams κ} {code : List Nat} {i : Nat} {maxO : Option Nat} {c j c' : Nat}
    (h : GoodMatch p code i maxO (c + 1) (some j)) (hmo : ∀ m, p.maxO = some m → i - j ≤ m) (hc : c' ≤ c + 1)
    (hmin : p.minC ≤ c') (h1 : 1 ≤ p.minC) :
    Lim p (.mat (i - j) c') := by
  rcases h with h | ⟨j', hj, _, _, _, _, h5, h6, h7⟩
  · omega
  · simp at hj; subst hj
    exact ⟨by omega, hmo, fun m hm => by have := h5 m hm; omega, fun hn => by have := h6 hn; omega, fun _ _ => hmin⟩

/-- Position and base fit the current advance. -/
def CurrOk (p : LzParams κ) (code : List Nat) (b i : Nat) (curr : Option (Advance κ)) : Prop :=
  CoversPos code b (currPath curr).reverse i ∧ ∀ x ∈ currPath curr, Lim p x.2 ∧ Single x.2

theorem offer_ok {p : LzParams κ} {measure : Option κ → Item → Int × Option κ} {code : List Nat} {b i : Nat}
    {curr : Option (Advance κ)} (hc : CurrOk p code b i curr) {c : Nat} {item : Item} (hlen : item.length = c)
    (hat : ItemAt code i item) (hle : i + c ≤ code.length) (hlim : Lim p item) (hne : Single item)
    {advs : List (Advance κ)} (h : ∀ a ∈ advs, AdvOk p code b a) :
    ∀ a ∈ offer p measure i curr c item advs, AdvOk p code b a := by
  unfold offer
  apply addAdvance_ok p _ _ h
  refine ⟨?_, hle, ?_⟩
  · simp only [List.reverse_cons]
    apply CoversPos.append hc.1
    refine ⟨rfl, hat, ?_⟩
    simp [CoversPos, hlen]
  · intro x hx
    rcases List.mem_cons.mp hx with h1 | h1
    · subst h1; exact ⟨hlim, hne⟩
    · exact hc.2 x h1

theorem offer_sorted {p : LzParams κ} {measure : Option κ → Item → Int × Option κ} {i : Nat}
    {curr : Option (Advance κ)} {c : Nat} {item : Item} (hc : 0 < c) {advs : List (Advance κ)} (h : Sorted i advs) :
    Sorted i (offer p measure i curr c item advs) := by
  unfold offer
  exact addAdvance_sorted p (by simp; omega) h

theorem offerMatch_ok {p : LzParams κ} (hmin : 1 ≤ p.minC) {measure : Option κ → Item → Int × Option κ}
    {code : List Nat} {b i : Nat} {curr : Option (Advance κ)} (hc : CurrOk p code b i curr) {maxO : Option Nat}
    {c j : Nat} (hg : GoodMatch p code i maxO (c + 1) (some j)) (hmo : ∀ m, p.maxO = some m → i - j ≤ m)
    {advs : List (Advance κ)} (h : ∀ a ∈ advs, AdvOk p code b a) :
    ∀ a ∈ offerMatch p measure i curr (c + 1) j advs, AdvOk p code b a := by
  obtain ⟨h1, h2, h3⟩ := goodMatch_itemAt hg
  have hfirst := offer_ok (measure := measure) hc (item := .mat (i - j) (c + 1)) rfl (h3 _ (Nat.le_refl _)) h2
    (goodMatch_lim hg hmo) trivial h
  unfold offerMatch
  simp only
  split
  · exact hfirst
  · split
    · rename_i hcc
      exact offer_ok (measure := measure) hc rfl (h3 _ (by omega)) (by simp only [Item.length]; omega)
        (goodMatch_lim_le hg hmo (by omega) hcc.2 hmin) trivial hfirst
    · exact hfirst

theorem offerMatch_sorted {p : LzParams κ} (hmin : 1 ≤ p.minC) {measure : Option κ → Item → Int × Option κ} {i : Nat}
    {curr : Option (Advance κ)} {c j : Nat} {advs : List (Advance κ)} (h : Sorted i advs) :
    Sorted i (offerMatch p measure i curr (c + 1) j advs) := by
  have hfirst := offer_sorted (p := p) (measure := measure) (curr := curr) (item := .mat (i - j) (c + 1))
    (Nat.succ_pos c) h
  unfold offerMatch
  simp only
  split
  · exact hfirst
  · split
    · exact offer_sorted (by omega) hfirst
    · exact hfirst

theorem offerSteps_ok {p : LzParams κ} (hmin : 1 ≤ p.minC) {measure : Option κ → Item → Int × Option κ}
    {code : List Nat} {b i : Nat} (hi : i ≤ code.length) {curr : Option (Advance κ)} (hc : CurrOk p code b i curr)
    {bestJ : Nat} (hmo : ∀ m, p.maxO = some m → i - bestJ ≤ m) (steps : List Nat) {d : MDict}
    (hd : DInv p code i d) {advs : List (Advance κ)} (h : ∀ a ∈ advs, AdvOk p code b a) :
    DInv p code i (offerSteps p measure code i curr bestJ steps d advs).1 ∧
    ∀ a ∈ (offerSteps p measure code i curr bestJ steps d advs).2, AdvOk p code b a := by
  induction steps generalizing d advs with
  | nil => exact ⟨hd, h⟩
  | cons step steps ih =>
    unfold offerSteps
    split
    · exact ⟨hd, h⟩
    · rename_i hstep
      simp only
      have hf := findMatch_spec p code hi (Nat.le_refl i) hd (some step)
      split
      · rename_i c j hr
        rw [hr] at hf
        have hmo' : ∀ m, p.maxO = some m → i - j ≤ m := by
          intro m hm
          have := hmo m hm
          rcases hf.2 with h0 | ⟨j', hj', _, _, _, h5, _⟩
          · omega
          · simp at hj'; subst hj'
            have := h5 step rfl; omega
        exact ih hf.1 (offerMatch_ok hmin hc hf.2 hmo' h)
      · exact ih hf.1 h

theorem offerSteps_sorted {p : LzParams κ} (hmin : 1 ≤ p.minC) {measure : Option κ → Item → Int × Option κ}
    {code : List Nat} {i : Nat} {curr : Option (Advance κ)} {bestJ : Nat} (steps : List Nat) {d : MDict}
    {advs : List (Advance κ)} (h : Sorted i advs) :
    Sorted i (offerSteps p measure code i curr bestJ steps d advs).2 := by
  induction steps generalizing d advs with
  | nil => exact h
  | cons step steps ih =>
    unfold offerSteps
    split
    · exact h
    · simp only
      split
      · exact ih (offerMatch_sorted hmin h)
      · exact ih h

theorem addAdvance_nonempty {p : LzParams κ} {measure : Option κ → Item → Int × Option κ} {i : Nat}
    {curr : Option (Advance κ)} {c : Nat} {item : Item} {advs : List (Advance κ)} :
    offer p measure i curr c item advs ≠ [] := addAdvance_ne_nil _ _ _

theorem offerMatch_ne {p : LzParams κ} {measure : Option κ → Item → Int × Option κ} {i : Nat}
    {curr : Option (Advance κ)} {c j : Nat} {advs : List (Advance κ)} :
    offerMatch p measure i curr c j advs ≠ [] := by
  unfold offerMatch
  simp only
  split
  · exact addAdvance_nonempty
  · split <;> exact addAdvance_nonempty

theorem offerSteps_ne {p : LzParams κ} {measure : Option κ → Item → Int × Option κ}
    {code : List Nat} {i : Nat} {curr : Option (Advance κ)} {bestJ : Nat} (steps : List Nat) {d : MDict}
    {advs : List (Advance κ)} (h : advs ≠ []) :
    (offerSteps p measure code i curr bestJ steps d advs).2 ≠ [] := by
  induction steps generalizing d advs with
  | nil => exact h
  | cons step steps ih =>
    unfold offerSteps
    split
    · exact h
    · simp only
      split
      · exact ih offerMatch_ne
      · exact ih h

theorem literal_at {code : List Nat} {i ch : Nat} (h : code[i]? = some ch) :
    ItemAt code i (.str [ch]) ∧ i + 1 ≤ code.length := by
  have hlt : i < code.length := by
    rcases Nat.lt_or_ge i code.length with h1 | h1
    · exact h1
    · rw [List.getElem?_eq_none (by omega)] at h; simp at h
  refine ⟨⟨by omega, ?_⟩, hlt⟩
  rw [List.drop_eq_getElem_cons hlt]
  rw [List.getElem?_eq_getElem hlt] at h
  simp at h
  simp [h]

theorem offerAll_ok {p : LzParams κ} (hmin : 1 ≤ p.minC) {measure : Option κ → Item → Int × Option κ}
    {code : List Nat} {s : LzState κ} {ch : Nat} (hch : code[s.i]? = some ch) {b : Nat}
    (hc : CurrOk p code b s.i s.curr) (hd : DInv p code s.i s.dict) (h : ∀ a ∈ s.advances, AdvOk p code b a) :
    DInv p code s.i (offerAll p measure code s ch).1 ∧ ∀ a ∈ (offerAll p measure code s ch).2, AdvOk p code b a := by
  obtain ⟨hat, hlt⟩ := literal_at hch
  have hf := findMatch_spec p code (by omega : s.i ≤ code.length) (Nat.le_refl _) hd p.maxO
  have hlit := offer_ok (measure := measure) hc (item := .str [ch]) rfl hat hlt trivial rfl h
  unfold offerAll
  simp only
  split
  · rename_i c j hr
    rw [hr] at hf
    have hmo : ∀ m, p.maxO = some m → s.i - j ≤ m := by
      rcases hf.2 with h0 | ⟨j', hj', _, _, _, h5, _⟩
      · omega
      · simp at hj'; subst hj'; exact h5
    exact offerSteps_ok hmin (by omega) hc hmo _ hf.1 (offerMatch_ok hmin hc hf.2 hmo hlit)
  · exact ⟨hf.1, hlit⟩

theorem offerAll_sorted {p : LzParams κ} (hmin : 1 ≤ p.minC) {measure : Option κ → Item → Int × Option κ}
    {code : List Nat} {s : LzState κ} {ch : Nat} (h : Sorted s.i s.advances) :
    Sorted s.i (offerAll p measure code s ch).2 ∧ (offerAll p measure code s ch).2 ≠ [] := by
  have hlit := offer_sorted (p := p) (measure := measure) (curr := s.curr) (item := .str [ch]) (c := 1) (by omega) h
  unfold offerAll
  simp only
  split
  · exact ⟨offerSteps_sorted hmin _ (offerMatch_sorted hmin hlit), offerSteps_ne _ offerMatch_ne⟩
  · exact ⟨hlit, addAdvance_nonempty⟩

theorem LInv.currOk {p : LzParams κ} {code : List Nat} {s : LzState κ} (h : LInv p code Q s) (hi : s.i ≤ code.length) :
    ∃ b, CoversPos code 0 s.out b ∧ CurrOk p code b s.i s.curr ∧ ∀ a ∈ s.advances, AdvOk p code b a := by
  obtain ⟨b, h1, h2, h3, h4⟩ := h.base
  refine ⟨b, h1, ?_, h4⟩
  cases hc : s.curr with
  | none =>
    have := h2 hc
    exact ⟨by simp [currPath, CoversPos]; omega, by simp [currPath]⟩
  | some a =>
    obtain ⟨e, ha⟩ := h3 a hc
    exact ⟨by simp only [currPath]; rw [← e]; exact ha.1, ha.2.2⟩

theorem measuredStep_inv (hQ : QOk Q) {p : LzParams κ} (hmin : 1 ≤ p.minC) {measure : Option κ → Item → Int × Option κ}
    {code : List Nat} {s s' : LzState κ} {bc : Nat} (hinv : LInv p code Q s) (ht : TInv s)
    (h : measuredStep p measure code s = some (s', bc)) (o : Option Nat) : LInv p code Q (finishStep p code o s') := by
  unfold measuredStep at h
  split at h
  · simp at h
  · rename_i ch hch
    have hi := (literal_at hch).2
    obtain ⟨b, hb1, hb2, hb3⟩ := hinv.currOk (by omega)
    have hoff := offerAll_ok hmin (measure := measure) hch hb2 hinv.dict hb3
    have hsort := offerAll_sorted hmin (measure := measure) (code := code) (ch := ch) ht.sorted
    simp only at h
    split at h
    · simp at h
    · rename_i adv rest hadv
      rw [hadv] at hoff hsort
      have hadvok := hoff.2 adv (by simp)
      have hrest : ∀ a ∈ rest, AdvOk p code b a := fun a ha => hoff.2 a (by simp [ha])
      have hgt := hsort.1.1 adv (by simp)
      simp only [Option.some.injEq, Prod.mk.injEq] at h
      obtain ⟨h, _⟩ := h
      have hprev := hinv.prev
      split at h
      · rename_i he
        subst h
        refine ⟨⟨adv.nextI, CoversPos.append hb1 hadvok.1, ?_, ?_, ?_⟩, ?_, ?_, rfl⟩
        · intro _; simp [finishStep]; have := hadvok.2.1; omega
        · simp [finishStep]
        · simp at he; simp [finishStep, he]
        · intro x hx
          simp only [finishStep, List.mem_append] at hx
          rcases hx with h1 | h1
          · exact hinv.lim x h1
          · have := hadvok.2.2 x (by simpa using h1); exact ⟨this.1, hQ.single _ this.2⟩
        · apply finishStep_inv
          · simp only; rw [hprev]; exact hoff.1
          · simp only; omega
      · rename_i he
        subst h
        refine ⟨⟨b, hb1, ?_, ?_, hrest⟩, hinv.lim, ?_, rfl⟩
        · simp [finishStep]
        · intro a ha
          simp [finishStep] at ha; subst ha
          exact ⟨rfl, hadvok⟩
        · apply finishStep_inv
          · simp only; rw [hprev]; exact hoff.1
          · simp only; omega

theorem measuredStep_progress {p : LzParams κ} (hmin : 1 ≤ p.minC) {measure : Option κ → Item → Int × Option κ}
    {code : List Nat} {s : LzState κ} (ht : TInv s) (hi : s.i < code.length) :
    ∃ s' bc, measuredStep p measure code s = some (s', bc) ∧ s.i < s'.i ∧ s'.blocks = s.blocks ∧ TInv s' := by
  unfold measuredStep
  rw [List.getElem?_eq_getElem hi]
  simp only
  have hsort := offerAll_sorted hmin (measure := measure) (code := code) (ch := code[s.i]) ht.sorted
  split
  · rename_i h; exact absurd h hsort.2
  · rename_i adv rest hadv
    rw [hadv] at hsort
    have hgt := hsort.1.1 adv (by simp)
    have hp := List.pairwise_cons.mp hsort.1.2
    have hs' : Sorted adv.nextI rest := ⟨hp.1, hp.2⟩
    refine ⟨_, _, rfl, ?_, ?_, ?_⟩
    · split <;> exact hgt
    · split <;> rfl
    · split
      · rename_i he
        simp at he
        exact ⟨hs', fun _ => he, by simp⟩
      · rename_i he
        simp at he
        exact ⟨hs', by simp, fun _ => he⟩

theorem greedyStep_inv (hQ : QOk Q) {p : LzParams κ} {code : List Nat} {s s' : LzState κ} {bc : Nat} (hinv : LInv p code Q s)
    (ht : TInv s) (hcurr : s.curr = none) (h : greedyStep p code s = some (s', bc)) (o : Option Nat) :
    LInv p code Q (finishStep p code o s') := by
  unfold greedyStep at h
  split at h
  · simp at h
  · rename_i ch hch
    obtain ⟨hat, hi⟩ := literal_at hch
    obtain ⟨b, hb1, hb2, hb3, hb4⟩ := hinv.base
    have hb : b = s.i := by have := hb2 hcurr; omega
    subst hb
    have hf := findMatch_spec p code (by omega : s.i ≤ code.length) (Nat.le_refl _) hinv.dict p.maxO
    have hprev := hinv.prev
    have hlit : ∀ d, DInv p code s.i d → LInv p code Q (finishStep p code o
        { s with i := s.i + 1, dict := d, out := s.out ++ [(s.i, .str [ch])] }) := by
      intro d hd
      refine ⟨⟨s.i + 1, CoversPos.append hb1 ⟨rfl, hat, by simp [CoversPos, Item.length]⟩, ?_, ?_, ?_⟩, ?_, ?_, rfl⟩
      · intro _; simp [finishStep]; omega
      · intro a ha; simp [finishStep, hcurr] at ha
      · intro a ha; simp [finishStep, ht.none_nil hcurr] at ha
      · intro x hx
        simp only [finishStep, List.mem_append] at hx
        rcases hx with h1 | h1
        · exact hinv.lim x h1
        · simp at h1; subst h1; exact ⟨trivial, hQ.single _ rfl⟩
      · apply finishStep_inv
        · simp only; rw [hprev]; exact hd
        · simp only; omega
    simp only at h
    split at h
    · rename_i c j hr
      rw [hr] at hf
      have hg := goodMatch_itemAt hf.2
      have hf2 := findMatch_spec p code (by omega : s.i + 1 ≤ code.length) (by omega) hf.1 p.maxO
      split at h
      · simp at h; rw [← h.1]; exact hlit _ hf2.1
      · simp at h
        rw [← h.1]
        have hmo : ∀ m, p.maxO = some m → s.i - j ≤ m := by
          rcases hf.2 with h0 | ⟨j', hj', _, _, _, h5, _⟩
          · omega
          · simp at hj'; subst hj'; exact h5
        refine ⟨⟨s.i + (c + 1), CoversPos.append hb1 ⟨rfl, hg.2.2 _ (Nat.le_refl _), by simp [CoversPos, Item.length]⟩,
          ?_, ?_, ?_⟩, ?_, ?_, rfl⟩
        · intro _; simp [finishStep]; omega
        · intro a ha; simp [finishStep, hcurr] at ha
        · intro a ha; simp [finishStep, ht.none_nil hcurr] at ha
        · intro x hx
          simp only [finishStep, List.mem_append] at hx
          rcases hx with h1 | h1
          · exact hinv.lim x h1
          · simp at h1; subst h1; exact ⟨goodMatch_lim hf.2 hmo, hQ.single _ trivial⟩
        · apply finishStep_inv
          · simp only; rw [hprev]; exact hf2.1
          · simp only; omega
    · simp at h; rw [← h.1]; exact hlit _ hf.1

theorem greedyStep_progress {p : LzParams κ} {code : List Nat} {s : LzState κ} (ht : TInv s) (hcurr : s.curr = none)
    (hi : s.i < code.length) :
    ∃ s' bc, greedyStep p code s = some (s', bc) ∧ s.i < s'.i ∧ s'.blocks = s.blocks ∧ TInv s' ∧ s'.curr = none := by
  have hn := ht.none_nil hcurr
  have hT : ∀ i' d o, TInv ({ s with i := i', dict := d, out := o } : LzState κ) := fun i' d o =>
    ⟨by simp [hn, Sorted], fun _ => hn, fun h => absurd hcurr h⟩
  unfold greedyStep
  rw [List.getElem?_eq_getElem hi]
  simp only
  split
  · split
    · exact ⟨_, _, rfl, by simp, rfl, hT _ _ _, hcurr⟩
    · exact ⟨_, _, rfl, by simp, rfl, hT _ _ _, hcurr⟩
  · exact ⟨_, _, rfl, by simp, rfl, hT _ _ _, hcurr⟩

/-- The block branch keeps the invariant unless it emits an empty block. -/
theorem blockStep_inv (hQ : QOk Q) {p : LzParams κ} {code : List Nat} {s : LzState κ} (hinv : LInv p code Q s) (hi : s.i < code.length)
    (ht : TInv s) (o : Option Nat)
    (hne : ∀ x ∈ (blockStep code s).out, Q x.2) : LInv p code Q (finishStep p code o (blockStep code s)) := by
  obtain ⟨b, hb1, hb2, hb3⟩ := hinv.currOk (by omega : s.i ≤ code.length)
  obtain ⟨c, e, he⟩ : ∃ c e, popBlock code s.blocks = (e, c) := ⟨_, _, rfl⟩
  have hmem : (s.i, Item.str ((code.take e).drop s.i)) ∈ (blockStep code s).out := by
    simp [blockStep, he]
  have hnn := hne _ hmem
  have hlt : s.i < e := by
    rcases Nat.lt_or_ge s.i e with h1 | h1
    · exact h1
    · exfalso
      have : (code.take e).drop s.i = [] := by rw [List.drop_eq_nil_iff]; simp; omega
      simp only [this] at hnn
      exact hQ.nonempty hnn
  have hcov : CoversPos code 0 (match s.curr with | some a => s.out ++ a.path.reverse | none => s.out) s.i := by
    cases hc : s.curr with
    | none =>
      rw [hc] at hb2
      have := hb2.1
      simp [currPath, CoversPos] at this
      simpa [this] using hb1
    | some a =>
      rw [hc] at hb2
      exact CoversPos.append hb1 hb2.1
  have hlen : ((code.take e).drop s.i).length = min e code.length - s.i := by simp
  have hat : ItemAt code s.i (.str ((code.take e).drop s.i)) := by
    refine ⟨by omega, ?_⟩
    rw [List.drop_take]
    exact List.take_prefix _ _
  refine ⟨⟨min e code.length, ?_, ?_, ?_, ?_⟩, ?_, ?_, rfl⟩
  · simp only [finishStep, blockStep, he]
    apply CoversPos.append hcov
    refine ⟨rfl, hat, ?_⟩
    simp only [CoversPos, Item.length, hlen]; omega
  · intro _; simp [finishStep, blockStep, he]
  · simp [finishStep, blockStep]
  · intro a ha
    cases hc : s.curr with
    | none => simp [finishStep, blockStep, hc, ht.none_nil hc] at ha
    | some a' => simp [finishStep, blockStep, hc] at ha
  · intro x hx
    refine ⟨?_, hne x hx⟩
    simp only [finishStep, blockStep, List.mem_append, List.mem_singleton] at hx
    rcases hx with h1 | h1
    · cases hc : s.curr with
      | none => rw [hc] at h1; exact (hinv.lim x h1).1
      | some a =>
        rw [hc] at h1
        simp only [List.mem_append] at h1
        rcases h1 with h2 | h2
        · exact (hinv.lim x h2).1
        · rw [hc] at hb2; exact (hb2.2 x (by simpa [currPath] using h2)).1
    · rw [h1]; trivial
  · apply finishStep_inv
    · simp only [blockStep]; rw [hinv.prev]; exact hinv.dict
    · simp only [blockStep, he]; rw [hinv.prev]; omega

/-! ### The loop -/

theorem finishStep_tinv {p : LzParams κ} {code : List Nat} {o : Option Nat} {s : LzState κ} (h : TInv s) :
    TInv (finishStep p code o s) := ⟨h.sorted, h.none_nil, h.some_ne⟩

theorem blockStep_tinv {code : List Nat} {s : LzState κ} (h : TInv s) : TInv (blockStep code s) := by
  have : (blockStep code s).advances = [] := by
    cases hc : s.curr with
    | none => simp [blockStep, hc, h.none_nil hc]
    | some a => simp [blockStep, hc]
  exact ⟨by simp [this, Sorted], fun _ => this, fun h => absurd rfl h⟩

/-- Everything that holds at the top of the loop regardless of the blocks. -/
structure PInv (p : LzParams κ) (s : LzState κ) : Prop where
  t : TInv s
  g : p.measure = none → s.curr = none

theorem popBlock_cases (code : List Nat) (blocks : List Nat) :
    (blocks = [] ∧ popBlock code blocks = (code.length, [])) ∨
    ∃ b bs, blocks = b :: bs ∧ popBlock code blocks = (b, bs) := by
  cases blocks with
  | nil => exact .inl ⟨rfl, rfl⟩
  | cons b bs => exact .inr ⟨b, bs, rfl, rfl⟩

theorem popBlock_length (code : List Nat) (blocks : List Nat) : (popBlock code blocks).2.length = blocks.length - 1 := by
  cases blocks <;> simp [popBlock]

/-- Work left. -/
def lzPot (code : List Nat) (s : LzState κ) : Nat := s.blocks.length * (code.length + 1) + (code.length - s.i)

/-- The loop never gets stuck and its potential decreases. -/
theorem lzStep_progress {p : LzParams κ} (hmin : 1 ≤ p.minC) {code : List Nat} {s : LzState κ} (h : PInv p s)
    (hi : s.i < code.length) : ∃ s', lzStep p code s = some s' ∧ PInv p s' ∧ lzPot code s' < lzPot code s := by
  unfold lzStep
  by_cases hb : s.i ≥ s.nextBlock
  · rw [if_pos hb]
    refine ⟨_, rfl, ⟨finishStep_tinv (blockStep_tinv h.t), fun _ => rfl⟩, ?_⟩
    simp only [lzPot, finishStep, blockStep, popBlock_length]
    rcases popBlock_cases code s.blocks with ⟨e1, e2⟩ | ⟨b, bs, e1, e2⟩
    · simp only [e1, List.length_nil, popBlock]; omega
    · simp only [e1, List.length_cons, popBlock]
      have h1 : (bs.length + 1 - 1 - 1) * (code.length + 1) ≤ bs.length * (code.length + 1) :=
        Nat.mul_le_mul_right _ (by omega)
      have h2 : (bs.length + 1) * (code.length + 1) = bs.length * (code.length + 1) + (code.length + 1) := by
        rw [Nat.add_mul]; omega
      omega
  · rw [if_neg hb]
    have key : ∀ (s' : LzState κ) bc, s.i < s'.i → s'.blocks = s.blocks →
        lzPot code (finishStep p code (some bc) s') < lzPot code s := by
      intro s' bc h1 h2
      simp only [lzPot, finishStep, h2]; omega
    cases hm : p.measure with
    | some m =>
      obtain ⟨s', bc, h1, h2, h3, h4⟩ := measuredStep_progress hmin (measure := m s.out) h.t hi
      simp only [h1]
      exact ⟨_, rfl, ⟨finishStep_tinv h4, by simp [hm]⟩, key _ _ h2 h3⟩
    | none =>
      obtain ⟨s', bc, h1, h2, h3, h4, h5⟩ := greedyStep_progress (p := p) h.t (h.g hm) hi
      simp only [h1]
      exact ⟨_, rfl, ⟨finishStep_tinv h4, fun _ => h5⟩, key _ _ h2 h3⟩

/-- Output only grows. -/
theorem lzStep_out {p : LzParams κ} {code : List Nat} {s s' : LzState κ} (h : lzStep p code s = some s') :
    s.out <+: s'.out := by
  unfold lzStep at h
  by_cases hb : s.i ≥ s.nextBlock
  · rw [if_pos hb] at h
    simp at h; subst h
    simp only [finishStep, blockStep]
    cases s.curr <;> simp
  · rw [if_neg hb] at h
    cases hm : p.measure with
    | some m =>
      simp only [hm] at h
      cases hr : measuredStep p (m s.out) code s with
      | none => simp [hr] at h
      | some r =>
        obtain ⟨r, bc⟩ := r
        simp [hr] at h; subst h
        unfold measuredStep at hr
        split at hr
        · simp at hr
        · simp only at hr
          split at hr
          · simp at hr
          · simp at hr
            obtain ⟨hr, _⟩ := hr
            split at hr <;> subst hr <;> simp [finishStep]
    | none =>
      simp only [hm] at h
      cases hr : greedyStep p code s with
      | none => simp [hr] at h
      | some r =>
        obtain ⟨r, bc⟩ := r
        simp [hr] at h; subst h
        unfold greedyStep at hr
        split at hr
        · simp at hr
        · simp only at hr
          split at hr
          · split at hr <;> simp at hr <;> rw [← hr.1] <;> simp [finishStep]
          · simp at hr; rw [← hr.1]; simp [finishStep]

theorem lzLoop_out {p : LzParams κ} {code : List Nat} {fuel : Nat} {s : LzState κ} {out : List (Nat × Item)}
    (h : lzLoop p code fuel s = some out) : s.out <+: out := by
  induction fuel generalizing s with
  | zero =>
    unfold lzLoop at h
    split at h
    · simp at h
    · split at h
      · simp at h
      · simp at h; simp [h]
  | succ fuel ih =>
    unfold lzLoop at h
    split at h
    · simp only at h
      split at h
      · simp at h
      · rename_i s' hs
        exact List.IsPrefix.trans (lzStep_out hs) (ih h)
    · split at h
      · simp at h
      · simp at h; simp [h]

/-- Correctness of one iteration as long as no empty block is emitted. -/
theorem lzStep_inv (hQ : QOk Q) {p : LzParams κ} (hmin : 1 ≤ p.minC) {code : List Nat} {s s' : LzState κ} (h : PInv p s)
    (hl : LInv p code Q s) (hi : s.i < code.length) (hs : lzStep p code s = some s')
    (hne : ∀ x ∈ s'.out, Q x.2) : LInv p code Q s' := by
  unfold lzStep at hs
  by_cases hb : s.i ≥ s.nextBlock
  · rw [if_pos hb] at hs
    simp at hs; subst hs
    exact blockStep_inv hQ hl hi h.t none hne
  · rw [if_neg hb] at hs
    cases hm : p.measure with
    | some m =>
      simp only [hm] at hs
      cases hr : measuredStep p (m s.out) code s with
      | none => simp [hr] at hs
      | some r =>
        obtain ⟨r, bc⟩ := r
        simp [hr] at hs; subst hs
        exact measuredStep_inv hQ hmin hl h.t hr _
    | none =>
      simp only [hm] at hs
      cases hr : greedyStep p code s with
      | none => simp [hr] at hs
      | some r =>
        obtain ⟨r, bc⟩ := r
        simp [hr] at hs; subst hs
        exact greedyStep_inv hQ hl h.t (h.g hm) hr _

theorem lzLoop_inv (hQ : QOk Q) {p : LzParams κ} (hmin : 1 ≤ p.minC) {code : List Nat} {fuel : Nat} {s : LzState κ}
    {out : List (Nat × Item)} (h : PInv p s) (hl : LInv p code Q s) (hs : lzLoop p code fuel s = some out)
    (hne : ∀ x ∈ out, Q x.2) :
    CoversPos code 0 out code.length ∧ ∀ x ∈ out, Lim p x.2 := by
  induction fuel generalizing s with
  | zero =>
    unfold lzLoop at hs
    split at hs
    · simp at hs
    · split at hs
      · simp at hs
      · rename_i h1 h2
        simp at hs; subst hs
        obtain ⟨b, hb1, hb2, _⟩ := hl.base
        have : b = code.length := by have := hb2 (by simpa using h2); omega
        subst this
        exact ⟨hb1, fun x hx => (hl.lim x hx).1⟩
  | succ fuel ih =>
    unfold lzLoop at hs
    split at hs
    · rename_i hi
      simp only at hs
      obtain ⟨s', h1, h2, _⟩ := lzStep_progress hmin (code := code) h hi
      rw [h1] at hs
      simp only at hs
      have hp := lzLoop_out hs
      exact ih h2 (lzStep_inv hQ hmin h hl hi h1 (fun x hx => hne x (hp.subset hx))) hs
    · split at hs
      · simp at hs
      · rename_i h1 h2
        simp at hs; subst hs
        obtain ⟨b, hb1, hb2, _⟩ := hl.base
        have : b = code.length := by have := hb2 (by simpa using h2); omega
        subst this
        exact ⟨hb1, fun x hx => (hl.lim x hx).1⟩

/-- Without blocks the block branch is never taken. -/
theorem lzStep_noblock (hQ : QOk Q) {p : LzParams κ} (hmin : 1 ≤ p.minC) {code : List Nat} {s : LzState κ} (h : PInv p s)
    (hl : LInv p code Q s) (hi : s.i < code.length) (hb : s.nextBlock = code.length) :
    ∃ s', lzStep p code s = some s' ∧ PInv p s' ∧ LInv p code Q s' ∧ s'.nextBlock = code.length := by
  unfold lzStep
  rw [if_neg (by omega)]
  cases hm : p.measure with
  | some m =>
    obtain ⟨s', bc, h1, h2, h3, h4⟩ := measuredStep_progress hmin (measure := m s.out) h.t hi
    simp only [h1]
    refine ⟨_, rfl, ⟨finishStep_tinv h4, by simp [hm]⟩, measuredStep_inv hQ hmin hl h.t h1 _, ?_⟩
    unfold measuredStep at h1
    rw [List.getElem?_eq_getElem hi] at h1
    simp only at h1
    split at h1
    · simp at h1
    · simp at h1
      obtain ⟨hr, _⟩ := h1
      split at hr <;> subst hr <;> simpa [finishStep] using hb
  | none =>
    obtain ⟨s', bc, h1, h2, h3, h4, h5⟩ := greedyStep_progress (p := p) h.t (h.g hm) hi
    simp only [h1]
    refine ⟨_, rfl, ⟨finishStep_tinv h4, fun _ => h5⟩, greedyStep_inv hQ hl h.t (h.g hm) h1 _, ?_⟩
    unfold greedyStep at h1
    rw [List.getElem?_eq_getElem hi] at h1
    simp only at h1
    split at h1
    · split at h1 <;> simp at h1 <;> rw [← h1.1] <;> simpa [finishStep] using hb
    · simp at h1; rw [← h1.1]; simpa [finishStep] using hb

theorem lzLoop_noblock (hQ : QOk Q) {p : LzParams κ} (hmin : 1 ≤ p.minC) {code : List Nat} {fuel : Nat} {s : LzState κ}
    {out : List (Nat × Item)} (h : PInv p s) (hl : LInv p code Q s) (hb : s.nextBlock = code.length)
    (hs : lzLoop p code fuel s = some out) : ∀ x ∈ out, Q x.2 := by
  induction fuel generalizing s with
  | zero =>
    unfold lzLoop at hs
    split at hs
    · simp at hs
    · split at hs
      · simp at hs
      · simp at hs; subst hs
        exact fun x hx => (hl.lim x hx).2
  | succ fuel ih =>
    unfold lzLoop at hs
    split at hs
    · rename_i hi
      obtain ⟨s', h1, h2, h3, h4⟩ := lzStep_noblock hQ hmin h hl hi hb
      rw [h1] at hs
      exact ih h2 h3 h4 hs
    · split at hs
      · simp at hs
      · simp at hs; subst hs
        exact fun x hx => (hl.lim x hx).2

/-- More fuel than potential changes nothing: the loop ends by itself. -/
theorem lzLoop_fuel {p : LzParams κ} (hmin : 1 ≤ p.minC) {code : List Nat} {fuel : Nat} {s : LzState κ} (h : PInv p s)
    (hf : lzPot code s ≤ fuel) (extra : Nat) : lzLoop p code (fuel + extra) s = lzLoop p code fuel s := by
  induction fuel generalizing s with
  | zero =>
    have : ¬ s.i < code.length := by simp only [lzPot] at hf; omega
    unfold lzLoop
    rw [if_neg this, if_neg this]
  | succ fuel ih =>
    have e : fuel + 1 + extra = (fuel + extra) + 1 := by omega
    rw [e]
    by_cases hi : s.i < code.length
    · obtain ⟨s', h1, h2, h3⟩ := lzStep_progress hmin (code := code) h hi
      conv => lhs; unfold lzLoop
      conv => rhs; unfold lzLoop
      rw [if_pos hi, if_pos hi]
      simp only [h1]
      exact ih h2 (by omega)
    · unfold lzLoop
      rw [if_neg hi, if_neg hi]

/-- Without blocks the loop ends with a result. -/
theorem lzLoop_total (hQ : QOk Q) {p : LzParams κ} (hmin : 1 ≤ p.minC) {code : List Nat} {fuel : Nat} {s : LzState κ} (h : PInv p s)
    (hl : LInv p code Q s) (hb : s.nextBlock = code.length) (hf : lzPot code s ≤ fuel) :
    ∃ out, lzLoop p code fuel s = some out := by
  have last : ∀ {s : LzState κ}, PInv p s → LInv p code Q s → ¬ s.i < code.length → s.curr = none := by
    intro s h hl hi
    cases hc : s.curr with
    | none => rfl
    | some a =>
      exfalso
      obtain ⟨b, _, _, h3, h4⟩ := hl.base
      have hne := h.t.some_ne (by simp [hc])
      cases ha : s.advances with
      | nil => exact hne ha
      | cons x xs =>
        have := (h4 x (by simp [ha])).2.1
        have := h.t.sorted.1 x (by simp [ha])
        omega
  induction fuel generalizing s with
  | zero =>
    have hi : ¬ s.i < code.length := by simp only [lzPot] at hf; omega
    unfold lzLoop
    rw [if_neg hi, last h hl hi]
    simp
  | succ fuel ih =>
    by_cases hi : s.i < code.length
    · obtain ⟨s', h1, h2, h3⟩ := lzStep_progress hmin (code := code) h hi
      obtain ⟨s'', g1, g2, g3, g4⟩ := lzStep_noblock hQ hmin h hl hi hb
      rw [h1] at g1
      simp at g1; subst g1
      unfold lzLoop
      rw [if_pos hi]
      simp only [h1]
      exact ih g2 g3 g4 (by omega)
    · unfold lzLoop
      rw [if_neg hi, last h hl hi]
      simp

theorem lzInit_pinv (p : LzParams κ) (code blocks : List Nat) : PInv p (lzInit code blocks : LzState κ) :=
  ⟨⟨by simp [lzInit, Sorted], fun _ => rfl, fun h => absurd rfl h⟩, fun _ => rfl⟩

theorem lzInit_linv (p : LzParams κ) (code blocks : List Nat) : LInv p code Q (lzInit code blocks : LzState κ) := by
  refine ⟨⟨0, rfl, fun _ => by simp [lzInit], by simp [lzInit], by simp [lzInit]⟩, by simp [lzInit], ?_, rfl⟩
  intro k
  simp [lzInit, MInv]

theorem lzInit_pot (code blocks : List Nat) :
    lzPot code (lzInit code blocks : LzState κ) ≤ (blocks.length + 1) * (code.length + 1) := by
  simp only [lzPot, lzInit, popBlock_length]
  have h1 : (blocks.length - 1) * (code.length + 1) ≤ blocks.length * (code.length + 1) :=
    Nat.mul_le_mul_right _ (by omega)
  have h2 : (blocks.length + 1) * (code.length + 1) = blocks.length * (code.length + 1) + (code.length + 1) := by
    rw [Nat.add_mul]; omega
  omega

end Verif
