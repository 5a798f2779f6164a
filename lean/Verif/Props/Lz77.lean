import Verif.Lz77Old
import Verif.Props.Compress
/-! C02: the match finder, and the whole of `compress_code` composed with it (C01, C06). -/
namespace Verif
variable {κ : Type}

/-- **C02.** Whatever the cost function, the limits and the search options, as long as no block layout is imposed: the
match finder always finishes with a result; the items laid end to end describe the code exactly, each at the position
reported for it; every back-reference respects the limits; texts are single characters. -/
theorem C02_cover (p : LzParams κ) (hmin : 1 ≤ p.minC) (code : List Nat) :
    ∃ out, getLz77 p code [] = some out ∧ CoversPos code 0 out code.length ∧
      ∀ x ∈ out, ItemLimits p.minC p.maxC p.maxO p.noRepeat x.2 ∧ ∀ s, x.2 = .str s → s.length = 1 := by
  have hQ : QOk Single := ⟨fun _ h => h, by simp [Single]⟩
  have h1 := lzInit_pinv p code []
  have h2 := lzInit_linv (Q := Single) p code []
  obtain ⟨out, h⟩ := lzLoop_total hQ hmin h1 h2 rfl (lzInit_pot code [])
  have hs := lzLoop_noblock hQ hmin h1 h2 rfl h
  have hc := lzLoop_inv hQ hmin h1 h2 h hs
  refine ⟨out, h, hc.1, fun x hx => ⟨hc.2 x hx, fun s e => ?_⟩⟩
  have := hs x hx
  rw [e] at this
  exact this

/-- **C02 (partial).** Full claim: the same for every block layout the caller imposes.  Proved: it holds whenever no empty
text was emitted.  Missing: layouts in which a block ends before the search reaches it; those are wrong, see
`C02_block_counterexample`. -/
theorem C02_cover_blocks_partial (p : LzParams κ) (hmin : 1 ≤ p.minC) (code blocks : List Nat) {out : List (Nat × Item)}
    (h : getLz77 p code blocks = some out) (hne : ∀ x ∈ out, x.2 ≠ .str []) :
    CoversPos code 0 out code.length ∧ ∀ x ∈ out, ItemLimits p.minC p.maxC p.maxO p.noRepeat x.2 := by
  have hQ : QOk (fun it => it ≠ .str []) := ⟨fun it h e => by subst e; simp [Single] at h, by simp⟩
  exact lzLoop_inv hQ hmin (lzInit_pinv p code blocks) (lzInit_linv p code blocks) h hne

/-- **C02.** The search always terminates, for every block layout: the number of iterations is at most
`(blocks + 1) · (length + 1)`, so allowing more changes nothing. -/
theorem C02_terminates (p : LzParams κ) (hmin : 1 ≤ p.minC) (code blocks : List Nat) (extra : Nat) :
    lzLoop p code ((blocks.length + 1) * (code.length + 1) + extra) (lzInit code blocks) = getLz77 p code blocks :=
  lzLoop_fuel hmin (lzInit_pinv p code blocks) (lzInit_pot code blocks) extra

/-- A run with a literal block and overlapping matches that meets the hypothesis of `C02_cover_blocks_partial`. -/
example : getLz77 pxaOptParams [97, 97, 97, 97, 97, 1, 2, 3, 97, 97, 97, 97] [5, 8] =
    some [(0, .str [97]), (1, .mat 1 4), (5, .str [1, 2, 3]), (8, .mat 7 4)] := by decide +kernel

example : getLz77 pxaFastParams [97, 98, 97, 98, 97, 98, 99] [] =
    some [(0, .str [97]), (1, .str [98]), (2, .mat 2 4), (6, .str [99])] := by decide +kernel

/-! ### Whole compressor, current format -/

theorem pxaItems_fast {code : List Nat} : ∃ items, pxaItems true code = some items ∧
    Covers code 0 (items.map (·.2)) ∧ ∀ it ∈ items.map (·.2), it.PxaOk := by
  obtain ⟨out, h1, h2, h3⟩ := C02_cover pxaFastParams (by decide) code
  refine ⟨out, h1, h2.covers, ?_⟩
  intro it hit
  obtain ⟨x, hx, rfl⟩ := List.mem_map.mp hit
  have := h3 x hx
  cases hx2 : x.2 with
  | str s =>
    have hl := this.2 s hx2
    exact ⟨by intro e; simp [e] at hl, fun h => absurd hl h⟩
  | mat o c =>
    rw [hx2] at this
    obtain ⟨⟨_, a, _, _, b⟩, _⟩ := this
    have := a _ rfl
    have := b rfl (by simp [pxaFastParams])
    exact ⟨by omega, this⟩

/-- **C01.** The whole compressor in fast mode, on every code (NULs included): it always succeeds when errors are not
fatal, and whatever it returns decompresses to the code, with anything following it. -/
theorem C01_compress_fast_roundtrip {code : List Nat} (hcode : ∀ c ∈ code, c < 256) (hlen : code.length < 0x10000)
    {fail : Bool} {b : List Nat} (hb : compressFull true fail false true code = some b) (hsize : b.length < 0x10000)
    (tail : List Nat) : uncompressCode (b ++ tail) = some code := by
  obtain ⟨items, h1, h2, h3⟩ := pxaItems_fast (code := code)
  simp only [compressFull, Bool.or_true, if_true, h1] at hb
  exact C01_pxa_roundtrip hcode h3 h2 hlen hb hsize tail

/-- **C01.** With the default checks, fast mode either reports that the cart is too big or round-trips; there is no other
failure. -/
theorem C01_compress_fast_checked {code : List Nat} (hcode : ∀ c ∈ code, c < 256) :
    (∀ b, compressFull true true false true code = some b →
      (∀ tail, uncompressCode (b ++ tail) = some code) ∧ b.length ≤ 0x3d00) ∧
    (code.length < 0x10000 → ∃ b, compressFull true false false true code = some b ∧ (∀ x ∈ b, x < 256) ∧
      (b.length ≤ 0x3d00 → compressFull true true false true code = some b)) := by
  obtain ⟨items, h1, h2, h3⟩ := pxaItems_fast (code := code)
  constructor
  · intro b hb
    simp only [compressFull, Bool.or_true, if_true, h1] at hb
    exact ⟨fun tail => (C01_pxa_roundtrip_checked hcode h3 h2 hb tail).1, (C01_pxa_roundtrip_checked hcode h3 h2 hb []).2⟩
  · intro hlen
    obtain ⟨b, hb, hx⟩ := C01_pxa_writer_total hcode h3 h2 hlen
    refine ⟨b, by simp only [compressFull, Bool.or_true, if_true, h1]; exact hb, hx, fun hs => ?_⟩
    simp only [compressFull, Bool.or_true, if_true, h1]
    unfold compressNew at hb ⊢
    split at hb
    · simp at hb
    · simp only [Bool.false_and] at hb
      simp only [Bool.true_and]
      simp only [Bool.false_eq_true, if_false] at hb
      have hl : b.length = 8 + (‹BitWriter›.flush).length := by
        rw [← Option.some.inj hb]; simp [newHeader, be16]; omega
      simp; exact ⟨⟨hlen, by omega⟩, by simpa using hb⟩

/-- **C01 (partial).** Full claim: the default (optimal) mode round-trips every NUL-free code.  Proved: it does whenever
its search emitted no empty block.  Missing: codes on which the block planner returns a block that ends before it starts;
there the compressor fails, see `C02_block_counterexample`. -/
theorem C01_compress_default_partial {code : List Nat} (hcode : ∀ c ∈ code, c < 256) (hnul : 0 ∉ code)
    (hlen : code.length < 0x10000) {items : List (Nat × Item)} (hi : pxaItems false code = some items)
    (hne : ∀ x ∈ items, x.2 ≠ .str []) :
    (∃ b, compressFull true false false false code = some b) ∧
    ∀ fail b, compressFull true fail false false code = some b → b.length < 0x10000 →
      ∀ tail, uncompressCode (b ++ tail) = some code := by
  have hi' := hi
  simp only [pxaItems, Bool.false_eq_true, if_false] at hi
  cases hb : litblockIdxs code with
  | none => simp [hb] at hi
  | some idxs =>
    simp only [hb] at hi
    have hc := C02_cover_blocks_partial pxaOptParams (by decide) code idxs hi hne
    have hok : ∀ it ∈ items.map (·.2), it.PxaOk := by
      intro it hit
      obtain ⟨x, hx, rfl⟩ := List.mem_map.mp hit
      have hl := hc.2 x hx
      cases hx2 : x.2 with
      | str s =>
        refine ⟨fun e => hne x hx (by rw [hx2, e]), fun _ h0 => ?_⟩
        have : ∀ {l : List (Nat × Item)} {i j : Nat}, CoversPos code i l j → ∀ x ∈ l, ∀ s, x.2 = .str s →
            ∀ c ∈ s, c ∈ code := by
          intro l
          induction l with
          | nil => simp
          | cons y l ih =>
            intro i j h x hx s hs c hc
            rcases List.mem_cons.mp hx with e | e
            · subst e
              have := h.2.1
              rw [hs] at this
              exact List.mem_of_mem_drop (this.2.subset hc)
            · exact ih h.2.2 x e s hs c hc
        exact hnul (this hc.1 x hx s hx2 0 h0)
      | mat o c =>
        rw [hx2] at hl
        obtain ⟨_, a, _, _, b⟩ := hl
        have := a _ rfl
        have := b rfl (by simp [pxaOptParams])
        exact ⟨by omega, this⟩
    have hcov := hc.1.covers
    constructor
    · obtain ⟨b, e, _⟩ := C01_pxa_writer_total hcode hok hcov hlen
      exact ⟨b, by simp only [compressFull, Bool.or_true, if_true, hi', Bool.false_eq_true, if_false]; exact e⟩
    · intro fail b e hs tail
      simp only [compressFull, Bool.or_true, if_true, hi', Bool.false_eq_true, if_false] at e
      exact C01_pxa_roundtrip hcode hok hcov hlen e hs tail

/-- The hypotheses of `C01_compress_default_partial` are met. -/
example : pxaItems false [97, 98, 97, 98, 97, 98, 97, 99] =
    some [(0, .str [97]), (1, .str [98]), (2, .mat 2 5), (7, .str [99])] := by decide +kernel

/-! ### Whole compressor, legacy format -/

/-- **C06.** The whole legacy compressor in its default mode, on every NUL-free code: always succeeds when errors are not
fatal, and its result (followed by the zero padding) decompresses to the code. -/
theorem C06_compress_default_roundtrip {code : List Nat} (hcode : ∀ c ∈ code, c < 256) (hnul : 0 ∉ code)
    (hlen : code.length < 0x10000) :
    (∃ b, compressFull true false true false code = some b) ∧
    ∀ fail b, compressFull true fail true false code = some b →
      ∀ tail, uncompressCode (b ++ 0 :: 0 :: tail) = some code := by
  obtain ⟨out, h1, h2, h3⟩ := C02_cover (oldParams inOldTable false) (by simp [oldParams]) code
  have hc2 := lzLoop_c2 inOldTable (lzInit_pinv _ code []) ⟨by simp [lzInit], by simp [lzInit], by simp [lzInit]⟩ h1
  have hmem : ∀ {l : List (Nat × Item)} {i j : Nat}, CoversPos code i l j → ∀ x ∈ l, ∀ s, x.2 = .str s →
      ∀ c ∈ s, c ∈ code := by
    intro l
    induction l with
    | nil => simp
    | cons y l ih =>
      intro i j h x hx s hs c hc
      rcases List.mem_cons.mp hx with e | e
      · subst e
        have := h.2.1
        rw [hs] at this
        exact List.mem_of_mem_drop (this.2.subset hc)
      · exact ih h.2.2 x e s hs c hc
  have hok : ∀ it ∈ out.map (·.2), it.OldOk := by
    intro it hit
    obtain ⟨x, hx, rfl⟩ := List.mem_map.mp hit
    have hl := h3 x hx
    have hk := hc2 x hx
    cases hx2 : x.2 with
    | str s => exact ⟨hl.2 s hx2, fun h0 => hnul (hmem h2 x hx s hx2 0 h0)⟩
    | mat o c =>
      rw [hx2] at hl hk
      obtain ⟨⟨_, a, b, d, _⟩, _⟩ := hl
      exact ⟨a _ rfl, hk, b _ rfl, d rfl⟩
  have e : oldItems inOldTable false code = some out := h1
  constructor
  · obtain ⟨b, hb⟩ := C06_old_writer_total hcode hok h2.covers
    exact ⟨b, by simp only [compressFull, Bool.or_true, if_true, e]; exact hb⟩
  · intro fail b hb tail
    simp only [compressFull, Bool.or_true, if_true, e] at hb
    exact C06_old_roundtrip hcode hok h2.covers hlen hb tail

theorem coversPos_mem {code : List Nat} {l : List (Nat × Item)} {i j : Nat} (h : CoversPos code i l j) :
    ∀ x ∈ l, ∀ s, x.2 = .str s → ∀ c ∈ s, c ∈ code := by
  induction l generalizing i with
  | nil => simp
  | cons y l ih =>
    intro x hx s hs c hc
    rcases List.mem_cons.mp hx with e | e
    · subst e
      have := h.2.1
      rw [hs] at this
      exact List.mem_of_mem_drop (this.2.subset hc)
    · exact ih h.2.2 x e s hs c hc

theorem oldItems_fast_ok {code : List Nat} (hnul : 0 ∉ code) : ∃ items, oldItems inOldTable true code = some items ∧
    Covers code 0 (items.map (·.2)) ∧
    ((∀ x ∈ items, ∀ o, x.2 ≠ .mat o 1) → ∀ it ∈ items.map (·.2), it.OldOk) := by
  obtain ⟨items, h1, h2, h3⟩ := C02_cover (oldParams inOldTable true) (by simp [oldParams]) code
  refine ⟨items, h1, h2.covers, fun hone it hit => ?_⟩
  obtain ⟨x, hx, rfl⟩ := List.mem_map.mp hit
  have hl := h3 x hx
  have hk := hone x hx
  cases hx2 : x.2 with
  | str s => exact ⟨hl.2 s hx2, fun h0 => hnul (coversPos_mem h2 x hx s hx2 0 h0)⟩
  | mat o c =>
    rw [hx2] at hl hk
    obtain ⟨⟨g, a, b, d, _⟩, _⟩ := hl
    have : c ≠ 1 := fun hc => hk o (by rw [hc])
    exact ⟨a _ rfl, by omega, b _ rfl, d rfl⟩

theorem oldWriteItems_none {l : List Item} {o : Nat} (h : Item.mat o 1 ∈ l) : oldWriteItems l = none := by
  induction l with
  | nil => simp at h
  | cons y l ih =>
    rcases List.mem_cons.mp h with e | e
    · subst e; simp [oldWriteItems, oldWriteItem, oldWriteMatch]
    · unfold oldWriteItems
      cases oldWriteItem y with
      | none => rfl
      | some a => simp [ih e]

/-- **C06.** In the fast legacy mode, whatever the compressor returns decompresses to the code. -/
theorem C06_compress_fast_roundtrip {code : List Nat} (hcode : ∀ c ∈ code, c < 256) (hnul : 0 ∉ code)
    (hlen : code.length < 0x10000) {fail : Bool} {b : List Nat} (hb : compressFull true fail true true code = some b)
    (tail : List Nat) : uncompressCode (b ++ 0 :: 0 :: tail) = some code := by
  obtain ⟨items, hi, hcov, hok⟩ := oldItems_fast_ok hnul
  simp only [compressFull, Bool.or_true, if_true, hi] at hb
  have hone : ∀ x ∈ items, ∀ o, x.2 ≠ .mat o 1 := by
    intro x hx o e
    have : oldWriteItems (items.map (·.2)) = none := oldWriteItems_none (List.mem_map.mpr ⟨x, hx, e⟩)
    simp [compressOld, this] at hb
  exact C06_old_roundtrip hcode (hok hone) hcov hlen hb tail

/-- **C06 (partial).** Full claim: the fast legacy mode never fails when errors are not fatal.  Proved: it does not when
the search emitted no one-character back-reference.  Missing: the search does emit such references, and the writer then
fails; see `C06_fast_crash_counterexample`. -/
theorem C06_compress_fast_total_partial {code : List Nat} (hcode : ∀ c ∈ code, c < 256) (hnul : 0 ∉ code)
    {items : List (Nat × Item)} (hi : oldItems inOldTable true code = some items)
    (hone : ∀ x ∈ items, ∀ o, x.2 ≠ .mat o 1) : ∃ b, compressFull true false true true code = some b := by
  obtain ⟨items', hi', hcov, hok⟩ := oldItems_fast_ok hnul
  rw [hi] at hi'
  simp at hi'; subst hi'
  obtain ⟨b, hb⟩ := C06_old_writer_total hcode (hok hone) hcov
  exact ⟨b, by simp only [compressFull, Bool.or_true, if_true, hi]; exact hb⟩

example : oldItems inOldTable true [97, 98, 99, 97, 98, 99, 100] =
    some [(0, .str [97]), (1, .str [98]), (2, .str [99]), (3, .mat 3 3), (6, .str [100])] := by decide +kernel

end Verif
