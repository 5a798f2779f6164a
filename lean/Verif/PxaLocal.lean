import Verif.PxaLemmas
/-! The PXA decoder only looks at the bytes it consumes. -/
namespace Verif

/-- `f` reads a definite run of bytes from `r`, independent of what follows. -/
def Consumes {α : Type} (f : BitReader → Option (α × BitReader)) (r : BitReader) (v : α) (r' : BitReader) : Prop :=
  ∃ used, r.src = used ++ r'.src ∧ ∀ t, f ⟨used ++ t, r.bits, r.nbits⟩ = some (v, ⟨t, r'.bits, r'.nbits⟩)

theorem fill_local (r : BitReader) (n : Nat) {r' : BitReader} : r.fill n = some r' →
    ∃ used, r.src = used ++ r'.src ∧ ∀ t, BitReader.fill ⟨used ++ t, r.bits, r.nbits⟩ n = some ⟨t, r'.bits, r'.nbits⟩ := by
  fun_induction BitReader.fill r n with
  | case1 => simp
  | case2 r h b rest hs ih =>
    intro h2
    obtain ⟨used, e, f⟩ := ih h2
    refine ⟨b :: used, by rw [hs]; simpa using e, fun t => ?_⟩
    conv => lhs; unfold BitReader.fill
    simp only [List.cons_append]
    rw [if_pos h]
    exact f t
  | case3 r h =>
    intro h2; simp at h2; subst h2
    refine ⟨[], by simp, fun t => ?_⟩
    unfold BitReader.fill
    rw [if_neg h]; rfl

theorem readBits_local {r : BitReader} {n v : Nat} {r' : BitReader} (h : r.readBits n = some (v, r')) :
    Consumes (·.readBits n) r v r' := by
  unfold BitReader.readBits at h
  split at h
  · simp at h
  · rename_i r1 h1
    obtain ⟨used, e, f⟩ := fill_local _ _ h1
    simp at h
    obtain ⟨rfl, rfl⟩ := h
    exact ⟨used, by simpa using e, fun t => by unfold BitReader.readBits; simp only [f t]⟩

theorem readBit_local {r : BitReader} {v : Bool} {r' : BitReader} (h : r.readBit = some (v, r')) :
    Consumes (·.readBit) r v r' := by
  unfold BitReader.readBit at h
  split at h
  · simp at h
  · rename_i v1 r1 h1
    obtain ⟨used, e, f⟩ := readBits_local h1
    simp at h
    obtain ⟨rfl, rfl⟩ := h
    refine ⟨used, by simpa using e, fun t => ?_⟩
    have ft := f t
    simp only at ft
    simp only [BitReader.readBit]; rw [ft]

theorem readExtra_local (r : BitReader) (e : Nat) {v : Nat} {r' : BitReader} :
    readExtra r e = some (v, r') → Consumes (readExtra · e) r v r' := by
  fun_induction readExtra r e with
  | case1 => simp
  | case2 r e r1 h ih =>
    intro h2
    obtain ⟨u1, e1, f1⟩ := readBit_local h
    obtain ⟨u2, e2, f2⟩ := ih h2
    refine ⟨u1 ++ u2, by rw [e1, e2, List.append_assoc], fun t => ?_⟩
    have g1 := f1 (u2 ++ t)
    have g2 := f2 t
    simp only at g1 g2 ⊢
    rw [readExtra, List.append_assoc]
    split
    · rename_i h3; rw [g1] at h3; simp at h3
    · rename_i h3; rw [g1] at h3; simp at h3; subst h3; exact g2
    · rename_i h3; rw [g1] at h3; simp at h3
  | case3 r e r1 h =>
    intro h2
    simp at h2
    obtain ⟨rfl, rfl⟩ := h2
    obtain ⟨u1, e1, f1⟩ := readBit_local h
    refine ⟨u1, e1, fun t => ?_⟩
    have g1 := f1 t
    simp only at g1 ⊢
    rw [readExtra]
    split
    · rename_i h3; rw [g1] at h3; simp at h3
    · rename_i h3; rw [g1] at h3; simp at h3
    · rename_i h3; rw [g1] at h3; simp at h3; subst h3; rfl

theorem readBlock_local (r : BitReader) (c : List Nat) {v : List Nat} {r' : BitReader} :
    readBlock r c = some (v, r') → Consumes (readBlock · c) r v r' := by
  fun_induction readBlock r c with
  | case1 => simp
  | case2 r c ch r1 h hc ih =>
    intro h2
    obtain ⟨u1, e1, f1⟩ := readBits_local h
    obtain ⟨u2, e2, f2⟩ := ih h2
    refine ⟨u1 ++ u2, by rw [e1, e2, List.append_assoc], fun t => ?_⟩
    have g1 := f1 (u2 ++ t)
    have g2 := f2 t
    simp only at g1 g2 ⊢
    rw [readBlock, List.append_assoc]
    split
    · rename_i h3; rw [g1] at h3; simp at h3
    · rename_i h3; rw [g1] at h3; simp at h3; obtain ⟨rfl, rfl⟩ := h3
      rw [if_pos hc]; exact g2
  | case3 r c ch r1 h hc =>
    intro h2
    simp at h2
    obtain ⟨rfl, rfl⟩ := h2
    obtain ⟨u1, e1, f1⟩ := readBits_local h
    refine ⟨u1, e1, fun t => ?_⟩
    have g1 := f1 t
    simp only at g1 ⊢
    rw [readBlock]
    split
    · rename_i h3; rw [g1] at h3; simp at h3
    · rename_i h3; rw [g1] at h3; simp at h3; obtain ⟨rfl, rfl⟩ := h3
      rw [if_neg hc]

theorem readCount_local (r : BitReader) (c : Nat) {v : Nat} {r' : BitReader} :
    readCount r c = some (v, r') → Consumes (readCount · c) r v r' := by
  fun_induction readCount r c with
  | case1 => simp
  | case2 r c p r1 h hc =>
    intro h2
    simp at h2
    obtain ⟨rfl, rfl⟩ := h2
    obtain ⟨u1, e1, f1⟩ := readBits_local h
    refine ⟨u1, e1, fun t => ?_⟩
    have g1 := f1 t
    simp only at g1 ⊢
    rw [readCount]
    split
    · rename_i h3; rw [g1] at h3; simp at h3
    · rename_i h3; rw [g1] at h3; simp at h3; obtain ⟨rfl, rfl⟩ := h3
      rw [if_pos hc]
  | case3 r c p r1 h hc ih =>
    intro h2
    obtain ⟨u1, e1, f1⟩ := readBits_local h
    obtain ⟨u2, e2, f2⟩ := ih h2
    refine ⟨u1 ++ u2, by rw [e1, e2, List.append_assoc], fun t => ?_⟩
    have g1 := f1 (u2 ++ t)
    have g2 := f2 t
    simp only at g1 g2 ⊢
    rw [readCount, List.append_assoc]
    split
    · rename_i h3; rw [g1] at h3; simp at h3
    · rename_i h3; rw [g1] at h3; simp at h3; obtain ⟨rfl, rfl⟩ := h3
      rw [if_neg hc]; exact g2

theorem readItem_local {r : BitReader} {mtf code : List Nat} {r' : BitReader} {m' c' : List Nat}
    (h : readItem r mtf code = some (r', m', c')) :
    ∃ used, r.src = used ++ r'.src ∧ ∀ t,
      readItem ⟨used ++ t, r.bits, r.nbits⟩ mtf code = some (⟨t, r'.bits, r'.nbits⟩, m', c') := by
  unfold readItem at h
  split at h
  · simp at h
  · rename_i r1 h1
    obtain ⟨u1, e1, f1⟩ := readBit_local h1
    split at h
    · simp at h
    · rename_i extra r2 h2
      obtain ⟨u2, e2, f2⟩ := readExtra_local _ _ h2
      split at h
      · simp at h
      · rename_i v r3 h3
        obtain ⟨u3, e3, f3⟩ := readBits_local h3
        simp only at h
        split at h
        · simp at h
        · rename_i ch h4
          simp at h
          obtain ⟨rfl, rfl, rfl⟩ := h
          refine ⟨u1 ++ u2 ++ u3, by rw [e1, e2, e3]; simp, fun t => ?_⟩
          have g1 := f1 (u2 ++ (u3 ++ t))
          have g2 := f2 (u3 ++ t)
          have g3 := f3 t
          simp only at g1 g2 g3
          unfold readItem
          simp only [List.append_assoc, g1, g2, g3, h4]
  · rename_i r1 h1
    obtain ⟨u1, e1, f1⟩ := readBit_local h1
    split at h
    · simp at h
    · rename_i offlen r2 h2
      have hloc : Consumes readOfflen r1 offlen r2 := by
        unfold readOfflen at h2
        split at h2
        · simp at h2
        · rename_i r3 h3
          simp at h2; obtain ⟨rfl, rfl⟩ := h2
          obtain ⟨u, e, f⟩ := readBit_local h3
          refine ⟨u, e, fun t => ?_⟩
          have g := f t
          simp only at g
          unfold readOfflen
          rw [g]
        · rename_i r3 h3
          obtain ⟨u, e, f⟩ := readBit_local h3
          split at h2
          · simp at h2
          · rename_i b r4 h4
            simp at h2; obtain ⟨rfl, rfl⟩ := h2
            obtain ⟨u', e', f'⟩ := readBit_local h4
            refine ⟨u ++ u', by rw [e, e']; simp, fun t => ?_⟩
            have g := f (u' ++ t)
            have g' := f' t
            simp only at g g'
            unfold readOfflen
            rw [List.append_assoc, g]
            simp only [g']
      obtain ⟨u2, e2, f2⟩ := hloc
      split at h
      · simp at h
      · rename_i v r3 h3
        obtain ⟨u3, e3, f3⟩ := readBits_local h3
        simp only at h
        split at h
        · rename_i hc
          split at h
          · rename_i hc2
            split at h
            · simp at h
            · rename_i c4 r4 h4
              obtain ⟨u4, e4, f4⟩ := readBlock_local _ _ h4
              simp at h
              obtain ⟨rfl, rfl, rfl⟩ := h
              refine ⟨u1 ++ u2 ++ u3 ++ u4, by rw [e1, e2, e3, e4]; simp, fun t => ?_⟩
              have g1 := f1 (u2 ++ (u3 ++ (u4 ++ t)))
              have g2 := f2 (u3 ++ (u4 ++ t))
              have g3 := f3 (u4 ++ t)
              have g4 := f4 t
              simp only at g1 g2 g3 g4
              unfold readItem
              simp only [List.append_assoc, g1, g2, g3, g4]
              rw [if_pos hc, if_pos hc2]
          · simp at h
        · rename_i hc
          split at h
          · simp at h
          · rename_i c4 r4 h4
            obtain ⟨u4, e4, f4⟩ := readCount_local _ _ h4
            split at h
            · simp at h
            · rename_i c5 h5
              simp at h
              obtain ⟨rfl, rfl, rfl⟩ := h
              refine ⟨u1 ++ u2 ++ u3 ++ u4, by rw [e1, e2, e3, e4]; simp, fun t => ?_⟩
              have g1 := f1 (u2 ++ (u3 ++ (u4 ++ t)))
              have g2 := f2 (u3 ++ (u4 ++ t))
              have g3 := f3 (u4 ++ t)
              have g4 := f4 t
              simp only at g1 g2 g3 g4
              unfold readItem
              simp only [List.append_assoc, g1, g2, g3, g4, h5]
              rw [if_neg hc]

theorem readItems_local (r : BitReader) (mtf code : List Nat) (n : Nat) {v : List Nat} {r' : BitReader} :
    readItems r mtf code n = some (v, r') → Consumes (readItems · mtf code n) r v r' := by
  fun_induction readItems r mtf code n with
  | case1 => simp
  | case2 r mtf code hlt r1 m1 c1 h ih =>
    intro h2
    obtain ⟨u1, e1, f1⟩ := readItem_local h
    obtain ⟨u2, e2, f2⟩ := ih h2
    refine ⟨u1 ++ u2, by rw [e1, e2, List.append_assoc], fun t => ?_⟩
    have g1 := f1 (u2 ++ t)
    have g2 := f2 t
    simp only at g2 ⊢
    rw [readItems, if_pos hlt, List.append_assoc]
    split
    · rename_i h3; rw [g1] at h3; simp at h3
    · rename_i h3; rw [g1] at h3; simp at h3; obtain ⟨rfl, rfl, rfl⟩ := h3; exact g2
  | case3 r mtf code hlt =>
    intro h2
    simp at h2
    obtain ⟨rfl, rfl⟩ := h2
    refine ⟨[], by simp, fun t => ?_⟩
    simp only
    rw [readItems, if_neg hlt]; rfl

/-- The PXA decoder reads exactly the number of bytes announced in the size field. -/
theorem uncompressNew_local {src code rest : List Nat} (h : uncompressNew src = some (code, rest)) :
    ∃ used u c, src = used ++ rest ∧ 4 ≤ used.length ∧ readBe16 src = some (u, src.drop 2) ∧
      readBe16 (src.drop 2) = some (c, src.drop 4) ∧ c = 4 + used.length ∧
      ∀ t, uncompressNew (used ++ t) = some (code, t) := by
  match src, h with
  | [], h => simp [uncompressNew, readBe16] at h
  | [a], h => simp [uncompressNew, readBe16] at h
  | [a, b], h => simp [uncompressNew, readBe16] at h
  | [a, b, c], h => simp [uncompressNew, readBe16] at h
  | a :: b :: c :: d :: s, h =>
    simp only [uncompressNew, readBe16] at h
    split at h
    · simp at h
    · rename_i code' r hr
      split at h
      · rename_i hc
        simp at h
        obtain ⟨rfl, rfl⟩ := h
        obtain ⟨u, e, f⟩ := readItems_local _ _ _ _ hr
        have e' : s = u ++ r.src := by simpa [BitReader.init] using e
        refine ⟨a :: b :: c :: d :: u, a * 256 + b, c * 256 + d, by simp [e'], by simp, rfl, rfl, ?_, ?_⟩
        · have := hc.1; rw [e'] at this; simp at this ⊢; omega
        · intro t
          have g := f t
          simp only [BitReader.init] at g
          simp only [uncompressNew, readBe16, List.cons_append, BitReader.init]
          rw [g]
          simp only
          rw [if_pos]
          have h1 := hc.1
          rw [e'] at h1
          refine ⟨?_, hc.2⟩
          simp at h1 ⊢; omega
      · simp at h

end Verif
