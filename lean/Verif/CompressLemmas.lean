import Verif.Compress
import Verif.PxaLemmas
/-! Helper lemmas for the legacy and raw layouts. -/
namespace Verif

/-- Items within the limits of the legacy format. -/
def Item.OldOk : Item → Prop
  | .str s => s.length = 1 ∧ 0 ∉ s
  | .mat o c => o ≤ 0xc3f ∧ 2 ≤ c ∧ c ≤ 17 ∧ c ≤ o

theorem oldTable_length : oldTable.length = 60 := by decide

theorem oldInv_lt (c : Nat) : oldInv c < 60 := by
  unfold oldInv
  cases h : oldTable.idxOf? (some c) with
  | none => simp
  | some i =>
    obtain ⟨h1, _⟩ := List.idxOf?_eq_some_iff.mp h
    simpa [oldTable_length] using h1

theorem oldTable_get_inv {c : Nat} (h : oldInv c > 0) : oldTable[oldInv c]? = some (some c) := by
  unfold oldInv at *
  cases h2 : oldTable.idxOf? (some c) with
  | none => rw [h2] at h; simp at h
  | some i =>
    obtain ⟨h3, h4, _⟩ := List.idxOf?_eq_some_iff.mp h2
    simp only [Option.getD_some]
    rw [List.getElem?_eq_getElem h3, h4]

theorem and_f (n : Nat) : n &&& 0xf = n % 16 := Nat.and_two_pow_sub_one_eq_mod n 4

theorem oldReadLoop_zero_ne {ch2 : Nat} (h : ch2 ≠ 0) (rest code : List Nat) :
    oldReadLoop (0 :: ch2 :: rest) code = oldReadLoop rest (code ++ [ch2]) := by
  cases ch2 with
  | zero => exact absurd rfl h
  | succ n => simp [oldReadLoop]

theorem oldReadLoop_lit {ch c : Nat} (h0 : ch ≠ 0) (h1 : ch ≤ 0x3b) (h2 : oldTable[ch]? = some (some c))
    (rest code : List Nat) : oldReadLoop (ch :: rest) code = oldReadLoop rest (code ++ [c]) := by
  cases ch with
  | zero => exact absurd rfl h0
  | succ n =>
    conv => lhs; unfold oldReadLoop
    simp only
    rw [if_pos h1, h2]

theorem oldReadLoop_mat {ch ch2 : Nat} (h1 : 0x3b < ch) (rest code code' : List Nat)
    (hle : (ch2 >>> 4) + 2 ≤ ((ch - 0x3c) <<< 4) + (ch2 &&& 0xf))
    (hc : copyLoop code (((ch - 0x3c) <<< 4) + (ch2 &&& 0xf)) ((ch2 >>> 4) + 2) = some code') :
    oldReadLoop (ch :: ch2 :: rest) code = oldReadLoop rest code' := by
  cases ch with
  | zero => omega
  | succ n =>
    conv => lhs; unfold oldReadLoop
    simp only
    rw [if_neg (by omega), if_pos hle, hc]

theorem oldWriteItem_read {code : List Nat} (hcode : ∀ c ∈ code, c < 256) {i : Nat} {it : Item} (hok : it.OldOk)
    (hat : ItemAt code i it) : ∃ bytes, oldWriteItem it = some bytes ∧ (∀ b ∈ bytes, b < 256) ∧ ∀ rest,
      oldReadLoop (bytes ++ rest) (code.take i) = oldReadLoop rest (code.take (i + it.length)) := by
  cases it with
  | mat o c =>
    obtain ⟨ho, hc2, hc17, hco⟩ := hok
    obtain ⟨ho1, hoi, hlen, hcopy⟩ := hat
    have e1 : o >>> 4 = o / 16 := Nat.shiftRight_eq_div_pow _ _
    have e2 := and_f o
    have e3 : (c - 2) <<< 4 = (c - 2) * 16 := Nat.shiftLeft_eq _ _
    have b1 : 0x3c + o / 16 < 256 := by omega
    have b2 : o % 16 + (c - 2) * 16 < 256 := by omega
    refine ⟨[0x3c + o / 16, o % 16 + (c - 2) * 16], ?_, by simp; omega, ?_⟩
    · simp [oldWriteItem, oldWriteMatch, u8, e1, e2, e3, b1, b2]; omega
    · intro rest
      have f1 : (o % 16 + (c - 2) * 16) >>> 4 + 2 = c := by rw [Nat.shiftRight_eq_div_pow]; omega
      have f2 : ((0x3c + o / 16 - 0x3c) <<< 4) + ((o % 16 + (c - 2) * 16) &&& 0xf) = o := by
        rw [Nat.shiftLeft_eq, and_f]; omega
      simp only [List.cons_append, List.nil_append]
      apply oldReadLoop_mat (by omega)
      · rw [f1, f2]; exact hco
      · rw [f1, f2]; exact copyLoop_spec code o ho1 i hoi c hlen hcopy
  | str s =>
    obtain ⟨h1, h0⟩ := hok
    obtain ⟨c, rfl⟩ := List.length_eq_one_iff.mp h1
    have hc0 : c ≠ 0 := fun h => h0 (by simp [h])
    have hc256 : c < 256 := hcode c (List.mem_of_mem_drop (hat.2.subset (by simp)))
    have htake : code.take i ++ [c] = code.take (i + 1) := by
      obtain ⟨t, ht⟩ := hat.2
      have hs : [c] = (code.drop i).take 1 := by rw [← ht]; simp
      conv => lhs; rw [hs]
      rw [List.take_add]
    by_cases hi : oldInv c > 0
    · have hlt := oldInv_lt c
      refine ⟨[oldInv c], ?_, by simp; omega, ?_⟩
      · simp only [oldWriteItem, oldWriteLiteral, u8]
        rw [if_pos hi, if_pos (by omega)]
      · intro rest
        simp only [List.cons_append, List.nil_append, Item.length, List.length_singleton]
        rw [oldReadLoop_lit (by omega) (by omega) (oldTable_get_inv hi), htake]
    · refine ⟨[0, c], ?_, by simp; omega, ?_⟩
      · simp only [oldWriteItem, oldWriteLiteral, u8]
        rw [if_neg hi, if_pos hc256]; rfl
      · intro rest
        simp only [List.cons_append, List.nil_append, Item.length, List.length_singleton]
        rw [oldReadLoop_zero_ne hc0, htake]

theorem oldWriteItems_read {code : List Nat} (hcode : ∀ c ∈ code, c < 256) {i : Nat} {items : List Item}
    (hok : ∀ it ∈ items, it.OldOk) (hcov : Covers code i items) :
    ∃ bytes, oldWriteItems items = some bytes ∧ (∀ b ∈ bytes, b < 256) ∧ ∀ rest,
      oldReadLoop (bytes ++ rest) (code.take i) = oldReadLoop rest code := by
  induction items generalizing i with
  | nil =>
    simp only [Covers] at hcov
    exact ⟨[], rfl, by simp, fun rest => by rw [hcov]; simp⟩
  | cons it its ih =>
    obtain ⟨hat, hcov'⟩ := hcov
    obtain ⟨b1, e1, l1, r1⟩ := oldWriteItem_read hcode (hok it (by simp)) hat
    obtain ⟨b2, e2, l2, r2⟩ := ih (fun x hx => hok x (by simp [hx])) hcov'
    refine ⟨b1 ++ b2, by simp [oldWriteItems, e1, e2], ?_, ?_⟩
    · intro b hb
      rcases List.mem_append.mp hb with h | h
      · exact l1 b h
      · exact l2 b h
    · intro rest
      rw [List.append_assoc, r1, r2]

theorem readBe16_be16 {n : Nat} (hn : n < 0x10000) (l : List Nat) : readBe16 (be16 n ++ l) = some (n, l) := by
  simp only [be16, List.cons_append, List.nil_append, readBe16, Option.some.injEq, Prod.mk.injEq, and_true]
  omega

/-- In the legacy layout the size loop walks exactly over what the decoder reads. -/
theorem oldSizeLoop_of_read (src code : List Nat) {out rest : List Nat} :
    oldReadLoop src code = some (out, rest) →
    ∃ n, oldSizeLoop src = some n ∧ n ≤ src.length ∧ rest = src.drop n ∧
      ∀ more, oldReadLoop (src.take n ++ more) code = some (out, more) := by
  fun_induction oldReadLoop src code with
  | case1 => simp
  | case2 => simp
  | case3 code rest' =>
    intro h
    simp only [Option.some.injEq, Prod.mk.injEq] at h
    obtain ⟨rfl, rfl⟩ := h
    exact ⟨2, by simp [oldSizeLoop], by simp, by simp, by simp [oldReadLoop]⟩
  | case4 code ch2 rest' hne ih =>
    intro h
    obtain ⟨n, h1, h2, h3, h4⟩ := ih h
    have hz : ch2 ≠ 0 := fun h0 => by subst h0; exact hne rfl
    refine ⟨n + 2, ?_, by simp; omega, by simpa using h3, ?_⟩
    · cases ch2 with
      | zero => exact absurd rfl hz
      | succ k => simp [oldSizeLoop, h1]
    · intro more
      simp only [List.take_succ_cons, List.cons_append]
      rw [oldReadLoop_zero_ne hz, h4]
  | case5 ch rest' code hz hle c hget ih =>
    intro h
    obtain ⟨n, h1, h2, h3, h4⟩ := ih h
    refine ⟨n + 1, ?_, by simp; omega, by simpa using h3, ?_⟩
    · cases ch with
      | zero => exact absurd rfl hz
      | succ k => unfold oldSizeLoop; simp [h1]; omega
    · intro more
      simp only [List.take_succ_cons, List.cons_append]
      rw [oldReadLoop_lit hz hle hget, h4]
  | case6 => simp
  | case7 => simp
  | case8 => simp
  | case9 ch code hz hle ch2 rest' count offset hco code' hcopy ih =>
    intro h
    obtain ⟨n, h1, h2, h3, h4⟩ := ih h
    refine ⟨n + 2, ?_, by simp; omega, by simpa using h3, ?_⟩
    · cases ch with
      | zero => omega
      | succ k => unfold oldSizeLoop; simp [h1]; omega
    · intro more
      simp only [List.take_succ_cons, List.cons_append]
      rw [oldReadLoop_mat (by omega) _ _ _ hco hcopy, h4]
  | case10 => simp

end Verif
