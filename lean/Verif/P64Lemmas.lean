import Verif.P64
import Verif.PtronLemmas
import Verif.TextLemmas
import Verif.Props.Url
namespace Verif.P64

open Verif.Ptron (Files Cart setFile endsSlash splitLast leStr)

theorem insertFile_perm (f : List Nat × Option (List Nat)) (files : Files) : (insertFile f files).Perm (f :: files) := by
  induction files with
  | nil => exact .refl _
  | cons g gs ih =>
    rw [insertFile]
    split
    · exact .refl _
    · exact (ih.cons g).trans (.swap f g gs)

theorem sortFiles_perm (files : Files) : (sortFiles files).Perm files := by
  induction files with
  | nil => exact .refl _
  | cons f fs ih => exact (insertFile_perm f _).trans (ih.cons f)

/-! ### Lines -/

theorem pieces_eq {s : List Nat} (h : 13 ∉ s) : pieces s = splitNl s := by
  induction s with
  | nil => rfl
  | cons c s ih =>
    have hc : c ≠ 13 := by rintro rfl; exact h (by simp)
    have hs : 13 ∉ s := fun h' => h (by simp [h'])
    rw [pieces, splitNl, ih hs]
    · by_cases h10 : c = 10
      · simp [h10]
      · simp only [hc, h10, or_self, if_false]
        cases splitNl s <;> rfl
    · intro cs e; exact absurd e hc

theorem splitLines_join {ls : List (List Nat)} (h : ls ≠ []) (hc : ∀ l ∈ ls, 13 ∉ l) :
    splitLines (joinNl ls ++ [10]) = ls.flatMap splitNl := by
  have hcr : 13 ∉ joinNl ls ++ [10] := by
    cases ls with
    | nil => simp [joinNl]
    | cons l ls =>
      rw [joinNl_flatMap]
      simp only [List.mem_append, List.mem_flatMap, List.mem_cons, List.not_mem_nil, or_false, not_or, not_exists,
        not_and]
      refine ⟨⟨hc l (by simp), fun x hx => ⟨by omega, hc x (by simp [hx])⟩⟩, by omega⟩
  unfold splitLines
  rw [pieces_eq hcr, splitNl_append, splitNl_joinNl h]
  simp [splitNl]

theorem splitNl_plain {l : List Nat} (h : 10 ∉ l) : splitNl l = [l] := by
  induction l with
  | nil => rfl
  | cons c l ih =>
    have hc : c ≠ 10 := by rintro rfl; exact h (by simp)
    rw [splitNl, ih (fun h' => h (by simp [h']))]
    simp [hc]

/-! ### Chunks -/

theorem chunk_nil (size : Nat) (h : 0 < size) : chunk size [] = [] := by
  unfold chunk
  rw [Nat.div_eq_of_lt (by simp; omega)]
  rfl

theorem chunk_cons {size : Nat} (h : 0 < size) {s : List Nat} (hs : s ≠ []) :
    chunk size s = s.take size :: chunk size (s.drop size) := by
  have hl : 0 < s.length := List.length_pos_iff.mpr hs
  have e : (s.length + size - 1) / size = ((s.drop size).length + size - 1) / size + 1 := by
    rw [List.length_drop]
    by_cases hle : size ≤ s.length
    · rw [← Nat.add_div_right _ h]; congr 1; omega
    · rw [show s.length - size = 0 by omega, show s.length + size - 1 = (s.length - 1) + size by omega,
        Nat.add_div_right _ h, Nat.div_eq_of_lt (show s.length - 1 < size by omega),
        Nat.div_eq_of_lt (show 0 + size - 1 < size by omega)]
  unfold chunk
  rw [e, List.range_succ_eq_map, List.map_cons, List.map_map]
  simp only [Nat.zero_mul, List.drop_zero, List.cons.injEq, true_and]
  apply List.map_congr_left
  intro k _
  simp [List.drop_drop, Nat.succ_mul, Nat.add_comm]

theorem chunk_flatten {size : Nat} (h : 0 < size) (s : List Nat) : (chunk size s).flatten = s := by
  induction hn : s.length using Nat.strongRecOn generalizing s with
  | _ n ih =>
    cases s with
    | nil => rw [chunk_nil size h]; rfl
    | cons c s =>
      rw [chunk_cons h (by simp), List.flatten_cons,
        ih _ (by rw [← hn, List.length_drop]; simp; omega) _ rfl, List.take_append_drop]

/-! ### Base64 -/

theorem b64Encode_alpha {data : List Nat} (h : ∀ b ∈ data, b < 256) :
    ∀ c ∈ b64Encode data, (b64Val c).isSome || c == 61 := by
  have key : ∀ n, n < 64 → ((b64Val (b64Char n)).isSome || b64Char n == 61) = true := fun n hn => by
    rw [(b64Val_char hn).1]; rfl
  fun_induction b64Encode data with
  | case1 a b c r ih =>
    have ha := h a (by simp); have hb := h b (by simp); have hc := h c (by simp)
    intro x hx
    simp only [List.mem_cons] at hx
    rcases hx with rfl | rfl | rfl | rfl | hx
    · exact key _ (by omega)
    · exact key _ (by omega)
    · exact key _ (by omega)
    · exact key _ (by omega)
    · exact ih (fun b hb => h b (by simp [hb])) x hx
  | case2 a b =>
    have ha := h a (by simp); have hb := h b (by simp)
    intro x hx
    simp only [List.mem_cons, List.not_mem_nil, or_false] at hx
    rcases hx with rfl | rfl | rfl | rfl
    · exact key _ (by omega)
    · exact key _ (by omega)
    · exact key _ (by omega)
    · rfl
  | case3 a =>
    have ha := h a (by simp)
    intro x hx
    simp only [List.mem_cons, List.not_mem_nil, or_false] at hx
    rcases hx with rfl | rfl | rfl | rfl
    · exact key _ (by omega)
    · exact key _ (by omega)
    · rfl
    · rfl
  | case4 => simp

theorem alpha_plain {c : Nat} (h : ((b64Val c).isSome || c == 61) = true) :
    b64Alt c = c ∧ 45 ≤ c ∧ c ≤ 122 ∧ c ≠ 0x3a := by
  have hlt : c < 123 := by
    apply Decidable.byContradiction
    intro hge
    have : b64Val c = none := by unfold b64Val; repeat rw [if_neg (by omega)]
    rw [this] at h
    simp at h; omega
  have : ∀ c : Fin 123, ((b64Val c.1).isSome || c.1 == 61) = true → b64Alt c.1 = c.1 ∧ 45 ≤ c.1 ∧ c.1 ≤ 122 ∧ c.1 ≠ 0x3a := by
    decide +kernel
  exact this ⟨c, hlt⟩ h

theorem lenient_lines {c : List Nat} {cs : List (List Nat)} {data : List Nat} (h : ∀ b ∈ data, b < 256)
    (e : c ++ cs.flatten = b64Encode data) : b64DecodeLenient (c ++ cs.flatMap fun l => 10 :: l) = some data := by
  have hall := b64Encode_alpha h
  have key : ∀ l : List Nat, (∀ x ∈ l, ((b64Val x).isSome || x == 61) = true) →
      ((l.map b64Alt).filter fun c => (b64Val c).isSome || c == 61) = l := by
    intro l hl
    have : l.map b64Alt = l := by
      conv => rhs; rw [← List.map_id l]
      exact List.map_congr_left fun x hx => (alpha_plain (hl x hx)).1
    rw [this, List.filter_eq_self]; exact hl
  unfold b64DecodeLenient
  have : (((c ++ cs.flatMap fun l => 10 :: l).map b64Alt).filter fun c => (b64Val c).isSome || c == 61) = c ++ cs.flatten := by
    rw [List.map_append, List.filter_append, key c (fun x hx => hall x (by rw [← e]; simp [hx]))]
    congr 1
    have hcs : ∀ l ∈ cs, ∀ x ∈ l, ((b64Val x).isSome || x == 61) = true := fun l hl x hx =>
      hall x (by rw [← e]; simp; exact Or.inr ⟨l, hl, hx⟩)
    clear e hall
    induction cs with
    | nil => rfl
    | cons l cs ih =>
      rw [List.flatMap_cons, List.map_append, List.filter_append, ih (fun l' hl' => hcs l' (by simp [hl'])),
        List.map_cons, List.filter_cons, if_neg (by decide), key l (hcs l (by simp))]
      rfl
  rw [this, e, C36_base64 h]

/-! ### Reading -/

theorem steps_append (raw : Bool) (s : State) (a b : List (List Nat)) :
    steps raw s (a ++ b) = (steps raw s a).bind fun s' => steps raw s' b := by
  induction a generalizing s with
  | nil => rfl
  | cons l a ih =>
    simp only [List.cons_append, steps, Option.bind_assoc]
    congr 1; funext s'; exact ih s'

/-- Lines that are not the start of a file are collected while a file is being read. -/
theorem steps_data {cart : Cart} {path : List Nat} {lines ls : List (List Nat)} (raw : Bool)
    (h : raw = true ∨ ∀ l ∈ ls, filePrefix.isPrefixOf l = false) :
    steps raw ⟨cart, some path, lines⟩ ls = some ⟨cart, some path, lines ++ ls⟩ := by
  induction ls generalizing lines with
  | nil => simp [steps]
  | cons l ls ih =>
    have h1 : (filePrefix.isPrefixOf l && !raw) = false := by
      rcases h with h | h
      · simp [h]
      · simp [h l (by simp)]
    rw [steps, step, h1]
    simp only [Bool.false_eq_true, if_false, reduceCtorEq, false_and, Option.bind_some]
    rw [ih (h.imp id fun h l' hl' => h l' (by simp [hl']))]
    simp

theorem byteStrip_tight {l : List Nat} (h1 : ∀ a, l.head? = some a → byteSpace a = false)
    (h2 : ∀ a, l.getLast? = some a → byteSpace a = false) : byteStrip l = l := by
  have e1 : l.dropWhile byteSpace = l := by
    cases l with
    | nil => rfl
    | cons a l => exact dropWhile_cons_of_neg' (h1 a rfl)
  unfold byteStrip
  rw [e1]
  have e2 : l.reverse.dropWhile byteSpace = l.reverse := by
    cases hr : l.reverse with
    | nil => rfl
    | cons a r =>
      refine dropWhile_cons_of_neg' (h2 a ?_)
      have : l = (a :: r).reverse := by rw [← hr, List.reverse_reverse]
      rw [this]; simp
  rw [e2, List.reverse_reverse]

end Verif.P64
