import Verif.Lz4
import Verif.Spec.Lz4
import Verif.CodeFormatLemmas
/-! Lemmas about the LZ4 reader and writer. -/
namespace Verif.Lz4
open Verif.Lz4Format
open Verif.CodeFormat (Copied)

theorem readSum_iff {r : List Nat} {s : Nat} {r' : List Nat} (hr : ∀ b ∈ r, b < 256) :
    readSum r = some (s, r') ↔ ∃ k x, x < 255 ∧ r = List.replicate k 255 ++ x :: r' ∧ s = 255 * k + x := by
  induction r generalizing s with
  | nil => simp [readSum]
  | cons v r ih =>
    have ih := fun s => ih (s := s) (fun b hb => hr b (List.mem_cons_of_mem _ hb))
    have hv := hr v (by simp)
    rw [readSum]
    split
    · rename_i hne
      constructor
      · intro h; simp at h; exact ⟨0, v, by omega, by simp [h.2], by omega⟩
      · rintro ⟨k, x, hx, e, hs⟩
        cases k with
        | zero => simp at e; simp [e, hs]
        | succ k => simp [List.replicate_succ] at e; omega
    · rename_i hv
      have hv : v = 255 := by omega
      subst hv
      constructor
      · intro h
        split at h
        · simp at h
        · rename_i s1 r1 h1
          simp at h
          obtain ⟨h2, h3⟩ := h
          subst h3
          obtain ⟨k, x, hx, e, hs⟩ := (ih s1).mp h1
          exact ⟨k + 1, x, hx, by simp [List.replicate_succ, e], by omega⟩
      · rintro ⟨k, x, hx, e, hs⟩
        cases k with
        | zero => simp at e; omega
        | succ k =>
          simp [List.replicate_succ] at e
          rw [(ih (255 * k + x)).mpr ⟨k, x, hx, e, rfl⟩]
          simp; omega

theorem readLen_iff {c n m : Nat} {r r' : List Nat} (hn : n < 16) (hr : ∀ b ∈ r, b < 256) :
    readLen (c + 15) (c + n) r = some (c + m, r') ↔ ∃ ext, Length m n ext ∧ r = ext ++ r' := by
  unfold readLen
  constructor
  · intro h
    split at h
    · split at h
      · simp at h
      · rename_i s r1 h1
        simp at h
        obtain ⟨h2, h3⟩ := h
        subst h3
        obtain ⟨k, x, hx, e, hs⟩ := (readSum_iff hr).mp h1
        refine ⟨List.replicate k 255 ++ [x], ?_, by simp [e]⟩
        have e1 : m = 15 + (255 * k + x) := by omega
        have e2 : n = 15 := by omega
        rw [e1, e2]
        exact .long k x hx
    · simp at h
      refine ⟨[], ?_, by simp [h.2]⟩
      rw [← h.1]
      exact .short (by omega)
  · rintro ⟨ext, h, e⟩
    cases h with
    | short h => rw [if_neg (by omega)]; simp [e]
    | long k x hx =>
      rw [if_pos rfl, (readSum_iff (s := 255 * k + x) (r' := r') hr).mpr ⟨k, x, hx, by simp [e], rfl⟩]
      simp; omega

theorem readLen_add {c n v : Nat} {r r' : List Nat} (h : readLen (c + 15) (c + n) r = some (v, r')) :
    ∃ m, v = c + m := by
  unfold readLen at h
  split at h
  · split at h
    · simp at h
    · simp at h; exact ⟨_, by rw [← h.1, Nat.add_assoc]⟩
  · simp at h; exact ⟨n, by omega⟩

theorem copyBack_eq {text : List Nat} {o n : Nat} (ho : 1 ≤ o) : copyBack text o n = copyLoop text o n := by
  induction n generalizing text with
  | zero => rfl
  | succ n ih =>
    rw [copyBack, copyLoop, backByte, if_neg (by omega)]
    by_cases hl : o ≤ text.length
    · rw [if_pos hl, if_pos hl]
      cases text[text.length - o]? with
      | none => rfl
      | some b => exact ih
    · rw [if_neg hl, if_neg hl]

theorem copyBack_zero {text text' : List Nat} {n : Nat} (hn : 1 ≤ n) : copyBack text 0 n = some text' ↔
    ∃ b, text.head? = some b ∧ text' = text ++ List.replicate n b := by
  have main : ∀ n (text : List Nat) b, text.head? = some b → copyBack text 0 n = some (text ++ List.replicate n b) := by
    intro n
    induction n with
    | zero => intro text b _; simp [copyBack]
    | succ n ih =>
      intro text b h
      rw [copyBack, backByte, if_pos rfl, ← List.head?_eq_getElem?, h]
      simp only
      rw [ih (text ++ [b]) b (by cases text <;> simp_all)]
      simp [List.replicate_succ]
  constructor
  · intro h
    cases e : text.head? with
    | none =>
      obtain ⟨m, rfl⟩ : ∃ m, n = m + 1 := ⟨n - 1, by omega⟩
      rw [copyBack, backByte, if_pos rfl, ← List.head?_eq_getElem?, e] at h
      simp at h
    | some b =>
      rw [main n text b e] at h
      exact ⟨b, rfl, by simpa using h.symm⟩
  · rintro ⟨b, h, e⟩
    rw [main n text b h, e]

theorem copyBack_iff {text text' : List Nat} {o n : Nat} (hn : 1 ≤ n) : copyBack text o n = some text' ↔
    if o = 0 then ∃ b, text.head? = some b ∧ text' = text ++ List.replicate n b else Copied text o n text' := by
  split
  · rename_i h; subst h; exact copyBack_zero hn
  · rw [copyBack_eq (by omega)]
    exact ⟨fun h => copyLoop_sound (by omega) hn h, copyLoop_complete⟩

theorem half_split {h : Nat} (hh : h < 256) : h >>> 4 < 16 ∧ h &&& 0xf < 16 ∧ h = 16 * (h >>> 4) + (h &&& 0xf) := by
  have e1 : h >>> 4 = h / 16 := Nat.shiftRight_eq_div_pow h 4
  have e2 : h &&& 0xf = h % 16 := Nat.and_two_pow_sub_one_eq_mod h 4
  omega

theorem half_join {l c : Nat} (hl : l < 16) (hc : c < 16) : (16 * l + c) >>> 4 = l ∧ (16 * l + c) &&& 0xf = c := by
  have e1 : (16 * l + c) >>> 4 = (16 * l + c) / 16 := Nat.shiftRight_eq_div_pow _ 4
  have e2 : (16 * l + c) &&& 0xf = (16 * l + c) % 16 := Nat.and_two_pow_sub_one_eq_mod _ 4
  omega

theorem _root_.Verif.Lz4Format.Length.nib {n h : Nat} {ext : List Nat} (hl : Length n h ext) : h < 16 := by cases hl <;> omega

theorem readMatch_iff {header : Nat} (hh : header < 256) {text r text' r' : List Nat} (hr : ∀ b ∈ r, b < 256) :
    readMatch header text r = some (text', r') ↔ ∃ lo hi ce count, Length count (header &&& 0xf) ce ∧
      r = lo :: hi :: (ce ++ r') ∧
      if lo + 256 * hi = 0 then ∃ b, text.head? = some b ∧ text' = text ++ List.replicate (4 + count) b
      else Copied text (lo + 256 * hi) (4 + count) text' := by
  have hn := (half_split hh).2.1
  constructor
  · intro h
    unfold readMatch at h
    split at h
    · rename_i lo hi r0
      have hr0 : ∀ b ∈ r0, b < 256 := fun b hb => hr b (by simp [hb])
      split at h
      · simp at h
      · rename_i v r1 h1
        obtain ⟨m, rfl⟩ := readLen_add (c := 4) (n := header &&& 0xf) h1
        obtain ⟨ext, hl, e⟩ := (readLen_iff (c := 4) hn hr0).mp h1
        split at h
        · simp at h
        · rename_i t h2
          simp at h
          obtain ⟨rfl, rfl⟩ := h
          exact ⟨lo, hi, ext, m, hl, by rw [e], (copyBack_iff (by omega)).mp h2⟩
    · simp at h
  · rintro ⟨lo, hi, ce, count, hl, e, hc⟩
    subst e
    have h1 : readLen (4 + 15) (4 + (header &&& 0xf)) (ce ++ r') = some (4 + count, r') :=
      (readLen_iff hn (fun b hb => hr b (by simp at hb ⊢; exact .inr (.inr hb)))).mpr ⟨ce, hl, rfl⟩
    have h2 := (copyBack_iff (text := text) (o := lo + 256 * hi) (n := 4 + count) (by omega)).mpr hc
    simp only [readMatch, h1, h2]

theorem readLoop_sound {fuel : Nat} {r text data : List Nat} (hr : ∀ b ∈ r, b < 256)
    (h : readLoop fuel r text = some data) : Loose text r data := by
  induction fuel generalizing r text with
  | zero =>
    cases r with
    | nil => simp [readLoop] at h; subst h; exact .done
    | cons => simp [readLoop] at h
  | succ fuel ih =>
    cases r with
    | nil => simp [readLoop] at h; subst h; exact .done
    | cons header r =>
      have hh := hr header (by simp)
      have hr1 : ∀ b ∈ r, b < 256 := fun b hb => hr b (by simp [hb])
      obtain ⟨a1, a2, a3⟩ := half_split hh
      rw [readLoop] at h
      split at h
      · simp at h
      · rename_i size r1 h1
        obtain ⟨le, hl, e⟩ := (readLen_iff (c := 0) a1 hr1).mp (by simpa using h1)
        split at h
        · simp at h
        · rename_i hlen
          have hll : (r1.take size).length = size := by simp; omega
          simp only at h
          split at h
          · rename_i hemp
            simp at h hemp
            subst h
            rw [a3, e]
            have : r1.take size = r1 := List.take_of_length_le (by omega)
            rw [this] at hll ⊢
            exact .last r1 _ _ le (by rw [hll]; simpa using hl) a2
          · split at h
            · simp at h
            · rename_i t r2 h2
              have hr2 : ∀ b ∈ r1.drop size, b < 256 := fun b hb =>
                hr1 b (by rw [e]; exact List.mem_append_right _ (List.mem_of_mem_drop hb))
              obtain ⟨lo, hi, ce, count, hc, e2, hcp⟩ := (readMatch_iff hh hr2).mp h2
              have hrec := ih (r := r2) (text := t) (fun b hb => hr2 b (by rw [e2]; simp [hb])) h
              have er : r = le ++ (r1.take size ++ (lo :: hi :: (ce ++ r2))) := by
                rw [← e2, List.take_append_drop]; exact e
              rw [a3, er]
              exact .seq (r1.take size) _ _ le ce lo hi count (by rw [hll]; simpa using hl) hc hcp hrec

theorem readLoop_complete {text r data : List Nat} (h : Loose text r data) (hr : ∀ b ∈ r, b < 256) :
    ∀ fuel, r.length ≤ fuel → readLoop fuel r text = some data := by
  induction h with
  | done => intro fuel _; cases fuel <;> rfl
  | @last text lits ln cn le hl hc =>
    intro fuel hf
    cases fuel with
    | zero => simp at hf
    | succ fuel =>
      have hln := hl.nib
      obtain ⟨b1, b2⟩ := half_join hln hc
      have h1 : readLen (0 + 15) (0 + ln) (le ++ lits) = some (0 + lits.length, lits) :=
        (readLen_iff hln (fun b hb => hr b (by simp at hb ⊢; exact .inr hb))).mpr ⟨le, hl, rfl⟩
      simp only [Nat.zero_add] at h1
      simp [readLoop, b1, h1]
  | @seq text text' bs data lits ln cn le ce lo hi count hl hc hcp hs ih =>
    intro fuel hf
    cases fuel with
    | zero => simp at hf
    | succ fuel =>
      have hln := hl.nib
      have hcn := hc.nib
      have hh := hr (16 * ln + cn) (by simp)
      obtain ⟨b1, b2⟩ := half_join hln hcn
      have h1 : readLen (0 + 15) (0 + ln) (le ++ (lits ++ (lo :: hi :: (ce ++ bs)))) =
          some (0 + lits.length, lits ++ (lo :: hi :: (ce ++ bs))) :=
        (readLen_iff hln (fun b hb => hr b (List.mem_cons_of_mem _ hb))).mpr ⟨le, hl, rfl⟩
      simp only [Nat.zero_add] at h1
      have hbs : ∀ b ∈ bs, b < 256 := fun b hb => hr b (by simp [hb])
      have h2 : readMatch (16 * ln + cn) (text ++ lits) (lo :: hi :: (ce ++ bs)) = some (text', bs) :=
        (readMatch_iff hh (fun b hb => hr b (by
          simp only [List.mem_cons, List.mem_append] at hb ⊢; exact .inr (.inr (.inr hb))))).mpr
          ⟨lo, hi, ce, count, by rw [b2]; exact hc, rfl, hcp⟩
      have h3 := ih hbs fuel (by simp at hf; omega)
      rw [readLoop, b1]
      simp only [h1]
      rw [if_neg (by simp)]
      simp [h2, h3]

/-! ### The writer -/

theorem writeSum_eq (v : Nat) : writeSum v = List.replicate (v / 255) 255 ++ [v % 255] := by
  fun_induction writeSum v with
  | case1 v byte h =>
    have : v < 255 := by omega
    have e : v / 255 = 0 := by omega
    have e2 : v % 255 = v := by omega
    have e3 : byte = v := by omega
    simp [e, e2, e3]
  | case2 v byte h ih =>
    have hb : byte = 255 := by omega
    rw [ih, hb]
    have hv : 255 ≤ v := by omega
    have e : v / 255 = (v - 255) / 255 + 1 := by omega
    have e2 : v % 255 = (v - 255) % 255 := by omega
    rw [e, e2, List.replicate_succ]; rfl

theorem length_write (n : Nat) : Length n (min n 0xf) (if n ≥ 0xf then writeSum (n - 0xf) else []) := by
  split
  · rename_i h
    have e : min n 0xf = 15 := by omega
    rw [writeSum_eq, e]
    have := Length.long ((n - 15) / 255) ((n - 15) % 255) (by omega)
    have e2 : 15 + (255 * ((n - 15) / 255) + (n - 15) % 255) = n := by omega
    rwa [e2] at this
  · have e : min n 0xf = n := by omega
    rw [e]; exact .short (by omega)

theorem header_eq (a b : Nat) : (min a 0xf ||| (min b 0xf <<< 4)) = 16 * min b 0xf + min a 0xf := by
  have h := Nat.shiftLeft_add_eq_or_of_lt (b := min a 0xf) (i := 4) (by omega) (min b 0xf)
  rw [Nat.or_comm, ← h, Nat.shiftLeft_eq]; omega

theorem writeBlock_seq {lits : List Nat} {o c : Nat} (ho : 1 ≤ o) (ho2 : o < 0x10000) (hc : 4 ≤ c) :
    ∃ b, writeBlock lits (some (o, c)) = some b ∧ SeqBytes ⟨lits, o, c⟩ b := by
  unfold writeBlock
  simp only [if_pos ho2, Option.some.injEq, exists_eq_left']
  refine ⟨_, _, _, _, length_write lits.length, hc, length_write (c - 4), ho, ho2, ?_⟩
  rw [header_eq]; simp

theorem writeBlock_last {lits : List Nat} : ∃ b, writeBlock lits none = some b ∧ LastBytes lits b := by
  unfold writeBlock
  simp only [Option.some.injEq, exists_eq_left']
  refine ⟨_, _, length_write lits.length, ?_⟩
  rw [header_eq]; simp

/-- Sequences written and what they mean: from the text so far to the text after them. -/
inductive Seqs : List Nat → List Seq → List Nat → List Nat → Prop
  | nil {text : List Nat} : Seqs text [] [] text
  | cons {text text' text'' : List Nat} {s : Seq} {ss : List Seq} {b bs : List Nat} (hb : SeqBytes s b)
      (h : Copied (text ++ s.lits) s.offset s.count text') (hs : Seqs text' ss bs text'') :
      Seqs text (s :: ss) (b ++ bs) text''

theorem Seqs.snoc {text ss bs text' : List _} (h : Seqs text ss bs text') {s : Seq} {b text'' : List Nat}
    (hb : SeqBytes s b) (hc : Copied (text' ++ s.lits) s.offset s.count text'') :
    Seqs text (ss ++ [s]) (bs ++ b) text'' := by
  induction h with
  | nil => simpa using Seqs.cons hb hc .nil
  | cons hb' h' _ ih => rw [List.append_assoc]; exact .cons hb' h' (ih hc)

theorem Seqs.block {text ss bs text' : List _} (h : Seqs text ss bs text') {lits b : List Nat} (hb : LastBytes lits b) :
    BlockBytes ss lits (bs ++ b) ∧ Means text ss lits (text' ++ lits) := by
  induction h with
  | nil => exact ⟨.last hb, .last⟩
  | cons hb' h' _ ih => rw [List.append_assoc]; exact ⟨.seq hb' ih.1, .seq h' ih.2⟩

/-- The writer's invariant at position `i`. -/
def WInv (data : List Nat) (i : Nat) (s : WState) : Prop :=
  ∃ ss t, Seqs [] ss s.out t ∧ t ++ s.lits = data.take i ∧ i ≤ data.length ∧
    ∀ q, ss.getLast? = some q → t.length + 5 ≤ data.length ∧ t.length + 12 ≤ data.length + q.count

theorem copied_take {data : List Nat} {i o c : Nat} (ho : 1 ≤ o) (hi : o ≤ i) (hl : i + c ≤ data.length)
    (h : ∀ k, k < c → data[i + k]? = data[i + k - o]?) : Copied (data.take i) o c (data.take (i + c)) := by
  have e : (data.take i).length = i := by simp; omega
  have e2 : (data.take (i + c)).length = i + c := by simp; omega
  refine ⟨ho, by omega, List.take_prefix_take_left (by omega), by omega, fun k hk hk2 => ?_⟩
  rw [List.getElem?_take_of_lt (by omega), List.getElem?_take_of_lt (by omega)]
  have := h (k - i) (by omega)
  rwa [show i + (k - i) = k by omega] at this

theorem take_slice (data : List Nat) (i c : Nat) : data.take i ++ slice data i c = data.take (i + c) := by
  rw [slice, List.take_add]

theorem writeItem_inv {data : List Nat} {i : Nat} {s : WState} {it : Item} (h : WInv data i s) (hat : ItemAt data i it)
    (hlim : ItemLimits 4 none (some 0xffff) false it) :
    ∃ s', writeItem data s (i, it) = some s' ∧ WInv data (i + it.length) s' := by
  obtain ⟨ss, t, hs, hl, hi, hend⟩ := h
  cases it with
  | str l =>
    refine ⟨_, rfl, ss, t, hs, ?_, ?_, hend⟩
    · have : l = (data.drop i).take l.length := List.prefix_iff_eq_take.mp hat.2
      show t ++ (s.lits ++ l) = data.take (i + l.length)
      rw [← List.append_assoc, hl, List.take_add, ← this]
    · have := hat.2.length_le
      simp only [List.length_drop] at this
      show i + l.length ≤ data.length
      have := hat.1
      omega
  | mat o c =>
    obtain ⟨ho, hoi, hic, hcopy⟩ := hat
    obtain ⟨_, hmo, _, _, hmc⟩ := hlim
    have ho2 := hmo _ rfl
    have hc4 := hmc rfl (by simp)
    simp only [writeItem, Item.length]
    split
    · rename_i h12
      split
      · rename_i h5
        obtain ⟨b, hb, hbs⟩ := writeBlock_seq (lits := s.lits) ho (by omega : o < 0x10000) hc4
        refine ⟨⟨[], s.out ++ b⟩, by simp [emit, hb], ss ++ [⟨s.lits, o, c⟩], data.take (i + c), ?_, by simp, by omega, ?_⟩
        · exact hs.snoc hbs (by simp only [hl]; exact copied_take ho hoi hic hcopy)
        · intro q hq
          simp at hq; subst hq
          simp; omega
      · rename_i h5
        rw [if_pos (by omega)]
        obtain ⟨b, hb, hbs⟩ := writeBlock_seq (lits := s.lits) (c := data.length - 5 - i) ho (by omega : o < 0x10000) (by omega)
        refine ⟨_, by simp [emit, hb]; rfl, ss ++ [⟨s.lits, o, data.length - 5 - i⟩], data.take (data.length - 5), ?_, ?_, by omega, ?_⟩
        · refine hs.snoc hbs ?_
          simp only [hl]
          have := copied_take (data := data) (i := i) (o := o) (c := data.length - 5 - i) ho hoi (by omega)
            (fun k hk => hcopy k (by omega))
          rwa [show i + (data.length - 5 - i) = data.length - 5 by omega] at this
        · show data.take (data.length - 5) ++ slice data (data.length - 5) (i + c - (data.length - 5)) = _
          rw [take_slice]; congr 1; omega
        · intro q hq
          simp at hq; subst hq
          simp; omega
    · refine ⟨_, rfl, ss, t, hs, ?_, hic, hend⟩
      show t ++ (s.lits ++ slice data i c) = _
      rw [← List.append_assoc, hl, take_slice]

theorem writeItems_inv {data : List Nat} {items : List (Nat × Item)} : ∀ {i : Nat} {s : WState}, WInv data i s →
    CoversPos data i items data.length → (∀ x ∈ items, ItemLimits 4 none (some 0xffff) false x.2) →
    ∃ s', writeItems data s items = some s' ∧ WInv data data.length s' := by
  induction items with
  | nil => intro i s h hc _; cases hc; exact ⟨s, rfl, h⟩
  | cons x xs ih =>
    intro i s h hc hl
    obtain ⟨rfl, hat, hcov⟩ := hc
    obtain ⟨s', e, h'⟩ := writeItem_inv h hat (hl x (by simp))
    obtain ⟨s2, e2, h2⟩ := ih h' hcov (fun y hy => hl y (by simp [hy]))
    exact ⟨s2, by simp [writeItems, e, e2], h2⟩

/-! ### Blocks are read leniently -/

theorem loose_of_block {ss : List Seq} {lits bytes : List Nat} (h : BlockBytes ss lits bytes) :
    ∀ {text data : List Nat}, Means text ss lits data → Loose text bytes data := by
  induction h with
  | last h =>
    intro text data hm
    cases hm
    obtain ⟨ln, le, hl, rfl⟩ := h
    exact Loose.last _ ln 0 le hl (by omega)
  | @seq s ss lits b bs h hs ih =>
    intro text data hm
    cases hm with
    | seq hc hm =>
      obtain ⟨ln, le, cn, ce, hl, h4, hcl, ho, ho2, rfl⟩ := h
      have := Loose.seq s.lits ln cn le ce (s.offset % 256) (s.offset / 256) (s.count - 4) hl hcl
        (text := text) (by
          rw [if_neg (by omega), show s.offset % 256 + 256 * (s.offset / 256) = s.offset by omega,
            show 4 + (s.count - 4) = s.count by omega]
          exact hc) (ih hm)
      simpa using this

theorem length_bytes {n h : Nat} {ext : List Nat} (hl : Length n h ext) : ∀ b ∈ ext, b < 256 := by
  cases hl with
  | short => simp
  | long k r hr =>
    intro b hb
    simp at hb
    rcases hb with hb | hb <;> omega

theorem block_bytes {ss : List Seq} {lits bytes : List Nat} (h : BlockBytes ss lits bytes) (hl : ∀ b ∈ lits, b < 256)
    (hs : ∀ s ∈ ss, ∀ b ∈ s.lits, b < 256) : ∀ b ∈ bytes, b < 256 := by
  induction h with
  | last h =>
    obtain ⟨ln, le, hll, rfl⟩ := h
    have := hll.nib
    intro b hb
    simp only [List.mem_cons, List.mem_append] at hb
    rcases hb with rfl | hb | hb
    · omega
    · exact length_bytes hll b hb
    · exact hl b hb
  | @seq s ss lits b bs h hsq ih =>
    obtain ⟨ln, le, cn, ce, hll, h4, hcl, ho, ho2, rfl⟩ := h
    have := hll.nib
    have := hcl.nib
    intro b hb
    simp only [List.mem_cons, List.mem_append, List.not_mem_nil, or_false] at hb
    rcases hb with (rfl | ((hb | hb) | rfl | rfl) | hb) | hb
    · omega
    · exact length_bytes hll b hb
    · exact hs s (by simp) b hb
    · omega
    · omega
    · exact length_bytes hcl b hb
    · exact ih hl (fun s hs' => hs s (by simp [hs'])) b hb

theorem means_bytes {ss : List Seq} {lits text data : List Nat} (h : Means text ss lits data) (hd : ∀ b ∈ data, b < 256) :
    text <+: data ∧ (∀ b ∈ lits, b < 256) ∧ ∀ s ∈ ss, ∀ b ∈ s.lits, b < 256 := by
  induction h with
  | last => exact ⟨by simp, fun b hb => hd b (by simp [hb]), by simp⟩
  | seq h hs ih =>
    obtain ⟨i1, i2, i3⟩ := ih hd
    have hp := h.2.2.1.trans i1
    refine ⟨(List.prefix_append _ _).trans hp, i2, ?_⟩
    intro s' hs'
    rcases List.mem_cons.mp hs' with rfl | e
    · intro b hb; exact hd b (hp.subset (by simp [hb]))
    · exact i3 s' e

end Verif.Lz4
