import Verif.Url
import Verif.Props.Rom
import Verif.P8SourceLemmas
import Verif.NumLemmas
/-! C36, C37: cart URLs and clipboard text. -/
namespace Verif

theorem b64Val_char {n : Nat} (h : n < 64) : b64Val (b64Char n) = some n ∧ b64Char n ≠ 61 ∧ b64Char n ≠ 38 ∧ b64Char n ≠ 63 := by
  have : ∀ n : Fin 64, b64Val (b64Char n) = some n.1 ∧ b64Char n ≠ 61 ∧ b64Char n ≠ 38 ∧ b64Char n ≠ 63 := by decide +kernel
  exact this ⟨n, h⟩

/-- **C36 (base64).** Any bytes come back from the URL form of base64. -/
theorem C36_base64 {data : List Nat} (h : ∀ b ∈ data, b < 256) : b64Decode (b64Encode data) = some data := by
  fun_induction b64Encode data with
  | case1 a b c r ih =>
    have ha := h a (by simp); have hb := h b (by simp); have hc := h c (by simp)
    have v1 := b64Val_char (n := a / 4) (by omega)
    have v2 := b64Val_char (n := a % 4 * 16 + b / 16) (by omega)
    have v3 := b64Val_char (n := b % 16 * 4 + c / 64) (by omega)
    have v4 := b64Val_char (n := c % 64) (by omega)
    rw [b64Decode, if_neg v4.2.1, v1.1, v2.1, v3.1, v4.1, ih fun x hx => h x (by simp [hx])]
    simp only [Option.some.injEq, List.cons.injEq, and_true]
    omega
  | case2 a b =>
    have ha := h a (by simp); have hb := h b (by simp)
    have v1 := b64Val_char (n := a / 4) (by omega)
    have v2 := b64Val_char (n := a % 4 * 16 + b / 16) (by omega)
    have v3 := b64Val_char (n := b % 16 * 4) (by omega)
    rw [b64Decode, if_pos rfl, if_neg (by simp), if_neg v3.2.1, v1.1, v2.1, v3.1]
    simp only [Option.some.injEq, List.cons.injEq, and_true]
    omega
  | case3 a =>
    have ha := h a (by simp)
    have v1 := b64Val_char (n := a / 4) (by omega)
    have v2 := b64Val_char (n := a % 4 * 16) (by omega)
    rw [b64Decode, if_pos rfl, if_neg (by simp), if_pos rfl, v1.1, v2.1]
    simp only [Option.some.injEq, List.cons.injEq, and_true]
    omega
  | case4 => rfl

theorem b64Encode_chars {data : List Nat} (h : ∀ b ∈ data, b < 256) : ∀ c ∈ b64Encode data, c ≠ 38 ∧ c ≠ 63 := by
  fun_induction b64Encode data with
  | case1 a b c r ih =>
    have ha := h a (by simp); have hb := h b (by simp); have hc := h c (by simp)
    intro x hx
    simp only [List.mem_cons] at hx
    rcases hx with rfl | rfl | rfl | rfl | hx
    · exact (b64Val_char (by omega)).2.2
    · exact (b64Val_char (by omega)).2.2
    · exact (b64Val_char (by omega)).2.2
    · exact (b64Val_char (by omega)).2.2
    · exact ih (fun x hx => h x (by simp [hx])) x hx
  | case2 a b =>
    have ha := h a (by simp); have hb := h b (by simp)
    intro x hx
    simp only [List.mem_cons, List.not_mem_nil, or_false] at hx
    rcases hx with rfl | rfl | rfl | rfl
    · exact (b64Val_char (by omega)).2.2
    · exact (b64Val_char (by omega)).2.2
    · exact (b64Val_char (by omega)).2.2
    · omega
  | case3 a =>
    have ha := h a (by simp)
    intro x hx
    simp only [List.mem_cons, List.not_mem_nil, or_false] at hx
    rcases hx with rfl | rfl | rfl | rfl
    · exact (b64Val_char (by omega)).2.2
    · exact (b64Val_char (by omega)).2.2
    · omega
    · omega
  | case4 => simp

theorem b64Encode_nil {data : List Nat} : b64Encode data = [] ↔ data = [] := by
  fun_cases b64Encode data <;> simp

/-! ### The graphics -/

/-- Putting a list of pixels, one after the other. -/
def putAll : List Nat → Nat → List Nat → Option (List Nat)
  | [], _, rom => some rom
  | c :: cs, k, rom => if k < 16384 then (set4 rom (pixelAddr k) c).bind (putAll cs (k + 1)) else none

theorem putRun_eq (c : Nat) : ∀ n k rom, putRun c n k rom = putAll (List.replicate n c) k rom
  | 0, k, rom => rfl
  | n + 1, k, rom => by
    rw [putRun, List.replicate_succ, putAll]
    have : putRun c n (k + 1) = putAll (List.replicate n c) (k + 1) := funext fun rom => putRun_eq c n (k + 1) rom
    rw [this]

theorem putAll_append : ∀ (l m : List Nat) k rom, putAll (l ++ m) k rom = (putAll l k rom).bind (putAll m (k + l.length))
  | [], m, k, rom => by simp [putAll]
  | c :: l, m, k, rom => by
    rw [List.cons_append, putAll, putAll]
    split
    · cases set4 rom (pixelAddr k) c with
      | none => rfl
      | some r =>
        simp only [Option.bind_some]
        rw [putAll_append l m (k + 1) r, List.length_cons]
        congr 2
        omega
    · rfl

theorem readGfx_run {c : Nat} (hc : c < 16) (t : Nat) : ∀ rest k rom,
    readGfx (emitRun c t ++ rest) k rom = (putAll (List.replicate t c) k rom).bind (readGfx rest (k + t)) := by
  fun_induction emitRun c t with
  | case1 => intro rest k rom; simp [putAll]
  | case2 t ht count ih =>
    intro rest k rom
    have hcount : 1 ≤ count ∧ count ≤ 67 ∧ count ≤ t := by simp only [count]; omega
    have v1 := b64Val_char (n := min (count - 1) 3 * 16 + c) (by omega)
    rw [List.cons_append, readGfx.eq_def]
    simp only [v1.1]
    have e1 : (min (count - 1) 3 * 16 + c) % 16 = c := by omega
    have e2 : (min (count - 1) 3 * 16 + c) / 16 = min (count - 1) 3 := by omega
    rw [e1, e2]
    have split_rep : List.replicate t c = List.replicate count c ++ List.replicate (t - count) c := by
      rw [List.replicate_append_replicate]; congr 1; omega
    have key : ∀ k, (putRun c count k rom).bind (readGfx (emitRun c (t - count) ++ rest) (k + count)) =
        (putAll (List.replicate t c) k rom).bind (readGfx rest (k + t)) := by
      intro k
      rw [split_rep, putAll_append, putRun_eq]
      cases putAll (List.replicate count c) k rom with
      | none => rfl
      | some r =>
        simp only [Option.bind_some]
        rw [ih rest (k + count) r, List.length_replicate]
        have : k + count + (t - count) = k + t := by omega
        rw [this]
    by_cases h4 : count ≥ 4
    · have v2 := b64Val_char (n := count - 4) (by omega)
      have e3 : min (count - 1) 3 + 1 = 4 := by omega
      rw [if_pos h4, if_pos e3]
      simp only [List.cons_append, List.nil_append, v2.1]
      have e4 : min (count - 1) 3 + 1 + (count - 4) = count := by omega
      rw [e4]
      exact key k
    · have e3 : min (count - 1) 3 + 1 = count := by omega
      rw [if_neg h4, e3, if_neg (by omega)]
      simp only [List.nil_append]
      exact key k

theorem takeWhile_rep (c : Nat) (l : List Nat) : l = List.replicate (l.takeWhile (· == c)).length c ++ l.drop (l.takeWhile (· == c)).length := by
  induction l with
  | nil => rfl
  | cons a l ih =>
    by_cases h : a = c
    · subst h
      rw [List.takeWhile_cons_of_pos (by simp), List.length_cons, List.replicate_succ, List.cons_append, List.drop_succ_cons, ← ih]
    · rw [List.takeWhile_cons_of_neg (by simpa using h)]; rfl

theorem readGfx_urlGfx (px : List Nat) : (∀ c ∈ px, c < 16) → ∃ keep n, px = keep ++ List.replicate n 0 ∧
    ∀ k rom, readGfx (urlGfx px) k rom = putAll keep k rom := by
  fun_induction urlGfx px with
  | case1 => exact fun _ => ⟨[], 0, rfl, fun k rom => rfl⟩
  | case2 cs n hn =>
    intro hc
    refine ⟨[], n + 1, ?_, fun k rom => rfl⟩
    have := takeWhile_rep 0 cs
    rw [show (List.takeWhile (fun x => x == 0) cs).length = n from rfl, hn, List.drop_length, List.append_nil] at this
    rw [List.replicate_succ, hn, ← this]; rfl
  | case3 c cs n hn h0 =>
    intro hc
    refine ⟨c :: cs, 0, by simp, fun k rom => ?_⟩
    have h1 := takeWhile_rep c cs
    rw [show (List.takeWhile (fun x => x == c) cs).length = n from rfl, hn, List.drop_length, List.append_nil] at h1
    have := readGfx_run (hc c (by simp)) (n + 1) [] k rom
    rw [List.append_nil] at this
    rw [this, List.replicate_succ, hn, ← h1]
    cases putAll (c :: cs) k rom <;> rfl
  | case4 c cs n hn ih =>
    intro hc
    have h1 := takeWhile_rep c cs
    rw [show (List.takeWhile (fun x => x == c) cs).length = n from rfl] at h1
    obtain ⟨keep, z, e1, e2⟩ := ih fun x hx => hc x (List.mem_cons_of_mem _ (List.mem_of_mem_drop hx))
    refine ⟨List.replicate (n + 1) c ++ keep, z, ?_, fun k rom => ?_⟩
    · rw [List.append_assoc, ← e1, List.replicate_succ, List.cons_append, ← h1]
    · rw [readGfx_run (hc c (by simp)), putAll_append, List.length_replicate]
      congr 1
      exact funext fun r => e2 _ r

theorem pixelAddr_inj {i j : Nat} (h : pixelAddr i = pixelAddr j) : i = j := by
  have := C12_sprite_addr_inj (Nat.mod_lt _ (by omega)) (Nat.mod_lt _ (by omega)) h
  omega

theorem pixelAddr_even (a : Nat) : pixelAddr (2 * a) = (a, false) ∧ pixelAddr (2 * a + 1) = (a, true) := by
  have e : ∀ n : Nat, n &&& 1 = n % 2 := fun n => Nat.and_two_pow_sub_one_eq_mod n 1
  unfold pixelAddr memSpriteAddr
  constructor
  · have h : 2 * a % 128 % 2 = 0 := by omega
    rw [e, h, Nat.shiftRight_eq_div_pow, Prod.mk.injEq]
    exact ⟨by omega, rfl⟩
  · have h : (2 * a + 1) % 128 % 2 = 1 := by omega
    rw [e, h, Nat.shiftRight_eq_div_pow, Prod.mk.injEq]
    exact ⟨by omega, rfl⟩

theorem pixelAddr_bound {k : Nat} (h : k < 16384) : (pixelAddr k).1 < 0x2000 := by
  unfold pixelAddr memSpriteAddr
  simp only [Nat.shiftRight_eq_div_pow]
  omega

theorem putAll_get : ∀ (l : List Nat) (k : Nat) (rom : List Nat), IsMem rom → 0x2000 ≤ rom.length → k + l.length ≤ 16384 →
    ∃ r, putAll l k rom = some r ∧ IsMem r ∧ r.length = rom.length ∧
      (∀ j, k ≤ j → j < k + l.length → get4 r (pixelAddr j) = (l[j - k]?).map (· % 16)) ∧
      ∀ ix, (∀ j, k ≤ j → j < k + l.length → ix ≠ pixelAddr j) → get4 r ix = get4 rom ix
  | [], k, rom, hm, hl, hk => ⟨rom, rfl, hm, rfl, fun j h1 h2 => by simp at h2; omega, fun _ _ => rfl⟩
  | c :: l, k, rom, hm, hl, hk => by
    rw [List.length_cons] at hk
    have hb := pixelAddr_bound (k := k) (by omega)
    have H := C12_set4 rom hm (pixelAddr k).1 (pixelAddr k).2 c
    obtain ⟨m, hmm⟩ := Option.isSome_iff_exists.mp (H.1.mpr (by omega))
    obtain ⟨a1, a2, a3, a4⟩ := H.2 m hmm
    obtain ⟨r, b0, b1, b2, b3, b4⟩ := putAll_get l (k + 1) m a2 (by omega) (by omega)
    refine ⟨r, ?_, b1, by omega, ?_, ?_⟩
    · rw [putAll, if_pos (by omega)]
      change (set4 rom ((pixelAddr k).1, (pixelAddr k).2) c).bind _ = _
      rw [hmm]; exact b0
    · intro j h1 h2
      rw [List.length_cons] at h2
      by_cases hj : j = k
      · subst hj
        rw [b4 _ fun i h3 _ e => by have := pixelAddr_inj e; omega]
        simpa using a3
      · rw [b3 j (by omega) (by omega), show j - k = (j - (k + 1)) + 1 by omega, List.getElem?_cons_succ]
    · intro ix hix
      rw [b4 ix fun j h1 h2 => hix j (by omega) (by rw [List.length_cons]; omega)]
      exact a4 ix (hix k (by omega) (by rw [List.length_cons]; omega))

theorem byte_of_nybbles {m m' : List Nat} (hm : IsMem m) (hm' : IsMem m') {a : Nat} (h0 : get4 m (a, false) = get4 m' (a, false))
    (h1 : get4 m (a, true) = get4 m' (a, true)) : m[a]? = m'[a]? := by
  simp only [get4, get8Bits, get8, Bool.false_eq_true, if_false, if_true] at h0 h1
  cases hx : m[a]? with
  | none =>
    cases hy : m'[a]? with
    | none => rfl
    | some y => rw [hx, hy] at h0; simp at h0
  | some x =>
    cases hy : m'[a]? with
    | none => rw [hx, hy] at h0; simp at h0
    | some y =>
      rw [hx, hy] at h0 h1
      simp only [Option.map_some, Option.some.injEq] at h0 h1
      have e : ∀ n : Nat, n &&& 15 = n % 16 := fun n => Nat.and_two_pow_sub_one_eq_mod n 4
      rw [e, e, Nat.shiftRight_zero, Nat.shiftRight_zero] at h0
      rw [e, e, Nat.shiftRight_eq_div_pow, Nat.shiftRight_eq_div_pow] at h1
      have := hm x (List.mem_of_getElem? hx)
      have := hm' y (List.mem_of_getElem? hy)
      rw [Option.some.injEq]
      omega

theorem createRom_gfx {a : Nat} (h : a < 0x3100) : createRom[a]? = some 0 := by
  have step : ∀ m i, (createRomStep m i)[a]? = m[a]? := by
    intro m i
    simp only [createRomStep, List.range, List.range.loop, List.foldl_cons, List.foldl_nil, memSfxInfoAddr, memSfxAddr, memMusicAddr]
    rw [List.getElem?_set_ne (by omega), List.getElem?_set_ne (by omega), List.getElem?_set_ne (by omega), List.getElem?_set_ne (by omega),
      List.getElem?_set_ne (by omega)]
  have : ∀ (l : List Nat) m, (l.foldl createRomStep m)[a]? = m[a]? := by
    intro l
    induction l with
    | nil => exact fun _ => rfl
    | cons x l ih => intro m; rw [List.foldl_cons, ih, step]
  unfold createRom
  rw [this]
  exact List.getElem?_replicate_of_lt (by omega)

theorem url_mapM_some {α β : Type} {f : α → Option β} : ∀ {l : List α} {r : List β}, l.mapM f = some r →
    r.length = l.length ∧ ∀ i : Nat, (l[i]?).bind f = r[i]?
  | [], r, h => by simp at h; subst h; simp
  | a :: l, r, h => by
    rw [List.mapM_cons] at h
    cases ha : f a with
    | none => simp [ha] at h
    | some b =>
      cases hl : l.mapM f with
      | none => simp [ha, hl] at h
      | some t =>
        simp [ha, hl] at h
        subst h
        have := url_mapM_some hl
        refine ⟨by simp [this.1], fun i => ?_⟩
        cases i with
        | zero => simpa using ha
        | succ i => simpa using this.2 i

theorem pixels_get {rom px : List Nat} (h : pixels rom = some px) : px.length = 16384 ∧
    (∀ k, k < 16384 → get4 rom (pixelAddr k) = px[k]?) ∧ ∀ c ∈ px, c < 16 := by
  obtain ⟨h1, h2⟩ := url_mapM_some h
  rw [List.length_range] at h1
  have h3 : ∀ k, k < 16384 → get4 rom (pixelAddr k) = px[k]? := by
    intro k hk
    have := h2 k
    rw [List.getElem?_range hk] at this
    exact this
  refine ⟨h1, h3, fun c hc => ?_⟩
  obtain ⟨k, hk, e⟩ := List.getElem_of_mem hc
  have := h3 k (by omega)
  rw [List.getElem?_eq_getElem hk, e] at this
  unfold get4 get8Bits at this
  cases hg : get8 rom (pixelAddr k).1 with
  | none => rw [hg] at this; simp at this
  | some b =>
    rw [hg] at this
    simp only [Option.map_some, Option.some.injEq] at this
    rw [← this]
    have e : ∀ n : Nat, n &&& 15 = n % 16 := fun n => Nat.and_two_pow_sub_one_eq_mod n 4
    rw [e]; omega

/-- **C36 (graphics).** Decoding the graphics of any cart into a fresh cart gives exactly its sprite sheet, and leaves the rest of the fresh
ROM as it is. -/
theorem C36_gfx {rom px : List Nat} (hm : IsMem rom) (hl : rom.length = 0x4300) (h : pixels rom = some px) :
    ∃ r, readGfx (urlGfx px) 0 createRom = some r ∧ r.take 0x2000 = rom.take 0x2000 ∧ r.drop 0x2000 = createRom.drop 0x2000 := by
  obtain ⟨p1, p2, p3⟩ := pixels_get h
  obtain ⟨keep, n, e1, e2⟩ := readGfx_urlGfx px p3
  have hkl : keep.length + n = 16384 := by rw [← p1, e1]; simp
  obtain ⟨r, b0, b1, b2, b3, b4⟩ := putAll_get keep 0 createRom createRom_ok.1 (by rw [createRom_ok.2]; omega) (by omega)
  refine ⟨r, by rw [e2, b0], ?_, ?_⟩
  · have px_eq : ∀ j, j < 16384 → get4 r (pixelAddr j) = get4 rom (pixelAddr j) := by
      intro j hj
      rw [p2 j hj]
      by_cases hk : j < keep.length
      · rw [b3 j (by omega) (by omega), e1, List.getElem?_append_left hk, Nat.sub_zero, List.getElem?_eq_getElem hk, Option.map_some,
          Option.some.injEq]
        exact Nat.mod_eq_of_lt (p3 _ (by rw [e1]; exact List.mem_append_left _ (List.getElem_mem hk)))
      · rw [b4 _ fun i _ h2 e => by have := pixelAddr_inj e; omega, e1, List.getElem?_append_right (by omega),
          List.getElem?_replicate_of_lt (by omega)]
        unfold get4 get8Bits get8
        rw [createRom_gfx (by have := pixelAddr_bound hj; omega)]
        split <;> rfl
    apply List.ext_getElem?
    intro a
    by_cases ha : a < 0x2000
    · rw [List.getElem?_take_of_lt ha, List.getElem?_take_of_lt ha]
      apply byte_of_nybbles b1 hm
      · rw [← (pixelAddr_even a).1]; exact px_eq _ (by omega)
      · rw [← (pixelAddr_even a).2]; exact px_eq _ (by omega)
    · rw [List.getElem?_eq_none (by simp; omega), List.getElem?_eq_none (by simp; omega)]
  · apply List.ext_getElem?
    intro a
    rw [List.getElem?_drop, List.getElem?_drop]
    apply byte_of_nybbles b1 createRom_ok.1
    · apply b4
      intro j _ hj e
      have := pixelAddr_bound (k := j) (by omega)
      rw [← e] at this; simp only at this; omega
    · apply b4
      intro j _ hj e
      have := pixelAddr_bound (k := j) (by omega)
      rw [← e] at this; simp only at this; omega

/-! ### The text of the URL -/

theorem splitOnce_left {s : Nat} : ∀ {l : List Nat} (r : List Nat), s ∉ l → splitOnce s (l ++ s :: r) = some (l, r)
  | [], r, _ => by simp [splitOnce]
  | c :: l, r, h => by
    simp only [List.mem_cons, not_or] at h
    rw [List.cons_append, splitOnce, if_neg (Ne.symm h.1), splitOnce_left r h.2]; rfl

theorem splitChar_none {s : Nat} : ∀ {l : List Nat}, s ∉ l → splitChar s l = [l]
  | [], _ => rfl
  | c :: l, h => by
    simp only [List.mem_cons, not_or] at h
    rw [splitChar, if_neg (Ne.symm h.1), splitChar_none h.2]

theorem splitChar_left {s : Nat} : ∀ {l : List Nat} (r : List Nat), s ∉ l → splitChar s (l ++ s :: r) = l :: splitChar s r
  | [], r, _ => by simp [splitChar]
  | c :: l, r, h => by
    simp only [List.mem_cons, not_or] at h
    rw [List.cons_append, splitChar, if_neg (Ne.symm h.1), splitChar_left r h.2]

theorem emitRun_chars {c : Nat} (hc : c < 16) (t : Nat) : ∀ x ∈ emitRun c t, x ≠ 38 := by
  fun_induction emitRun c t with
  | case1 => simp
  | case2 t ht count ih =>
    have hcount : 1 ≤ count ∧ count ≤ 67 ∧ count ≤ t := by simp only [count]; omega
    intro x hx
    simp only [List.mem_cons, List.mem_append] at hx
    rcases hx with rfl | hx | hx
    · exact (b64Val_char (by omega)).2.2.1
    · split at hx
      · simp at hx; subst hx; exact (b64Val_char (by omega)).2.2.1
      · simp at hx
    · exact ih x hx

theorem urlGfx_chars (px : List Nat) : (∀ c ∈ px, c < 16) → ∀ x ∈ urlGfx px, x ≠ 38 := by
  fun_induction urlGfx px with
  | case1 => simp
  | case2 => simp
  | case3 c cs n hn h0 => exact fun hc x hx => emitRun_chars (hc c (by simp)) _ x hx
  | case4 c cs n hn ih =>
    intro hc x hx
    rcases List.mem_append.mp hx with hx | hx
    · exact emitRun_chars (hc c (by simp)) _ x hx
    · exact ih (fun x hx => hc x (List.mem_cons_of_mem _ (List.mem_of_mem_drop hx))) x hx

/-- **C36.** A URL that was written – for any prefix without a question mark, any bytes of code and any ROM – reads back as the code that the
decoder finds in these bytes, padded to the size of the code area, and as the same sprite sheet in an otherwise fresh cart. -/
theorem C36_roundtrip {pre raw rom url : List Nat} {maxLen : Nat} (hp : 63 ∉ pre) (hraw : ∀ b ∈ raw, b < 256) (hm : IsMem rom)
    (hl : rom.length = 0x4300) (h : writeUrl pre raw rom maxLen = some url) (dec : List Nat → Option (List Nat)) :
    url.length ≤ maxLen ∧ ∃ r, r.take 0x2000 = rom.take 0x2000 ∧ r.drop 0x2000 = createRom.drop 0x2000 ∧
      readUrl dec createRom url =
        (if raw = [] then some [] else dec (raw ++ List.replicate (0x3d00 - raw.length) 0)).map fun code => (code, r) := by
  unfold writeUrl at h
  cases hpx : pixels rom with
  | none => rw [hpx] at h; simp at h
  | some px =>
    rw [hpx] at h
    simp only at h
    split at h
    · rename_i hlen
      simp only [Option.some.injEq] at h
      refine ⟨by rw [← h]; exact hlen, ?_⟩
      obtain ⟨r, g1, g2, g3⟩ := C36_gfx hm hl hpx
      refine ⟨r, g2, g3, ?_⟩
      have hch := b64Encode_chars hraw
      have hamp : ∀ (l : List Nat), (∀ x ∈ l, x ≠ 38) → 38 ∉ l := fun l hl hx => hl _ hx rfl
      have e0 : url = (pre ++ [47]) ++ 63 :: (99 :: 61 :: b64Encode raw ++ (if urlGfx px = [] then [] else [38, 103, 61] ++ urlGfx px)) := by
        rw [← h]; simp [urlText, List.append_assoc]
      have codeRes : urlCode dec (some (b64Encode raw)) =
          (if raw = [] then some [] else dec (raw ++ List.replicate (0x3d00 - raw.length) 0)) := by
        unfold urlCode
        simp only [b64Encode_nil, C36_base64 hraw, Option.bind_some]
      unfold readUrl
      rw [e0, splitOnce_left _ (by simp [hp])]
      simp only
      by_cases hg : urlGfx px = []
      · have hno : 38 ∉ (99 :: 61 :: b64Encode raw ++ ([] : List Nat)) := by
          simp only [List.append_nil, List.mem_cons, not_or]
          exact ⟨by omega, by omega, hamp _ fun x hx => (hch x hx).1⟩
        rw [if_pos hg, splitChar_none hno]
        have hsp : splitOnce 61 (99 :: 61 :: b64Encode raw ++ ([] : List Nat)) = some ([99], b64Encode raw) := by
          have := splitOnce_left (s := 61) (l := [99]) (b64Encode raw) (by decide)
          simpa using this
        rw [urlParams, hsp]
        simp only [if_true, urlParams]
        rw [codeRes]
        rw [hg] at g1
        rw [readGfx] at g1
        simp only [Option.some.injEq] at g1
        rw [g1]
        cases (if raw = [] then some [] else dec (raw ++ List.replicate (0x3d00 - raw.length) 0)) <;> rfl
      · have hno : 38 ∉ (99 :: 61 :: b64Encode raw) := by
          simp only [List.mem_cons, not_or]
          exact ⟨by omega, by omega, hamp _ fun x hx => (hch x hx).1⟩
        have hno2 : 38 ∉ (103 :: 61 :: urlGfx px) := by
          simp only [List.mem_cons, not_or]
          exact ⟨by omega, by omega, hamp _ fun x hx => urlGfx_chars px (pixels_get hpx).2.2 x hx⟩
        rw [if_neg hg]
        have e1 : (99 :: 61 :: b64Encode raw ++ ([38, 103, 61] ++ urlGfx px)) = (99 :: 61 :: b64Encode raw) ++ 38 :: (103 :: 61 :: urlGfx px) := by simp
        rw [e1, splitChar_left _ hno, splitChar_none hno2]
        have hsp : splitOnce 61 (99 :: 61 :: b64Encode raw) = some ([99], b64Encode raw) :=
          splitOnce_left (s := 61) (l := [99]) (b64Encode raw) (by decide)
        have hsp2 : splitOnce 61 (103 :: 61 :: urlGfx px) = some ([103], urlGfx px) :=
          splitOnce_left (s := 61) (l := [103]) (urlGfx px) (by decide)
        rw [urlParams, hsp]
        simp only [if_true]
        rw [urlParams, hsp2]
        have hne : ¬ ([103] : List Nat) = [99] := by decide
        simp only [if_neg hne, if_true, urlParams]
        rw [codeRes, g1]
        cases (if raw = [] then some [] else dec (raw ++ List.replicate (0x3d00 - raw.length) 0)) <;> rfl
    · simp at h

/-- **C36 (writing).** Every cart can be written, unless its URL would be too long. -/
theorem C36_written {rom : List Nat} (hl : rom.length = 0x4300) (pre raw : List Nat) : ∃ url, ∀ maxLen,
    (url.length ≤ maxLen → writeUrl pre raw rom maxLen = some url) ∧ (maxLen < url.length → writeUrl pre raw rom maxLen = none) := by
  have : ∀ l : List Nat, (∀ k ∈ l, k < 16384) → ∃ px, (l.mapM fun k => get4 rom (pixelAddr k)) = some px := by
    intro l
    induction l with
    | nil => exact fun _ => ⟨[], rfl⟩
    | cons a l ih =>
      intro h
      obtain ⟨px, hpx⟩ := ih fun k hk => h k (List.mem_cons_of_mem _ hk)
      have hb := pixelAddr_bound (h a (by simp))
      have : get4 rom (pixelAddr a) = some ((rom[(pixelAddr a).1]'(by omega) >>> (if (pixelAddr a).2 then 4 else 0)) &&& 0xf) := by
        unfold get4 get8Bits get8
        rw [List.getElem?_eq_getElem (by omega)]; rfl
      exact ⟨_ :: px, by rw [List.mapM_cons, this, hpx]; rfl⟩
  obtain ⟨px, hpx⟩ := this (List.range 16384) fun k hk => List.mem_range.mp hk
  refine ⟨urlText pre raw (urlGfx px), fun maxLen => ?_⟩
  unfold writeUrl
  rw [show pixels rom = some px from hpx]
  exact ⟨fun h => by simp only [if_pos h], fun h => by simp only [if_neg (Nat.not_le.mpr h)]⟩

theorem urlGfx_black {px : List Nat} (h : ∀ c ∈ px, c = 0) : urlGfx px = [] := by
  cases px with
  | nil => rw [urlGfx]
  | cons c cs =>
    obtain rfl := h c (by simp)
    have e : ∀ l : List Nat, (∀ c ∈ l, c = 0) → l.takeWhile (· == 0) = l := by
      intro l
      induction l with
      | nil => exact fun _ => rfl
      | cons a l ih =>
        intro h
        rw [List.takeWhile_cons_of_pos (by rw [h a (by simp)]; rfl), ih fun c hc => h c (List.mem_cons_of_mem _ hc)]
    rw [urlGfx]
    simp only [e cs fun c hc => h c (List.mem_cons_of_mem _ hc), if_true]

theorem writeUrl_black {rom : List Nat} (hl : rom.length = 0x4300) (hz : ∀ a, a < 0x2000 → rom[a]? = some 0) :
    writeUrl [104] [1, 2, 255, 4] rom 13 = some [104, 47, 63, 99, 61, 65, 81, 76, 45, 66, 65, 61, 61] := by
  obtain ⟨url, h⟩ := C36_written hl [104] [1, 2, 255, 4]
  have h := (h url.length).1 (Nat.le_refl _)
  unfold writeUrl at h ⊢
  revert h
  cases hpx : pixels rom with
  | none => intro h; simp at h
  | some px =>
    intro _
    obtain ⟨p1, p2, _⟩ := pixels_get hpx
    have g : urlGfx px = [] := by
      apply urlGfx_black
      intro c hc
      obtain ⟨k, hk, e⟩ := List.getElem_of_mem hc
      have h1 := p2 k (by omega)
      unfold get4 get8Bits get8 at h1
      rw [hz _ (pixelAddr_bound (k := k) (by omega)), List.getElem?_eq_getElem hk, e] at h1
      simp only [Option.map_some, Option.some.injEq] at h1
      rw [← h1]
      split <;> rfl
    simp only [g]
    decide

/-- The URL of a fresh cart with four bytes of code, `h/?c=AQL-BA==`. -/
example : writeUrl [104] [1, 2, 255, 4] createRom 13 = some [104, 47, 63, 99, 61, 65, 81, 76, 45, 66, 65, 61, 61] :=
  writeUrl_black createRom_ok.2 fun _ h => createRom_gfx (by omega)
/-- A graphics run of each kind: long, the rest of it, single, double, and the black end left out. -/
example : b64Encode [1, 2, 255, 4] = [65, 81, 76, 45, 66, 65, 61, 61] ∧
    urlGfx (List.replicate 70 7 ++ [2, 3, 3] ++ List.replicate 9 0) = [51, 45, 110, 67, 84] := by
  refine ⟨by decide, ?_⟩
  simp [urlGfx, emitRun, b64Char]

/-- **C36 (end to end, fast compression).** The URL of a cart reads back as its code and its sprite sheet, for any code without NUL
characters – except the code `:c:`, which the padding turns into the header of a compressed code. -/
theorem C36_cart {c : PCart} {raw url pre : List Nat} {maxLen : Nat} (hp : 63 ∉ pre) (hcode : ∀ x ∈ c.code, x < 256) (hnul : 0 ∉ c.code)
    (hcol : c.code ≠ [0x3a, 0x63, 0x3a]) (hm : IsMem c.rom) (hl : c.rom.length = 0x4300)
    (ht : writeTinyRom (compressFull true true false true) false c = some raw) (hraw : ∀ b ∈ raw, b < 256)
    (h : writeUrl pre raw c.rom maxLen = some url) :
    ∃ r, readUrl uncompressCode createRom url = some (c.code, r) ∧ r.take 0x2000 = c.rom.take 0x2000 ∧
      r.drop 0x2000 = createRom.drop 0x2000 := by
  obtain ⟨_, r, h1, h2, h3⟩ := C36_roundtrip hp hraw hm hl h uncompressCode
  refine ⟨r, ?_, h1, h2⟩
  rw [h3]
  cases hc : compressFull true true false true c.code with
  | none => simp [writeTinyRom, hc] at ht
  | some b =>
    have hb := (C01_compress_fast_checked hcode).1 b hc
    unfold writeTinyRom at ht
    simp only [hc] at ht
    split at ht
    · rename_i hgt
      have he : raw = c.code := by
        unfold encodeP8 at ht; split at ht
        · simpa using ht.symm
        · simp at ht
      by_cases hr : raw = []
      · rw [if_pos hr, ← he, hr]; rfl
      · rw [if_neg hr, C07_raw_roundtrip (size := 0x3d00) ht hnul (by omega) _ (.inl hcol)]; rfl
    · simp at ht; subst ht
      by_cases hr : b = []
      · rw [if_pos hr]
        rename_i hle
        have hz := hb.1 []
        rw [hr] at hz
        have : uncompressCode ([] ++ []) = some [] := by decide
        rw [this] at hz
        simp only [Option.some.injEq] at hz
        rw [← hz]; rfl
      · rw [if_neg hr, hb.1]; rfl

/-- **C36 fails for the code `:c:`**: its URL cannot be read. -/
theorem C36_counterexample {rom url : List Nat} {maxLen : Nat} (hm : IsMem rom) (hl : rom.length = 0x4300)
    (h : writeUrl [] [0x3a, 0x63, 0x3a] rom maxLen = some url) :
    ∀ r, readUrl uncompressCode createRom url ≠ some ([0x3a, 0x63, 0x3a], r) := by
  intro r hr
  obtain ⟨_, r', _, _, h3⟩ := C36_roundtrip (by simp) (by simp) hm hl h uncompressCode
  rw [h3, if_neg (by simp)] at hr
  cases hd : uncompressCode ([0x3a, 0x63, 0x3a] ++ List.replicate (0x3d00 - [0x3a, 0x63, 0x3a].length) 0) with
  | none => rw [hd] at hr; simp at hr
  | some code =>
    rw [hd] at hr
    simp only [Option.map_some, Option.some.injEq, Prod.mk.injEq] at hr
    rw [hr.1] at hd
    revert hd
    decide +kernel

/-- **C36 (errors).** A URL without a question mark is rejected; so is any parameter other than `c` and `g`. -/
theorem C36_no_question {url : List Nat} (h : 63 ∉ url) (dec : List Nat → Option (List Nat)) (fresh : List Nat) : readUrl dec fresh url = none := by
  have : ∀ l : List Nat, 63 ∉ l → splitOnce 63 l = none := by
    intro l
    induction l with
    | nil => exact fun _ => rfl
    | cons c l ih =>
      intro h
      simp only [List.mem_cons, not_or] at h
      rw [splitOnce, if_neg (Ne.symm h.1), ih h.2]; rfl
  unfold readUrl
  rw [this url h]

theorem C36_unknown_param {pre key value : List Nat} (hp : 63 ∉ pre) (hk : 61 ∉ key) (hk2 : 38 ∉ key) (hv : 38 ∉ value) (h1 : key ≠ [99])
    (h2 : key ≠ [103]) (dec : List Nat → Option (List Nat)) (fresh : List Nat) : readUrl dec fresh (pre ++ 63 :: (key ++ 61 :: value)) = none := by
  unfold readUrl
  rw [splitOnce_left _ hp]
  simp only
  rw [splitChar_none (by simp [hk2, hv]), urlParams, splitOnce_left _ hk]
  simp only [if_neg h1, if_neg h2]

/-! ### The clipboard -/

theorem hexDigit_space {n : Nat} (h : n < 16) : isAsciiSpace (hexDigit n) = false := by
  have : ∀ n : Fin 16, isAsciiSpace (hexDigit n) = false := by decide
  exact this ⟨n, h⟩

theorem fromHex_hexText : ∀ {data : List Nat}, (∀ b ∈ data, b < 256) → fromHex (hexText data) = some data
  | [], _ => rfl
  | b :: data, h => by
    have hb := h b (by simp)
    have ih := fromHex_hexText (data := data) fun x hx => h x (List.mem_cons_of_mem _ hx)
    have : hexText (b :: data) = hexDigit (b / 16) :: hexDigit (b % 16) :: hexText data := by simp [hexText]
    rw [this, fromHex, hexDigit_space (by omega)]
    simp only [Bool.false_eq_true, if_false]
    rw [hexVal_hexDigit (by omega), hexVal_hexDigit (by omega), ih]
    simp only [Option.some.injEq, List.cons.injEq, and_true]
    omega

/-- **C37.** Any bytes come back from the clipboard text. -/
theorem C37_roundtrip {data : List Nat} (h : ∀ b ∈ data, b < 256) : readClip (writeClip data) = some data := by
  have h1 : clipPrefix.isPrefixOf (writeClip data) = true := by
    rw [List.isPrefixOf_iff_prefix, writeClip, List.append_assoc]; exact List.prefix_append _ _
  have h2 : clipSuffix.isSuffixOf (writeClip data) = true := by
    rw [List.isSuffixOf_iff_suffix, writeClip]; exact List.suffix_append _ _
  unfold readClip
  rw [h1, h2]
  simp only [Bool.and_self, if_true]
  have e : writeClip data = (clipPrefix ++ hexText data) ++ clipSuffix := rfl
  have e1 : (writeClip data).length - 7 = (clipPrefix ++ hexText data).length := by
    rw [e, List.length_append]; rfl
  rw [e1, e, List.take_left]
  have : (clipPrefix ++ hexText data).drop 6 = hexText data := List.drop_left (l₁ := clipPrefix)
  rw [this]
  exact fromHex_hexText h

example : writeClip [0, 255, 26] = [91, 99, 97, 114, 116, 93, 48, 48, 102, 102, 49, 97, 91, 47, 99, 97, 114, 116, 93] ∧
    readClip [91, 99, 97, 114, 116, 93, 48, 48, 32, 70, 102, 91, 47, 99, 97, 114, 116, 93] = some [0, 255] ∧
    readClip [91, 99, 97, 114, 116, 93, 48, 91, 47, 99, 97, 114, 116, 93] = none := by decide

theorem hexVal_lt {c x : Nat} (h : hexVal c = some x) : x < 16 := by
  unfold hexVal at h
  repeat' split at h
  all_goals first | (simp only [Option.some.injEq] at h; omega) | simp at h

theorem fromHex_body (body : List Nat) : ∀ {data}, fromHex body = some data →
    (∀ c ∈ body, (hexVal c).isSome ∨ isAsciiSpace c = true) ∧ ∀ b ∈ data, b < 256 := by
  fun_induction fromHex body with
  | case1 => intro data h; simp at h; subst h; simp
  | case2 c cs hs ih =>
    intro data h
    have := ih h
    exact ⟨fun x hx => (List.mem_cons.mp hx).elim (fun e => .inr (e ▸ hs)) (this.1 x), this.2⟩
  | case3 => intro data h; simp at h
  | case4 c hs d ds t x y hx hy ht ih =>
    intro data h
    simp only [Option.some.injEq] at h; subst h
    have := ih hx
    have l1 := hexVal_lt ht; have l2 := hexVal_lt hy
    refine ⟨fun z hz => ?_, fun z hz => ?_⟩
    · simp only [List.mem_cons] at hz
      rcases hz with rfl | rfl | hz
      · exact .inl (by rw [ht]; rfl)
      · exact .inl (by rw [hy]; rfl)
      · exact this.1 z hz
    · rcases List.mem_cons.mp hz with rfl | hz
      · omega
      · exact this.2 z hz
  | case5 => intro data h; simp at h

/-- **C37 (rejection).** Text that does not start with `[cart]` or does not end with `[/cart]` is rejected; so is any text with a character
between the tags that is neither a hexadecimal digit nor white space. -/
theorem C37_tags {clip data : List Nat} (h : readClip clip = some data) : ∃ body, clip = clipPrefix ++ body ++ clipSuffix ∧
    (∀ c ∈ body, (hexVal c).isSome ∨ isAsciiSpace c = true) ∧ ∀ b ∈ data, b < 256 := by
  unfold readClip at h
  split at h
  · rename_i hc
    simp only [Bool.and_eq_true, List.isPrefixOf_iff_prefix, List.isSuffixOf_iff_suffix] at hc
    obtain ⟨⟨t, ht⟩, ⟨u, hu⟩⟩ := hc
    have hlen : 13 ≤ clip.length := by
      have hl1 : clip.length = 6 + t.length := by rw [← ht]; simp [clipPrefix]; omega
      have hl2 : clip.length = u.length + 7 := by rw [← hu]; simp [clipSuffix]
      false_or_by_contra
      rename_i hlt
      have hul : u.length < 6 := by omega
      have heq : u ++ clipSuffix = clipPrefix ++ t := by rw [hu, ht]
      match u, hul with
      | [], _ => simp [clipPrefix, clipSuffix] at heq
      | [_], _ => simp [clipPrefix, clipSuffix] at heq
      | [_, _], _ => simp [clipPrefix, clipSuffix] at heq
      | [_, _, _], _ => simp [clipPrefix, clipSuffix] at heq
      | [_, _, _, _], _ => simp [clipPrefix, clipSuffix] at heq
      | [_, _, _, _, _], _ => simp [clipPrefix, clipSuffix] at heq
    refine ⟨(clip.take (clip.length - 7)).drop 6, ?_, ?_⟩
    · have h1 : clip.take 6 = clipPrefix := by rw [← ht]; exact List.take_left (l₁ := clipPrefix)
      have h2 : clip.drop (clip.length - 7) = clipSuffix := by
        have : clip.length - 7 = u.length := by rw [← hu]; simp [clipSuffix]
        rw [this, ← hu, List.drop_left]
      have h3 : (clip.take (clip.length - 7)).take 6 = clipPrefix := by rw [List.take_take, Nat.min_eq_left (by omega), h1]
      rw [← h2, ← h3, List.take_append_drop, List.take_append_drop]
    · exact fromHex_body _ h
  · simp at h

end Verif
