import Verif.Spec.P8Format
import Verif.Props.P8Source
import Verif.Props.Charset
/-! C13-C15 against the documented format: the text of a cart, section by section. -/
namespace Verif
open P8Format (digit byte)

theorem digit_hex : ∀ n, n < 16 → hexDigit n = digit n := by decide
theorem digit_ext : ∀ n, n < 32 → extDigit n = digit n := by decide

theorem hex2_byte {b : Nat} (h : b < 256) : hex2 b = byte b := by
  simp only [hex2, byte, digit_hex (b / 16) (by omega), digit_hex (b % 16) (by omega)]

theorem getD_lt {m : List Nat} (hm : IsMem m) (a : Nat) : m.getD a 0 < 256 := by
  rw [List.getD_eq_getElem?_getD]
  cases h : m[a]? with
  | none => simp
  | some b => exact hm b (List.mem_of_getElem? h)

theorem get8_getD {m : List Nat} {a : Nat} (h : a < m.length) : get8 m a = some (m.getD a 0) := getD_get8 h

set_option linter.unusedSectionVars false
section
variable {r : List Nat} (hr : IsMem r) (hl : r.length = 0x4300)
include hr hl

theorem gfx_layout {y : Nat} (hy : y < 128) : gfxText r y = some (P8Format.gfxRow (fun a => r.getD a 0) y) := by
  have lo : ∀ b, b < 256 → (b >>> 0) &&& 15 = b % 16 := by decide +kernel
  have hi : ∀ b, b < 256 → (b >>> 4) &&& 15 = b / 16 := by decide +kernel
  have hx : ∀ x, x < 128 → x >>> 1 = x / 2 ∧ (x &&& 1 != 0) = decide (x % 2 = 1) := by decide +kernel
  unfold gfxText P8Format.gfxRow
  rw [mapM_some (g := fun x => if x % 2 = 0 then r.getD (64 * y + x / 2) 0 % 16 else r.getD (64 * y + x / 2) 0 / 16)]
  · rw [Option.map_some, List.map_map]
    congr 1
    apply List.map_congr_left
    intro x hx
    have := getD_lt hr (64 * y + x / 2)
    simp only [Function.comp]
    apply digit_hex
    split <;> omega
  · intro x hmem
    obtain ⟨h1, h2⟩ := hx x (by simpa using hmem)
    have hxl : x < 128 := by simpa using hmem
    have hb := getD_lt hr (64 * y + x / 2)
    unfold memSpriteAddr get4 get8Bits
    simp only [h1, h2]
    rw [show y * 0x40 + x / 2 = 64 * y + x / 2 by omega, get8_getD (by omega), Option.map_some]
    by_cases hp : x % 2 = 0
    · rw [if_pos hp, decide_eq_false (by omega)]
      exact congrArg some (lo _ hb)
    · rw [if_neg hp, decide_eq_true (by omega)]
      exact congrArg some (hi _ hb)

theorem bytes_layout {n : Nat} {addr : Nat → Nat} (h : ∀ x, x < n → addr x < 0x4300) :
    ((List.range n).mapM fun x => get8 r (addr x)) = some ((List.range n).map fun x => r.getD (addr x) 0) :=
  mapM_some fun x hx => get8_getD (by rw [hl]; exact h x (by simpa using hx))

theorem flatMap_byte (l : List Nat) (f : Nat → Nat) (hf : ∀ x, f x < 256) : (l.map f).flatMap hex2 = l.flatMap fun x => byte (f x) := by
  induction l with
  | nil => rfl
  | cons a l ih => rw [List.map_cons, List.flatMap_cons, List.flatMap_cons, ih, hex2_byte (hf a)]

theorem map_layout {y : Nat} (hy : y < 32) : mapText r y = some (P8Format.mapRow (fun a => r.getD a 0) y) := by
  unfold mapText P8Format.mapRow
  have e : ∀ x, memMapAddr x y = 0x2000 + 128 * y + x := by intro x; unfold memMapAddr; rw [if_neg (by omega)]; omega
  simp only [e]
  rw [bytes_layout hr hl (by intro x hx; omega), Option.map_some, flatMap_byte hr hl _ _ (fun x => getD_lt hr _)]

theorem gff_layout {y : Nat} (hy : y < 2) : gffText r y = some (P8Format.gffRow (fun a => r.getD a 0) y) := by
  unfold gffText P8Format.gffRow
  have e : ∀ x, memFlagAddr x y = 0x3000 + 128 * y + x := by intro x; unfold memFlagAddr; omega
  simp only [e]
  rw [bytes_layout hr hl (by intro x hx; omega), Option.map_some, flatMap_byte hr hl _ _ (fun x => getD_lt hr _)]

omit hr hl in
theorem note_layout {lo hi : Nat} (h1 : lo < 256) (h2 : hi < 256) : (noteDigits (lo ||| (hi <<< 8))).map hexDigit = P8Format.note lo hi := by
  have e : lo ||| (hi <<< 8) = lo + 256 * hi := by
    rw [Nat.or_comm, Nat.shiftLeft_eq, Nat.mul_comm, ← Nat.two_pow_add_eq_or_of_lt (i := 8) h1]; omega
  rw [e]
  have m7 : ∀ n : Nat, n &&& 7 = n % 8 := fun n => Nat.and_two_pow_sub_one_eq_mod n 3
  have m3 : ∀ n : Nat, n &&& 3 = n % 4 := fun n => Nat.and_two_pow_sub_one_eq_mod n 2
  have m15 : ∀ n : Nat, n &&& 15 = n % 16 := fun n => Nat.and_two_pow_sub_one_eq_mod n 4
  have m8 : ∀ n, n < 16 → n &&& 8 = 8 * (n / 8) := by decide
  have hor : ∀ a, a < 8 → ∀ b, b < 2 → a ||| (8 * b) = a + 8 * b := by decide
  simp only [noteDigits, Nat.shiftRight_eq_div_pow, m7, m3, m15]
  rw [m8 ((lo + 256 * hi) / 2 ^ 12) (by omega), hor _ (by omega) _ (by omega)]
  simp only [List.map_cons, List.map_nil, P8Format.note, byte, List.cons_append, List.nil_append]
  rw [digit_hex _ (by omega), digit_hex _ (by omega), digit_hex _ (by omega), digit_hex _ (by omega), digit_hex _ (by omega)]
  have a1 : (lo + 256 * hi) / 2 ^ 4 % 4 = lo % 64 / 16 := by omega
  have a2 : (lo + 256 * hi) % 16 = lo % 64 % 16 := by omega
  have a3 : (lo + 256 * hi) / 2 ^ 12 / 8 = hi / 128 := by omega
  have a4 : (lo + 256 * hi) / 2 ^ 9 % 8 = hi / 2 % 8 := by omega
  have a5 : (lo + 256 * hi) / 2 ^ 12 % 8 = hi / 16 % 8 := by omega
  rw [a1, a2, a3, a4, a5]

theorem sfx_layout {y : Nat} (hy : y < 64) : sfxText r y = some (P8Format.sfxRow (fun a => r.getD a 0) y) := by
  unfold sfxText P8Format.sfxRow
  have e1 : ∀ x, memSfxInfoAddr y x = 0x3200 + 68 * y + 64 + x := by intro x; unfold memSfxInfoAddr memSfxAddr; omega
  have e2 : ∀ x, memSfxAddr y x = 0x3200 + 68 * y + 2 * x := by intro x; unfold memSfxAddr; omega
  simp only [e1, e2]
  rw [bytes_layout hr hl (by intro x hx; omega)]
  simp only
  rw [mapM_some (g := fun x => r.getD (0x3200 + 68 * y + 2 * x) 0 ||| (r.getD (0x3200 + 68 * y + 2 * x + 1) 0 <<< 8))]
  · simp only [Option.some.injEq]
    congr 1
    · exact flatMap_byte hr hl _ _ (fun x => getD_lt hr _)
    · rw [List.flatMap_map]
      congr 1
      funext x
      exact note_layout (getD_lt hr _) (getD_lt hr _)
  · intro x hx
    have hx : x < 32 := by simpa using hx
    unfold get16
    rw [get8_getD (by omega), get8_getD (by omega)]

theorem music_layout {y : Nat} (hy : y < 64) : musicText r y = some (P8Format.musicRow (fun a => r.getD a 0) y) := by
  unfold musicText P8Format.musicRow
  have e : ∀ x, memMusicAddr y x = 0x3100 + 4 * y + x := by intro x; unfold memMusicAddr; omega
  simp only [e]
  rw [bytes_layout hr hl (by intro x hx; omega)]
  have hr4 : List.range 4 = [0, 1, 2, 3] := by decide
  rw [hr4]
  simp only [List.map_cons, List.map_nil, Option.map_some, Option.some.injEq, Nat.add_zero]
  have h127 : ∀ n : Nat, n &&& 0x7f = n % 128 := fun n => Nat.and_two_pow_sub_one_eq_mod n 7
  have hbit : ∀ n, n < 256 → (n >>> 7) &&& 1 = n / 128 := by decide +kernel
  have b0 := getD_lt hr (0x3100 + 4 * y)
  have b1 := getD_lt hr (0x3100 + 4 * y + 1)
  have b2 := getD_lt hr (0x3100 + 4 * y + 2)
  have b3 := getD_lt hr (0x3100 + 4 * y + 3)
  have hf : musicFlags [r.getD (0x3100 + 4 * y) 0, r.getD (0x3100 + 4 * y + 1) 0, r.getD (0x3100 + 4 * y + 2) 0, r.getD (0x3100 + 4 * y + 3) 0] =
      r.getD (0x3100 + 4 * y) 0 / 128 + 2 * (r.getD (0x3100 + 4 * y + 1) 0 / 128) + 4 * (r.getD (0x3100 + 4 * y + 2) 0 / 128) +
        8 * (r.getD (0x3100 + 4 * y + 3) 0 / 128) := by
    simp only [musicFlags, List.zipIdx_cons, List.zipIdx_nil, List.map_cons, List.map_nil, List.sum_cons, List.sum_nil, hbit _ b0, hbit _ b1,
      hbit _ b2, hbit _ b3, Nat.shiftLeft_eq]
    omega
  rw [hf]
  simp only [List.flatMap_cons, List.flatMap_nil, h127]
  rw [hex2_byte (by omega), hex2_byte (by omega), hex2_byte (by omega), hex2_byte (by omega), hex2_byte (by omega)]
  simp

end

theorem label_layout {l : List Nat} (hl : l.length = 128 * 128) (hb : ∀ b ∈ l, b < 32) {y : Nat} (hy : y < 128) :
    labelText l y = some (P8Format.labelRow (fun a => l.getD a 0) y) := by
  unfold labelText P8Format.labelRow
  rw [mapM_some (g := fun x => l.getD (128 * x + y) 0)]
  · rw [Option.map_some, List.map_map]
    congr 1
    apply List.map_congr_left
    intro x hx
    have hx : x < 128 := by simpa using hx
    apply digit_ext
    have : 128 * x + y < l.length := by omega
    show l.getD (128 * x + y) 0 < 32
    rw [List.getD_eq_getElem?_getD, List.getElem?_eq_getElem this]
    exact hb _ (List.getElem_mem this)
  · intro x hx
    have hx : x < 128 := by simpa using hx
    have : 128 * x + y < l.length := by omega
    rw [show x * 128 + y = 128 * x + y by omega, List.getD_eq_getElem?_getD, List.getElem?_eq_getElem this]
    rfl

/-- The number of rows written. -/
theorem needed_layout {r : List Nat} (hl : r.length = 0x4300) {addr : Nat → Nat} {base size : Nat} : ∀ max, (∀ y, y < max → addr y = base + size * y) →
    base + size * max ≤ 0x4300 → P8Format.Needed (fun a => r.getD a 0) base size max (neededLines r addr size max) := by
  have hne : createRom.isEmpty = false := by
    cases h : createRom with
    | nil => have := createRom_ok.2; rw [h, List.length_nil] at this; omega
    | cons => rfl
  have hc : ∀ a, a < 0x4300 → get8 createRom a = some (P8Format.empty a) := by
    intro a ha
    rw [createRom_spec]
    unfold emptyByte P8Format.empty
    rw [if_neg (by omega)]
    split
    · rfl
    · split <;> rfl
  have hr : ∀ a, a < 0x4300 → get8 r a = some (r.getD a 0) := fun a ha => get8_getD (by omega)
  intro max
  induction max with
  | zero => intro _ _; exact ⟨Nat.le_refl _, by intro a; omega, by simp [neededLines]⟩
  | succ n ih =>
    intro haddr hbound
    have hn : addr n = base + size * n := haddr n (by omega)
    have hm : size * (n + 1) = size * n + size := Nat.mul_succ _ _
    unfold neededLines
    by_cases h : cmpeq8 r (addr n) (addr n) size createRom = true
    · rw [if_pos h]
      obtain ⟨h1, h2, h3⟩ := ih (fun y hy => haddr y (by omega)) (by omega)
      refine ⟨by omega, ?_, h3⟩
      intro a ha1 ha2
      by_cases hlt : a < base + size * n
      · exact h2 a ha1 hlt
      · have := (C12_cmpeq8 _ _ _ _ _).mp h (a - addr n) (by omega)
        rw [hne] at this
        simp only [Bool.false_eq_true, if_false] at this
        rw [show addr n + (a - addr n) = a by omega, hr a (by omega), hc a (by omega)] at this
        exact Option.some.inj this
    · rw [if_neg h]
      refine ⟨Nat.le_refl _, by intro a h1 h2; omega, ?_⟩
      intro _
      apply Classical.byContradiction
      intro hno
      apply h
      rw [C12_cmpeq8]
      intro k hk
      rw [hne]
      simp only [Bool.false_eq_true, if_false]
      rw [hr _ (by omega), hc _ (by omega)]
      by_cases hd : r.getD (addr n + k) 0 = P8Format.empty (addr n + k)
      · rw [hd]
      · exact absurd ⟨addr n + k, by rw [Nat.add_sub_cancel]; omega, by omega, hd⟩ hno

theorem section_layout {inc : Bool} {name : List Nat} {s : String} (hs : headerLine name = P8Format.chars ("__" ++ s ++ "__")) {n : Nat}
    {row : Nat → Option (List Nat)} {f : Nat → List Nat} (h : ∀ y, y < n → row y = some (f y)) :
    sectionText inc name n row = some (if inc then P8Format.part s n f else []) := by
  unfold sectionText P8Format.part
  cases inc with
  | false => rfl
  | true =>
    by_cases hn : n = 0
    · simp [hn]
    · simp only [Bool.true_and, decide_eq_true_eq, if_true, ne_eq, hn, not_false_iff]
      rw [mapM_some fun x hx => h x (by simpa using hx), hs]
      simp

theorem joinNl_file : ∀ {ls : List (List Nat)}, ls ≠ [] → joinNl ls ++ [10] = P8Format.file ls
  | [], h => absurd rfl h
  | [l], _ => by simp [joinNl, P8Format.file]
  | l :: l' :: ls, _ => by
    have := joinNl_file (ls := l' :: ls) (by simp)
    rw [joinNl, List.append_assoc, List.cons_append, this]
    simp [P8Format.file]

/-- **C13 / C14 / C15.** The whole text of a saved cart, in terms of the documented format: which sections there are, how many lines
each has, and what each line says.  `m` is the memory, `n` the numbers of lines. -/
theorem C13_layout {c : SCart} (h : SourceOk c) (unicaps : Bool) (inc : List Nat → Bool) :
    ∃ gfx map gff sfx music : Nat, ∀ m, m = (fun a => c.rom.getD a 0) →
      P8Format.Needed m 0 64 128 gfx ∧ P8Format.Needed m 0x2000 128 32 map ∧ P8Format.Needed m 0x3000 128 2 gff ∧
      P8Format.Needed m 0x3200 68 64 sfx ∧ P8Format.Needed m 0x3100 4 64 music ∧
      ∃ version, version ≠ [] ∧ StrSpec.Dec version c.versionId ∧
      writeSource unicaps inc c = some (P8Format.file (
        [P8Format.chars "pico-8 cartridge // http://www.pico-8.com", P8Format.chars "version " ++ version] ++
        (if inc (P8Format.chars "lua") then
          [P8Format.chars "__lua__", c.code.flatMap (if unicaps then P8scii.caps else P8scii.text)] else []) ++
        (if inc (P8Format.chars "gfx") then P8Format.part "gfx" gfx (P8Format.gfxRow m) else []) ++
        (if inc (P8Format.chars "map") then P8Format.part "map" map (P8Format.mapRow m) else []) ++
        (if inc (P8Format.chars "gff") then P8Format.part "gff" gff (P8Format.gffRow m) else []) ++
        (if inc (P8Format.chars "sfx") then P8Format.part "sfx" sfx (P8Format.sfxRow m) else []) ++
        (if inc (P8Format.chars "music") then P8Format.part "music" music (P8Format.musicRow m) else []) ++
        (if inc (P8Format.chars "label") ∧ ∃ l, c.label = some l ∧ ∃ b ∈ l, b ≠ 0 then
          P8Format.part "label" 128 (P8Format.labelRow fun a => (c.label.getD []).getD a 0) else []) ++
        (c.metas.filter fun x => inc (P8Format.chars "meta:" ++ x.1)).flatMap fun x =>
          (P8Format.chars "__meta:" ++ x.1 ++ P8Format.chars "__") :: x.2)) := by
  obtain ⟨hmem, hsize, hlabel, hchars, _, _⟩ := h
  refine ⟨neededLines c.rom (fun y => (memSpriteAddr 0 y).1) 0x40 0x80, neededLines c.rom (memMapAddr 0) 0x80 0x20,
    neededLines c.rom (memFlagAddr 0) 0x80 2, neededLines c.rom (fun y => memSfxAddr y 0) 0x44 0x40,
    neededLines c.rom (fun y => memMusicAddr y 0) 4 0x40, fun m hm => ⟨?_, ?_, ?_, ?_, ?_, natDigits c.versionId, natDigits_ne_nil _, ?_, ?_⟩⟩
  all_goals subst hm
  · exact needed_layout hsize (addr := fun y => (memSpriteAddr 0 y).1) 128 (by intro y _; simp [memSpriteAddr]; omega) (by omega)
  · exact needed_layout hsize (addr := memMapAddr 0) 32 (by intro y hy; unfold memMapAddr; rw [if_neg (by omega)]; omega) (by omega)
  · exact needed_layout hsize (addr := memFlagAddr 0) 2 (by intro y hy; unfold memFlagAddr; omega) (by omega)
  · exact needed_layout hsize (addr := fun y => memSfxAddr y 0) 64 (by intro y hy; unfold memSfxAddr; omega) (by omega)
  · exact needed_layout hsize (addr := fun y => memMusicAddr y 0) 64 (by intro y hy; unfold memMusicAddr; omega) (by omega)
  · have key : ∀ n, StrSpec.Dec (natDigits n) n := by
      intro n
      induction n using Nat.strongRecOn with
      | ind n ih =>
        rw [natDigits]
        split
        · have := StrSpec.Dec.snoc .nil (d := n) (by omega)
          simpa using this
        · have := StrSpec.Dec.snoc (ih (n / 10) (by omega)) (d := n % 10) (by omega)
          rwa [show 10 * (n / 10) + n % 10 = n by omega] at this
    exact key _
  · have n1 := (neededLines_spec (rom := c.rom) (addr := fun y => (memSpriteAddr 0 y).1) (size := 0x40) 0x80).1
    have n2 := (neededLines_spec (rom := c.rom) (addr := memMapAddr 0) (size := 0x80) 0x20).1
    have n3 := (neededLines_spec (rom := c.rom) (addr := memFlagAddr 0) (size := 0x80) 2).1
    have n4 := (neededLines_spec (rom := c.rom) (addr := fun y => memSfxAddr y 0) (size := 0x44) 0x40).1
    have n5 := (neededLines_spec (rom := c.rom) (addr := fun y => memMusicAddr y 0) (size := 4) 0x40).1
    have hlab : (match c.label with
        | none => some []
        | some l => sectionText (inc sLabel && l.any (· ≠ 0)) sLabel 128 (labelText l)) =
        some (if inc (P8Format.chars "label") ∧ ∃ l, c.label = some l ∧ ∃ b ∈ l, b ≠ 0 then
          P8Format.part "label" 128 (P8Format.labelRow fun a => (c.label.getD []).getD a 0) else []) := by
      cases hL : c.label with
      | none => simp
      | some l =>
        obtain ⟨h1, h2⟩ := hlabel l hL
        simp only
        rw [section_layout (s := "label") (by decide) (fun y hy => label_layout h1 h2 hy)]
        congr 1
        have e : (P8Format.chars "label") = sLabel := by decide
        rw [e]
        by_cases ha : inc sLabel = true ∧ ∃ b ∈ l, b ≠ 0
        · rw [if_pos (by simpa using ha), if_pos (by simpa using ha)]; rfl
        · rw [if_neg (by simpa using ha), if_neg (by simpa using ha)]
    have hcode : fromP8str unicaps c.code = c.code.flatMap (if unicaps then P8scii.caps else P8scii.text) := by
      obtain ⟨t1, t2⟩ := C16_table hchars
      cases unicaps
      · exact t1
      · exact t2
    unfold writeSource sourceLines
    simp only
    rw [section_layout (s := "gfx") (by decide) (fun y hy => gfx_layout hmem hsize (y := y) (by omega)),
      section_layout (s := "map") (by decide) (fun y hy => map_layout hmem hsize (y := y) (by omega)),
      section_layout (s := "gff") (by decide) (fun y hy => gff_layout hmem hsize (y := y) (by omega)),
      section_layout (s := "sfx") (by decide) (fun y hy => sfx_layout hmem hsize (y := y) (by omega)),
      section_layout (s := "music") (by decide) (fun y hy => music_layout hmem hsize (y := y) (by omega))]
    generalize (if inc (P8Format.chars "label") = true ∧ ∃ l, c.label = some l ∧ ∃ b ∈ l, b ≠ 0 then
          P8Format.part "label" 128 (P8Format.labelRow fun a => (c.label.getD []).getD a 0) else []) = lab at hlab ⊢
    cases hL : c.label with
    | none =>
      rw [hL] at hlab
      have hlab : [] = lab := Option.some.inj hlab
      subst hlab
      simp only [Option.map_some, Option.some.injEq]
      rw [joinNl_file (by simp), hcode]
      congr 1
    | some l =>
      rw [hL] at hlab
      simp only at hlab ⊢
      rw [hlab]
      simp only [Option.map_some, Option.some.injEq]
      rw [joinNl_file (by simp), hcode]
      congr 1

/-- The hypotheses are met by a cart with all kinds of contents, and the rows are as PICO-8 writes them. -/
example : ∃ gfx, P8Format.Needed (fun a => sampleCart.rom.getD a 0) 0 64 128 gfx ∧
    P8Format.musicRow (fun a => if a = 0x3100 then 0x81 else 0x42) 0 = P8Format.chars "01 01424242" ∧
    P8Format.note 0x41 0x9a = P8Format.chars "01951" := by
  obtain ⟨gfx, _, _, _, _, h⟩ := C13_layout sampleCart_ok false (fun _ => true)
  exact ⟨gfx, (h _ rfl).1, by decide, by decide⟩

/-! ### Code alone -/

theorem readLine_raw {st : RState} {t p : List Nat} (hp : toP8str t = some p) (hh : st.header = some sLua) :
    readLine true st t = some { st with
        cart := { st.cart with code := if st.y = 0 then st.cart.code ++ p else st.cart.code ++ 10 :: p,
                               codeLine := if st.y = 0 then st.lineI else st.cart.codeLine },
        y := st.y + 1 } := by
  unfold readLine
  simp only [Bool.not_true, Bool.and_false, Bool.false_eq_true, if_false, hh, if_true, hp]

theorem readRaw : ∀ (ls ps : List (List Nat)) (st : RState), ls.mapM toP8str = some ps → st.header = some sLua → st.y ≠ 0 →
    ∃ st', readLines true st ls = some st' ∧ st'.cart = { st.cart with code := st.cart.code ++ ps.flatMap fun l => 10 :: l }
  | [], ps, st, h, _, _ => by
    have h : [] = ps := Option.some.inj h
    subst h
    exact ⟨st, rfl, by simp⟩
  | l :: ls, ps, st, h, hh, hy => by
    rw [List.mapM_cons] at h
    cases h1 : toP8str l with
    | none => rw [h1] at h; exact nomatch h
    | some p =>
      cases h2 : ls.mapM toP8str with
      | none => rw [h1, h2] at h; exact nomatch h
      | some qs =>
        rw [h1, h2] at h
        have h : p :: qs = ps := Option.some.inj h
        subst h
        rw [readLines, readLine_raw h1 hh]
        simp only [if_neg hy]
        obtain ⟨st', e1, e2⟩ := readRaw ls qs { st with
          cart := { st.cart with code := st.cart.code ++ 10 :: p }, y := st.y + 1, lineI := st.lineI + 1 } h2 hh (by simp)
        exact ⟨st', e1, by rw [e2]; simp⟩

theorem splitNl_none {l : List Nat} (h : 10 ∉ l) : splitNl l = [l] := by
  induction l with
  | nil => rfl
  | cons a l ih =>
    rw [List.mem_cons, not_or] at h
    rw [splitNl, if_neg (fun e => h.1 e.symm), ih h.2]

theorem dropCr_none {l : List Nat} (h : l.getLast? ≠ some 13) : dropCr l = l := by
  unfold dropCr
  rw [if_neg h]

theorem lines_plain : ∀ {ls : List (List Nat)}, (∀ l ∈ ls, 10 ∉ l ∧ l.getLast? ≠ some 13) →
    (ls.flatMap fun l => (splitNl l).map dropCr) = ls
  | [], _ => rfl
  | l :: ls, h => by
    rw [List.flatMap_cons, lines_plain (fun x hx => h x (List.mem_cons_of_mem _ hx)), splitNl_none (h l (by simp)).1, List.map_cons,
      dropCr_none (h l (by simp)).2]
    rfl

theorem isPrefix_take {p t : List Nat} : p <+: t ↔ t.take p.length = p := by
  constructor
  · rintro ⟨x, rfl⟩; simp
  · intro h; exact ⟨t.drop p.length, by conv => lhs; arg 1; rw [← h]
                                        exact List.take_append_drop _ _⟩

/-- **C14.** A file that is not a cart but code alone (as asked for, or as found from its beginning): all its lines are code,
whatever they look like, and everything else is as in an empty cart. -/
theorem C14_raw {ls ps : List (List Nat)} (hls : ∀ l ∈ ls, 10 ∉ l ∧ l.getLast? ≠ some 13) (hps : ls.mapM toP8str = some ps)
    (raw : Bool) (h : raw = true ∨ ¬ P8Format.chars "pico-8 cartridge" <+: P8Format.file ls ∧
      ¬ P8Format.chars "__lua__" <+: P8Format.file ls) (version : Nat) :
    ∃ c, readSource version raw (P8Format.file ls) = some c ∧ c.code = joinNl ps ∧ c.codeLine = 0 ∧ c.versionId = version ∧
      c.label = none ∧ c.metas = [] ∧ ∀ a, a < 0x4300 → c.rom.getD a 0 = P8Format.empty a := by
  have hraw : (raw || !((P8Format.file ls).take 16 == sP8Prefix || (P8Format.file ls).take 7 == headerLine sLua)) = true := by
    rcases h with h | ⟨h1, h2⟩
    · rw [h, Bool.true_or]
    · rw [isPrefix_take] at h1 h2
      have e1 : ((P8Format.file ls).take 16 == sP8Prefix) = false := by
        rw [beq_eq_false_iff_ne]; exact h1
      have e2 : ((P8Format.file ls).take 7 == headerLine sLua) = false := by
        rw [beq_eq_false_iff_ne]; exact h2
      rw [e1, e2]; simp
  have hempty : ∀ a, a < 0x4300 → createRom.getD a 0 = P8Format.empty a := by
    intro a ha
    have h1 := createRom_spec a
    rw [get8_getD (by rw [createRom_ok.2]; exact ha)] at h1
    apply Option.some.inj
    rw [h1]
    unfold emptyByte P8Format.empty
    rw [if_neg (by omega)]
    split
    · rfl
    · split <;> rfl
  have hfresh : (freshCart version).rom = createRom := by simp only [freshCart]
  rw [← hfresh] at hempty
  unfold readSource
  simp only [hraw, if_true]
  cases ls with
  | nil =>
    have hps : [] = ps := Option.some.inj hps
    subst hps
    exact ⟨freshCart version, rfl, rfl, rfl, rfl, rfl, rfl, hempty⟩
  | cons l ls =>
    rw [← joinNl_file (by simp), p8SplitLines_join (by simp), lines_plain hls]
    rw [List.mapM_cons] at hps
    cases h1 : toP8str l with
    | none => rw [h1] at hps; exact nomatch hps
    | some p =>
      cases h2 : ls.mapM toP8str with
      | none => rw [h1, h2] at hps; exact nomatch hps
      | some qs =>
        rw [h1, h2] at hps
        have hps : p :: qs = ps := Option.some.inj hps
        subst hps
        rw [readLines, readLine_raw h1 rfl]
        simp only [if_true]
        obtain ⟨st', e1, e2⟩ := readRaw ls qs ⟨{ freshCart version with code := [] ++ p, codeLine := 0 }, some sLua, 1, 1⟩ h2 rfl (by simp)
        refine ⟨st'.cart, congrArg (Option.map _) e1, ?_⟩
        rw [e2, joinNl_flatMap]
        refine ⟨rfl, rfl, rfl, rfl, rfl, ?_⟩
        simpa only using hempty

/-- Even what would be a section of a cart. -/
example : ∃ c, readSource 41 true (P8Format.file [P8Format.chars "__gfx__", P8Format.chars "11"]) = some c ∧
    c.code = P8Format.chars "__gfx__\n11" := by
  obtain ⟨c, h1, h2, _⟩ := C14_raw (ls := [P8Format.chars "__gfx__", P8Format.chars "11"])
    (ps := [P8Format.chars "__gfx__", P8Format.chars "11"]) (by decide) (by decide +kernel) true (.inl rfl) 41
  exact ⟨c, h1, h2.trans (by decide)⟩

/-- **C14.** A file that starts with the code section (without the first line of a cart) is read as a cart: the first line is not
code. -/
theorem C14_lua_only {code : List Nat} (hb : ∀ x ∈ code, x < 256) (hc : CodeOk code) (unicaps : Bool) (version : Nat) :
    ∃ c, readSource version false (P8Format.file [P8Format.chars "__lua__", fromP8str unicaps code]) = some c ∧ c.code = code ∧
      c.codeLine = 1 ∧ c.versionId = version := by
  have e : P8Format.chars "__lua__" = headerLine sLua := by decide
  have hraw : (false || !((P8Format.file [P8Format.chars "__lua__", fromP8str unicaps code]).take 16 == sP8Prefix ||
      (P8Format.file [P8Format.chars "__lua__", fromP8str unicaps code]).take 7 == headerLine sLua)) = false := by
    have : (P8Format.file [P8Format.chars "__lua__", fromP8str unicaps code]).take 7 = headerLine sLua := by
      rw [e]
      have : (headerLine sLua).length = 7 := by decide
      rw [← this, P8Format.file, List.flatMap_cons, List.append_assoc, List.take_left]
    rw [this, beq_self_eq_true, Bool.or_true]
    rfl
  unfold readSource
  simp only [hraw, Bool.false_eq_true, if_false]
  rw [← joinNl_file (by simp), p8SplitLines_join (by simp), e, List.flatMap_cons, splitHeader (by decide), List.cons_append,
    List.nil_append, readLines, readLine_header]
  simp only [List.flatMap_cons, List.flatMap_nil, List.append_nil]
  obtain ⟨st, e1, e2⟩ := readCode (u := unicaps) hb hc ⟨freshCart version, some sLua, 0, 1⟩ rfl rfl rfl
  exact ⟨st.cart, congrArg (Option.map _) e1, by rw [e2], by rw [e2], by rw [e2]; rfl⟩

example : CodeOk sampleCart.code := sampleCart_ok.code

end Verif
