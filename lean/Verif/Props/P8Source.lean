import Verif.P8SourceLemmas
/-! C13, C14, C15: the `.p8` text format. -/
namespace Verif

/-! ### C15 -/

/-- **C15.** Every 16-bit note is written as five hexadecimal digits and read back as itself. -/
theorem C15_note_roundtrip {n : Nat} (h : n < 0x10000) :
    ((noteDigits n).map hexDigit).length = 5 ∧
    ((hexGroups5 ((noteDigits n).map hexDigit)).map fun gs => gs.map noteOf) = some [some n] := by
  refine ⟨rfl, ?_⟩
  have := hexGroups5_digits (l := [noteDigits n]) (by simpa using noteDigits_lt n)
  simp only [List.flatMap_cons, List.flatMap_nil, List.append_nil] at this
  rw [this]
  simp [noteOf_noteDigits h]

/-- **C15.** No two notes are written alike. -/
theorem C15_note_injective {n n' : Nat} (h : n < 0x10000) (h' : n' < 0x10000) (he : noteDigits n = noteDigits n') : n = n' := by
  have h1 := noteOf_noteDigits h
  rw [he, noteOf_noteDigits h'] at h1
  exact (Option.some.inj h1).symm

/-- The digits a reader may meet that are not the writer's: the spare bits of the digits are ignored (so distinct digit groups
may denote one note). -/
example : noteOf [1, 2, 3, 4, 5] = noteOf [1 + 4, 2, 3, 4 + 8, 5 + 8] := by decide

/-- **C15.** Every music row is written as text that is read back to the same four bytes, changing nothing else. -/
theorem C15_music_row {r m : List Nat} (hr : IsMem r) (hrl : r.length = 0x4300) (hm : IsMem m) (hml : m.length = 0x4300)
    {y : Nat} (hy : y < 0x40) : ∃ t m', musicText r y = some t ∧ musicLine m y t = some m' ∧ m'.length = 0x4300 ∧
      ∀ a, get8 m' a = if 0x3100 + 4 * y ≤ a ∧ a < 0x3100 + 4 * y + 4 then get8 r a else get8 m a := by
  obtain ⟨t, m', h1, h2, h3⟩ := musicRow hr hrl hm hml hy
  refine ⟨t, m', h1, h2, h3.2.1, fun a => ?_⟩
  split
  · exact (h3.2.2 a).1 ‹_›
  · exact (h3.2.2 a).2 ‹_›

/-- **C15.** Every sound row (32 notes and four bytes of settings) likewise. -/
theorem C15_sfx_row {r m : List Nat} (hr : IsMem r) (hrl : r.length = 0x4300) (hm : IsMem m) (hml : m.length = 0x4300)
    {y : Nat} (hy : y < 0x40) : ∃ t m', sfxText r y = some t ∧ sfxLine m y t = some m' ∧ m'.length = 0x4300 ∧
      ∀ a, get8 m' a = if 0x3200 + 0x44 * y ≤ a ∧ a < 0x3200 + 0x44 * y + 0x44 then get8 r a else get8 m a := by
  obtain ⟨t, m', h1, h2, h3⟩ := sfxRow hr hrl hm hml hy
  refine ⟨t, m', h1, h2, h3.2.1, fun a => ?_⟩
  split
  · exact (h3.2.2 a).1 ‹_›
  · exact (h3.2.2 a).2 ‹_›

/-! ### C13, C14 -/

/-- The section whose lines hold the byte at address `a`. -/
def sectionOf (a : Nat) : List Nat :=
  if a < 0x2000 then sGfx else if a < 0x3000 then sMap else if a < 0x3100 then sGff else if a < 0x3200 then sMusic else sSfx

/-- What a cart must satisfy to be restored from `.p8` text: a full memory of bytes, a 128x128 label of colours below 32 (if any),
P8SCII code none of whose lines looks like a header or ends with a carriage return, and metadata of proper lines. -/
structure SourceOk (c : SCart) : Prop where
  mem : IsMem c.rom
  size : c.rom.length = 0x4300
  label : ∀ L, c.label = some L → L.length = 128 * 128 ∧ ∀ b ∈ L, b < 32
  chars : ∀ x ∈ c.code, x < 256
  code : CodeOk c.code
  metas : MetasOk c.metas

/-- The contents of an empty cartridge: the four channels of every song pattern are off (and name sounds 1 to 4), sounds
have speed 16 (the first one: 1), and everything else is zero. -/
def emptyByte (a : Nat) : Option Nat :=
  if 0x4300 ≤ a then none
  else if 0x3100 ≤ a ∧ a < 0x3200 then some (0x41 + a % 4)
  else if 0x3200 ≤ a ∧ (a - 0x3200) % 68 = 65 then some (if a = 0x3241 then 1 else 16)
  else some 0

/-- What reading gives back when only the sections in `inc` were written. -/
structure Restored (inc : List Nat → Bool) (defVersion : Nat) (c c' : SCart) : Prop where
  version : c'.versionId = c.versionId ∧ c'.defaultVersion = false
  code : c'.code = if inc sLua then c.code else []
  codeLine : c'.codeLine = if inc sLua then 3 else 0
  size : c'.rom.length = 0x4300
  rom : ∀ a, get8 c'.rom a = if inc (sectionOf a) then get8 c.rom a else emptyByte a
  label : c'.label = if inc sLabel && (c.label.getD []).any (· ≠ 0) then c.label else none
  metas : c'.metas = c.metas.filter fun m => inc (sMeta ++ m.1)

theorem createRom_spec (a : Nat) : get8 createRom a = emptyByte a := by
  have main : ∀ n, n ≤ 0x40 → ((List.range n).foldl createRomStep (List.replicate 0x4300 0))[a]? =
      if 0x4300 ≤ a then none
      else if 0x3100 ≤ a ∧ a < 0x3100 + 4 * n then some (0x41 + a % 4)
      else if 0x3200 ≤ a ∧ (a - 0x3200) % 68 = 65 ∧ (a - 0x3200) / 68 < n then some (if a = 0x3241 then 1 else 16)
      else some 0 := by
    intro n
    induction n with
    | zero =>
      intro _
      rw [List.range_zero, List.foldl_nil, List.getElem?_replicate, if_neg (by omega : ¬ (0x3100 ≤ a ∧ a < 0x3100 + 4 * 0)),
        if_neg (by omega : ¬ (0x3200 ≤ a ∧ (a - 0x3200) % 68 = 65 ∧ (a - 0x3200) / 68 < 0))]
      by_cases h : a < 0x4300
      · rw [if_pos h, if_neg (by omega)]
      · rw [if_neg h, if_pos (by omega)]
    | succ n ih =>
      intro hn
      have ih := ih (by omega)
      rw [List.range_succ, List.foldl_append, List.foldl_cons, List.foldl_nil]
      have hl : ((List.range n).foldl createRomStep (List.replicate 0x4300 0)).length = 0x4300 := by
        have : ∀ (l : List Nat) m, (l.foldl createRomStep m).length = m.length := by
          intro l
          induction l with
          | nil => intro m; rfl
          | cons b l ih2 => intro m; rw [List.foldl_cons, ih2]; simp [createRomStep, List.range, List.range.loop]
        rw [this, List.length_replicate]
      generalize (List.range n).foldl createRomStep (List.replicate 0x4300 0) = m at *
      unfold createRomStep
      simp only [List.range, List.range.loop, List.foldl_cons, List.foldl_nil, memSfxInfoAddr, memSfxAddr, memMusicAddr]
      simp only [List.getElem?_set, List.length_set, hl]
      repeat' split
      all_goals first
        | rfl
        | (exfalso; omega)
        | (simp only [Option.some.injEq]; omega)
        | (rw [ih]; repeat' split
           all_goals first
            | rfl
            | (exfalso; omega)
            | (simp only [Option.some.injEq]; omega))
  have h := main 0x40 (by omega)
  unfold get8 createRom emptyByte
  rw [h]
  repeat' split
  all_goals first
    | rfl
    | (exfalso; omega)

theorem takeWhile_all {p : Nat → Bool} {l : List Nat} (h : ∀ a ∈ l, p a = true) : l.takeWhile p = l := by
  induction l with
  | nil => rfl
  | cons a l ih => rw [List.takeWhile_cons_of_pos (h a (by simp)), ih fun x hx => h x (List.mem_cons_of_mem _ hx)]

theorem readHead (st : RState) (hh : st.header = none) (v : Nat) :
    readLines false st ([sP8Prefix ++ sP8Suffix, sVersion ++ natDigits v].flatMap fun l => (splitNl l).map dropCr) =
      some { st with cart := { st.cart with versionId := v, defaultVersion := false }, lineI := st.lineI + 2 } := by
  have e1 : (splitNl (sP8Prefix ++ sP8Suffix)).map dropCr = [sP8Prefix ++ sP8Suffix] := by decide
  have hd := natDigits_digit v
  have hlast : ∀ a, (sVersion ++ natDigits v).getLast? = some a → 48 ≤ a ∧ a ≤ 57 := by
    intro a ha
    rw [List.getLast?_append, List.getLast?_eq_some_getLast (natDigits_ne_nil v)] at ha
    simp at ha; subst ha
    exact hd _ (List.getLast_mem _)
  have e2 : (splitNl (sVersion ++ natDigits v)).map dropCr = [sVersion ++ natDigits v] := by
    rw [splitNl_simple]
    · rw [List.map_cons]
      unfold dropCr
      rw [if_neg]; rfl
      intro h; have := hlast _ h; omega
    · intro h
      rcases List.mem_append.mp h with h | h
      · simp [sVersion] at h
      · have := hd _ h; omega
  have s2 : pyStrip (sVersion ++ natDigits v) = sVersion ++ natDigits v := by
    apply pyStrip_tight
    · intro a ha; simp [sVersion] at ha; subst ha; decide
    · intro a ha; exact digit_not_space (hlast a ha)
  have r1 : ∀ st : RState, st.header = none → readLine false st (sP8Prefix ++ sP8Suffix) = some st := by
    intro st hh
    unfold readLine
    have : isHeaderLine (sP8Prefix ++ sP8Suffix) = false := by decide
    have hs : ¬ ((pyStrip (sP8Prefix ++ sP8Suffix)).take 8 = sVersion) := by decide
    simp only [this, Bool.false_and, Bool.false_eq_true, if_false, hh, reduceCtorEq, false_and]
    rw [if_neg hs]
  have hw : secondWord (sVersion ++ natDigits v) = some (natDigits v) := by
    unfold secondWord
    have a1 : (((sVersion ++ natDigits v).dropWhile pyIsSpace).dropWhile fun c => !pyIsSpace c).dropWhile pyIsSpace = natDigits v := by
      simp only [sVersion, List.cons_append, List.nil_append, List.dropWhile]
      simp only [pyIsSpace]
      simp
      cases hn : natDigits v with
      | nil => rfl
      | cons a r =>
        have := digit_not_space (hd a (by simp [hn]))
        rw [List.dropWhile_cons_of_pos (by decide)]
        exact dropWhile_cons_of_neg' this
    simp only [a1]
    rw [if_neg (natDigits_ne_nil v)]
    congr 1
    apply takeWhile_all
    intro a ha; simp [digit_not_space (hd a ha)]
  have r2 : ∀ st : RState, st.header = none → readLine false st (sVersion ++ natDigits v) =
      some { st with cart := { st.cart with versionId := v, defaultVersion := false } } := by
    intro st hh
    unfold readLine
    have : isHeaderLine (sVersion ++ natDigits v) = false := by unfold isHeaderLine; simp [sVersion]
    have hs : (sVersion ++ natDigits v).take 8 = sVersion := by simp [sVersion]
    simp only [this, Bool.false_and, Bool.false_eq_true, if_false, hh, reduceCtorEq, false_and, s2]
    rw [if_pos hs, hw]
    simp only [parseNat_natDigits, Option.map_some]
  simp only [List.flatMap_cons, List.flatMap_nil, e1, e2, List.append_nil, List.cons_append, List.nil_append, readLines]
  rw [r1 st hh]
  simp only
  rw [r2 { st with lineI := st.lineI + 1 } hh]

attribute [local irreducible] createRom

/-- **C13 / C14.** A cart saved as `.p8` text (any choice of sections, either capital style) and loaded again: every byte of
every section written, the label, the code, the version and the metadata are restored; sections not written have their
default contents. -/
theorem C13_sections_roundtrip {c : SCart} (h : SourceOk c) (unicaps : Bool) (inc : List Nat → Bool) (defVersion : Nat) :
    ∃ text c', writeSource unicaps inc c = some text ∧ readSource defVersion false text = some c' ∧
      Restored inc defVersion c c' := by
  obtain ⟨hmem, hsize, hlabel, hchars, hcode, hmetas⟩ := h
  have cr := createRom_ok
  -- head
  let st0 : RState := ⟨freshCart defVersion, none, 0, 0⟩
  obtain ⟨st1, hhead, c1, l1⟩ : ∃ st1, readLines false st0 ([sP8Prefix ++ sP8Suffix, sVersion ++ natDigits c.versionId].flatMap
      fun l => (splitNl l).map dropCr) = some st1 ∧
      st1.cart = { freshCart defVersion with versionId := c.versionId, defaultVersion := false } ∧ st1.lineI = 2 :=
    ⟨_, readHead st0 rfl c.versionId, rfl, rfl⟩
  -- code
  have hlua : ∃ st2, readLines false st1 ((if inc sLua then [headerLine sLua, fromP8str unicaps c.code] else []).flatMap
      fun l => (splitNl l).map dropCr) = some st2 ∧
      st2.cart = { st1.cart with code := (if inc sLua then c.code else []), codeLine := if inc sLua then 3 else 0 } := by
    cases hi : inc sLua with
    | false => exact ⟨st1, rfl, by rw [c1]; rfl⟩
    | true =>
      simp only [if_true, List.flatMap_cons, List.flatMap_nil, List.append_nil]
      rw [splitHeader (by decide), List.cons_append, List.nil_append, readLines, readLine_header]
      simp only
      obtain ⟨st2, e1, e2⟩ := readCode (u := unicaps) hchars hcode
        { st1 with header := some sLua, y := 0, lineI := st1.lineI + 1 } rfl rfl (by rw [c1]; rfl)
      exact ⟨st2, e1, by rw [e2, l1]⟩
  obtain ⟨st2, hr2, c2⟩ := hlua
  have rom2 : st2.cart.rom = createRom := by rw [c2, c1]; rfl
  -- data sections
  obtain ⟨t3, st3, w3, r3, s3, m3, n3, g3⟩ := readSection (r := c.rom) (inc := inc sGfx) (name := sGfx) (base := 0) (size := 0x40)
    (max := 0x80) (rmax := 0x80) (addr := fun y => (memSpriteAddr 0 y).1) (row := gfxText c.rom) (f := gfxLine) (by decide)
    (Nat.le_refl _) (by omega) (by intro y _; simp only [memSpriteAddr]; omega)
    (by intro m y hm hml hy; simpa using gfxRow hmem hsize hm hml hy) (fun y t ht => gfxText_plain ht)
    (fun st t ht hh hy => readLine_gfx ht hh hy) st2 (by rw [rom2]; exact cr.1) (by rw [rom2]; exact cr.2)
    (by intro a _; rw [rom2])
  obtain ⟨t4, st4, w4, r4, s4, m4, n4, g4⟩ := readSection (r := c.rom) (inc := inc sMap) (name := sMap) (base := 0x2000) (size := 0x80)
    (max := 0x20) (rmax := 0x40) (addr := memMapAddr 0) (row := mapText c.rom) (f := mapLine) (by decide)
    (by omega) (by omega) (by intro y hy; simp only [memMapAddr, if_neg (by omega : ¬ y ≥ 32)]; omega)
    (by intro m y hm hml hy; exact mapRow hmem hsize hm hml hy) (fun y t ht => mapText_plain hmem ht)
    (fun st t ht hh hy => readLine_map ht hh hy) st3 m3 n3
    (by intro a ha; rw [(g3 a).2 (by omega), rom2])
  obtain ⟨t5, st5, w5, r5, s5, m5, n5, g5⟩ := readSection (r := c.rom) (inc := inc sGff) (name := sGff) (base := 0x3000) (size := 0x80)
    (max := 2) (rmax := 2) (addr := memFlagAddr 0) (row := gffText c.rom) (f := gffLine) (by decide)
    (by omega) (by omega) (by intro y hy; simp only [memFlagAddr]; omega)
    (by intro m y hm hml hy; exact gffRow hmem hsize hm hml hy) (fun y t ht => gffText_plain hmem ht)
    (fun st t ht hh hy => readLine_gff ht hh hy) st4 m4 n4
    (by intro a ha; rw [(g4 a).2 (by omega), (g3 a).2 (by omega), rom2])
  obtain ⟨t6, st6, w6, r6, s6, m6, n6, g6⟩ := readSection (r := c.rom) (inc := inc sSfx) (name := sSfx) (base := 0x3200) (size := 0x44)
    (max := 0x40) (rmax := 0x40) (addr := fun y => memSfxAddr y 0) (row := sfxText c.rom) (f := sfxLine) (by decide)
    (by omega) (by omega) (by intro y hy; simp only [memSfxAddr]; omega)
    (by intro m y hm hml hy; exact sfxRow hmem hsize hm hml hy) (fun y t ht => sfxText_plain hmem ht)
    (fun st t ht hh hy => readLine_sfx ht hh hy) st5 m5 n5
    (by intro a ha; rw [(g5 a).2 (by omega), (g4 a).2 (by omega), (g3 a).2 (by omega), rom2])
  obtain ⟨t7, st7, w7, r7, s7, m7, n7, g7⟩ := readSection (r := c.rom) (inc := inc sMusic) (name := sMusic) (base := 0x3100) (size := 4)
    (max := 0x40) (rmax := 0x40) (addr := fun y => memMusicAddr y 0) (row := musicText c.rom) (f := musicLine) (by decide)
    (by omega) (by omega) (by intro y hy; simp only [memMusicAddr]; omega)
    (by intro m y hm hml hy; exact musicRow hmem hsize hm hml hy) (fun y t ht => musicText_plain hmem ht)
    (fun st t ht hh hy => readLine_music ht hh hy) st6 m6 n6
    (by intro a ha; rw [(g6 a).2 (by omega), (g5 a).2 (by omega), (g4 a).2 (by omega), (g3 a).2 (by omega), rom2])
  have s27 : SameBut st2 st7 := (((s3.trans s4).trans s5).trans s6).trans s7
  have lab7 : st7.cart.label = none := by rw [s27, c2, c1]; rfl
  have met7 : st7.cart.metas = [] := by rw [s27, c2, c1]; rfl
  -- label
  have hlab : ∃ t8 st8, (match c.label with
      | none => some []
      | some l => sectionText (inc sLabel && l.any (· ≠ 0)) sLabel 128 (labelText l)) = some t8 ∧
      readLines false st7 (t8.flatMap fun l => (splitNl l).map dropCr) = some st8 ∧ SameButLabel st7 st8 ∧
      st8.cart.label = if inc sLabel && (c.label.getD []).any (· ≠ 0) then c.label else none := by
    cases hL : c.label with
    | none => exact ⟨[], st7, rfl, rfl, rfl, by rw [lab7]; simp⟩
    | some L =>
      simp only [Option.getD_some]
      obtain ⟨hl1, hl2⟩ := hlabel L hL
      by_cases hi : (inc sLabel && L.any (· ≠ 0)) = true
      · simp only [hi]
        obtain ⟨ts, st8, f1, f2, f3, f4, f5⟩ := readLabelRows hl2 hl1 128
          { st7 with header := some sLabel, y := 0, lineI := st7.lineI + 1 } rfl rfl (by intro l hl; rw [show _ = none from lab7] at hl; cases hl)
          (by intro k _ hk; exact absurd hk (Nat.not_lt_zero _))
        refine ⟨headerLine sLabel :: ts, st8, ?_, ?_, ?_, ?_⟩
        · simp only [sectionText]
          rw [if_pos (by simp), List.range_eq_range', f1]; rfl
        · rw [List.flatMap_cons, f2, splitHeader (by decide), List.cons_append, List.nil_append, readLines, readLine_header]
          exact f3
        · unfold SameButLabel at f4 ⊢; rw [f4]
        · simp only [if_true]; exact f5 (by omega)
      · refine ⟨[], st7, by simp only [sectionText]; rw [if_neg (by simp at hi ⊢; exact hi)], rfl, rfl, ?_⟩
        rw [if_neg hi, lab7]
  obtain ⟨t8, st8, w8, r8, s8, g8⟩ := hlab
  -- metadata
  have hmo : MetasOk ([] ++ c.metas.filter fun m => inc (sMeta ++ m.1)) := by
    refine ⟨?_, fun m hm => hmetas.2 m (List.mem_filter.mp hm).1⟩
    exact (List.Sublist.map (fun m : List Nat × List (List Nat) => m.1) List.filter_sublist).nodup hmetas.1
  obtain ⟨st9, r9, c9⟩ := readMetas (c.metas.filter fun m => inc (sMeta ++ m.1)) [] st8 hmo (by rw [s8]; exact met7)
  -- assemble
  have hlines : sourceLines unicaps inc c = some ([sP8Prefix ++ sP8Suffix, sVersion ++ natDigits c.versionId] ++
      (if inc sLua then [headerLine sLua, fromP8str unicaps c.code] else []) ++ t3 ++ t4 ++ t5 ++ t6 ++ t7 ++ t8 ++
      (c.metas.filter fun m => inc (sMeta ++ m.1)).flatMap fun m => headerLine (sMeta ++ m.1) :: m.2) := by
    unfold sourceLines
    simp only [w3, w4, w5, w6, w7]
    cases hL : c.label <;> rw [hL] at w8 <;> simp only at w8 ⊢
    · rw [Option.some.inj w8]
    · simp only [w8]
  generalize hall : ([sP8Prefix ++ sP8Suffix, sVersion ++ natDigits c.versionId] ++
      (if inc sLua then [headerLine sLua, fromP8str unicaps c.code] else []) ++ t3 ++ t4 ++ t5 ++ t6 ++ t7 ++ t8 ++
      (c.metas.filter fun m => inc (sMeta ++ m.1)).flatMap fun m => headerLine (sMeta ++ m.1) :: m.2) = all at hlines
  have hne : all ≠ [] := by rw [← hall]; simp
  refine ⟨joinNl all ++ [10], st9.cart, by unfold writeSource; rw [hlines]; rfl, ?_, ?_⟩
  · unfold readSource
    have hraw : (joinNl all ++ [10]).take 16 = sP8Prefix := by
      rw [← hall]
      simp only [List.cons_append, List.nil_append, List.append_assoc, joinNl]
      rfl
    simp only [hraw, beq_self_eq_true, Bool.true_or, Bool.not_true, Bool.or_self, Bool.false_eq_true, if_false]
    rw [p8SplitLines_join hne, ← hall]
    simp only [List.flatMap_append]
    rw [← List.flatMap_append, readLines_append, readLines_append, readLines_append, readLines_append, readLines_append,
      readLines_append, readLines_append, List.flatMap_append, readLines_append]
    have hhead' := hhead
    rw [show ([sP8Prefix ++ sP8Suffix, sVersion ++ natDigits c.versionId] : List (List Nat)) =
      [sP8Prefix ++ sP8Suffix, sVersion ++ natDigits c.versionId] from rfl] at hhead'
    rw [show (⟨freshCart defVersion, none, 0, 0⟩ : RState) = st0 from rfl, hhead']
    simp only [Option.bind_some, hr2, r3, r4, r5, r6, r7, r8, r9, Option.map_some]
  · have cart9 : st9.cart =
        { st2.cart with rom := st7.cart.rom, label := st8.cart.label, metas := c.metas.filter fun m => inc (sMeta ++ m.1) } := by
      rw [c9, s8, s27]; simp
    refine ⟨?_, ?_, ?_, ?_, ?_, ?_, ?_⟩
    · rw [cart9, c2, c1]; exact ⟨rfl, rfl⟩
    · rw [cart9, c2]
    · rw [cart9, c2]
    · rw [cart9]; exact n7
    · intro a
      rw [cart9, ← createRom_spec]
      simp only
      unfold sectionOf
      by_cases a1 : a < 0x2000
      · rw [if_pos a1, (g7 a).2 (by omega), (g6 a).2 (by omega), (g5 a).2 (by omega), (g4 a).2 (by omega), (g3 a).1 (by omega)]
      · rw [if_neg a1]
        by_cases a2 : a < 0x3000
        · rw [if_pos a2, (g7 a).2 (by omega), (g6 a).2 (by omega), (g5 a).2 (by omega), (g4 a).1 (by omega)]
        · rw [if_neg a2]
          by_cases a3 : a < 0x3100
          · rw [if_pos a3, (g7 a).2 (by omega), (g6 a).2 (by omega), (g5 a).1 (by omega)]
          · rw [if_neg a3]
            by_cases a4 : a < 0x3200
            · rw [if_pos a4, (g7 a).1 (by omega)]
            · rw [if_neg a4]
              by_cases a5 : a < 0x4300
              · rw [(g7 a).2 (by omega), (g6 a).1 (by omega)]
              · rw [get8_none (by omega), get8_none (by omega), get8_none (by have := cr.2; omega)]
                simp
    · rw [cart9]; exact g8
    · rw [cart9]

/-- **C13.** Saving a whole cart as `.p8` text and loading it restores all 0x4300 bytes and the label (a label of zeros only is
not written, and reads back as no label). -/
theorem C13_source_roundtrip {c : SCart} (h : SourceOk c) (unicaps : Bool) (defVersion : Nat) :
    ∃ text c', writeSource unicaps (fun _ => true) c = some text ∧ readSource defVersion false text = some c' ∧
      c'.rom = c.rom ∧ c'.label = (if (c.label.getD []).any (· ≠ 0) then c.label else none) := by
  obtain ⟨text, c', h1, h2, h3⟩ := C13_sections_roundtrip h unicaps (fun _ => true) defVersion
  refine ⟨text, c', h1, h2, ?_, by have := h3.label; simpa using this⟩
  apply List.ext_getElem?
  intro a
  have := h3.rom a
  simpa [get8] using this

/-- **C14.** Likewise the code (with the number of its first line), the version and the metadata. -/
theorem C14_source_roundtrip {c : SCart} (h : SourceOk c) (unicaps : Bool) (defVersion : Nat) :
    ∃ text c', writeSource unicaps (fun _ => true) c = some text ∧ readSource defVersion false text = some c' ∧
      c'.code = c.code ∧ c'.codeLine = 3 ∧ c'.versionId = c.versionId ∧ c'.metas = c.metas := by
  obtain ⟨text, c', h1, h2, h3⟩ := C13_sections_roundtrip h unicaps (fun _ => true) defVersion
  exact ⟨text, c', h1, h2, by simpa using h3.code, by simpa using h3.codeLine, h3.version.1, by rw [h3.metas]; simp⟩

/-- A cart with non-default memory, a label, code with a tab separator and special characters, and metadata. -/
def sampleCart : SCart where
  versionId := 41
  defaultVersion := false
  code := [45, 45, 62, 56, 10, 120, 61, 34, 142, 1, 65, 34, 10, 95, 95, 120, 61, 49, 10]
  codeLine := 0
  rom := (createRom.set 0x3205 0xe7).set 0x10 0xab
  label := some (List.replicate (128 * 128) 31)
  metas := [([116], [[97, 32], []]), ([117], [[95, 95, 98]])]

theorem sampleCart_ok : SourceOk sampleCart where
  mem := by
    intro b hb
    rcases List.mem_or_eq_of_mem_set hb with hb | rfl
    · rcases List.mem_or_eq_of_mem_set hb with hb | rfl
      · exact createRom_ok.1 b hb
      · decide
    · decide
  size := by simp only [sampleCart, List.length_set]; exact createRom_ok.2
  label := by
    intro L hL
    simp only [sampleCart, Option.some.injEq] at hL
    subst hL
    exact ⟨List.length_replicate, fun b hb => by rw [List.eq_of_mem_replicate hb]; decide⟩
  chars := by decide
  code := by
    have hs : splitNl sampleCart.code =
        [[45, 45, 62, 56], [120, 61, 34, 142, 1, 65, 34], [95, 95, 120, 61, 49], []] := by decide
    unfold CodeOk
    rw [hs]
    intro l hl
    simp only [List.mem_cons, List.not_mem_nil, or_false] at hl
    rcases hl with rfl | rfl | rfl | rfl
    · exact ⟨fun h => absurd h.1 (by decide), by decide⟩
    · exact ⟨fun h => absurd h.1 (by decide), by decide⟩
    · refine ⟨fun ⟨_, p, w, e, hw⟩ => ?_, by decide⟩
      rcases List.eq_nil_or_concat w with rfl | ⟨w', x, rfl⟩
      · have := congrArg List.getLast? e; simp at this
      · have h1 := congrArg List.getLast? e
        rw [List.concat_eq_append, ← List.append_assoc, List.getLast?_concat] at h1
        have h2 : 49 = x := Option.some.inj h1
        have := hw x (by simp); omega
    · exact ⟨fun h => absurd h.1 (by decide), by decide⟩
  metas := by
    refine ⟨by decide, ?_⟩
    intro m hm
    simp only [sampleCart, List.mem_cons, List.not_mem_nil, or_false] at hm
    rcases hm with rfl | rfl
    · refine ⟨by decide, by decide, ?_⟩
      intro l hl
      simp only [List.mem_cons, List.not_mem_nil, or_false] at hl
      rcases hl with rfl | rfl <;> exact ⟨by decide, by decide, by decide⟩
    · refine ⟨by decide, by decide, ?_⟩
      intro l hl
      simp only [List.mem_cons, List.not_mem_nil, or_false] at hl
      subst hl; exact ⟨by decide, by decide, by decide⟩

/-! ### Where `.p8` text loses information -/

/-- A cart holding only code (and metadata). -/
def codeCart (code : List Nat) (metas : List (List Nat × List (List Nat))) : SCart :=
  ⟨41, false, code, 0, createRom, none, metas⟩

/-- Code and metadata as found after saving (only these) and loading again. -/
def reloaded (code : List Nat) (metas : List (List Nat × List (List Nat))) : Option (List Nat × List (List Nat × List (List Nat))) :=
  ((writeSource false (fun s => s == sLua || s.take 5 == sMeta) (codeCart code metas)).bind (readSource 41 false)).map
    fun c => (c.code, c.metas)

/-- Code that is fine comes back. -/
example : reloaded [120, 61, 49, 10, 121] [([116], [[97]])] = some ([120, 61, 49, 10, 121], [([116], [[97]])]) := by
  decide +kernel

/-- **C14** fails for code with a line like `__a__` (for instance inside a long string or a comment): the rest of the code is
lost. -/
theorem C14_header_line_counterexample :
    reloaded [91, 91, 10, 95, 95, 97, 95, 95, 10, 93, 93] [] = some ([91, 91], []) := by decide +kernel

/-- **C14** fails for code with carriage returns before line ends. -/
theorem C14_cr_counterexample : reloaded [120, 13, 10, 121] [] = some ([120, 10, 121], []) := by decide +kernel

/-- **C14** fails for a metadata section without lines: it is dropped. -/
theorem C14_empty_meta_counterexample : reloaded [120] [([116], [])] = some ([120], []) := by decide +kernel

/-- The characters that Python takes for white space: tab to carriage return, the four separators, and those of Unicode's property. -/
def pythonSpaces : List Nat := [9, 10, 11, 12, 13, 28, 29, 30, 31, 32, 0x85, 0xa0, 0x1680, 0x2000, 0x2001, 0x2002, 0x2003, 0x2004, 0x2005, 0x2006,
  0x2007, 0x2008, 0x2009, 0x200a, 0x2028, 0x2029, 0x202f, 0x205f, 0x3000]

/-- **C14 (white space).** What is stripped from lines is what Python takes for white space. -/
theorem C14_white_space (c : Nat) : pyIsSpace c = true ↔ c ∈ pythonSpaces := by
  simp only [pyIsSpace, pythonSpaces, List.mem_cons, List.not_mem_nil, or_false, Bool.or_eq_true, Bool.and_eq_true, decide_eq_true_eq, beq_iff_eq]
  omega

end Verif
