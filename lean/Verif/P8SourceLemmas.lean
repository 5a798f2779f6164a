import Verif.P8RowLemmas
import Verif.Props.Charset
/-! Helper lemmas: sections and whole files of `.p8` text. -/
namespace Verif

theorem mapM_prop {α β : Type} {l : List α} {f : α → Option β} {r : List β} {P : β → Prop} (h : l.mapM f = some r)
    (hp : ∀ x ∈ l, ∀ v, f x = some v → P v) : r.length = l.length ∧ ∀ v ∈ r, P v := by
  induction l generalizing r with
  | nil => simp at h; subst h; simp
  | cons a l ih =>
    rw [List.mapM_cons] at h
    cases ha : f a with
    | none => simp [ha] at h
    | some b =>
      rw [ha] at h
      cases hl : l.mapM f with
      | none => simp [hl] at h
      | some bs =>
        simp [hl] at h
        subst h
        have := ih hl fun x hx => hp x (List.mem_cons_of_mem _ hx)
        refine ⟨by simp [this.1], ?_⟩
        intro v hv
        rcases List.mem_cons.mp hv with e | e
        · subst e; exact hp a (by simp) v ha
        · exact this.2 v e

/-- Neither white space nor underscore. -/
def DataChar (c : Nat) : Prop := pyIsSpace c = false ∧ c ≠ 95

/-- A line that is not blank, has no surrounding white space and cannot be taken for a header. -/
def PlainLine (t : List Nat) : Prop :=
  (∃ a, t.head? = some a ∧ DataChar a) ∧ (∃ a, t.getLast? = some a ∧ DataChar a) ∧ 10 ∉ t

theorem plain_of_all {t : List Nat} (h0 : t ≠ []) (h : ∀ c ∈ t, DataChar c) : PlainLine t := by
  refine ⟨?_, ?_, ?_⟩
  · cases t with
    | nil => contradiction
    | cons a t => exact ⟨a, rfl, h a (by simp)⟩
  · exact ⟨t.getLast h0, List.getLast?_eq_some_getLast h0, h _ (List.getLast_mem h0)⟩
  · intro hm
    have := (h 10 hm).1
    simp [pyIsSpace] at this

theorem PlainLine.strip {t : List Nat} (h : PlainLine t) : pyStrip t = t := by
  obtain ⟨⟨a, ha, da⟩, ⟨b, hb, db⟩, _⟩ := h
  apply pyStrip_tight
  · intro x hx; rw [ha] at hx; simp at hx; subst hx; exact da.1
  · intro x hx; rw [hb] at hx; simp at hx; subst hx; exact db.1

theorem PlainLine.not_header {t : List Nat} (h : PlainLine t) : isHeaderLine t = false := by
  obtain ⟨⟨a, ha, da⟩, _, _⟩ := h
  cases t with
  | nil => simp at ha
  | cons x t =>
    simp at ha; subst ha
    unfold isHeaderLine
    have := da.2
    cases t <;> simp [this]

theorem PlainLine.ne_nil {t : List Nat} (h : PlainLine t) : t ≠ [] := by
  obtain ⟨⟨a, ha, _⟩, _⟩ := h
  intro e; subst e; simp at ha

theorem PlainLine.dropCr {t : List Nat} (h : PlainLine t) : dropCr t = t := by
  obtain ⟨_, ⟨b, hb, db⟩, _⟩ := h
  unfold Verif.dropCr
  rw [if_neg]
  rw [hb]; intro e; simp at e; subst e
  have := db.1; simp [pyIsSpace] at this

theorem PlainLine.split {t : List Nat} (h : PlainLine t) : (splitNl t).map Verif.dropCr = [t] := by
  rw [splitNl_simple h.2.2, List.map_cons, h.dropCr]; rfl

theorem hexDigit_data {n : Nat} (h : n < 16) : DataChar (hexDigit n) := hexDigit_plain h

theorem gfxText_plain {r t : List Nat} {y : Nat} (h : gfxText r y = some t) : PlainLine t := by
  unfold gfxText at h
  cases hm : (List.range 128).mapM fun x => get4 r (memSpriteAddr x y) with
  | none => simp [hm] at h
  | some l =>
    simp [hm] at h; subst h
    have := mapM_prop (P := fun n => n < 16) hm (by
      intro x _ v hv
      unfold get4 get8Bits at hv
      cases h8 : get8 r (memSpriteAddr x y).1 with
      | none => simp [h8] at hv
      | some b => simp [h8] at hv; subst hv; exact and_lt16 _ (by omega))
    apply plain_of_all
    · intro e
      have := congrArg List.length e
      simp at this; simp [this] at *
    · intro c hc
      obtain ⟨n, hn, rfl⟩ := List.mem_map.mp hc
      exact hexDigit_data (this.2 n hn)

theorem hex2_data {b : Nat} (h : b < 256) : ∀ c ∈ hex2 b, DataChar c := by
  intro c hc
  simp [hex2] at hc
  rcases hc with rfl | rfl <;> exact hexDigit_data (by omega)

theorem flatMap_hex2_data {l : List Nat} (h : ∀ b ∈ l, b < 256) : ∀ c ∈ l.flatMap hex2, DataChar c := by
  intro c hc
  obtain ⟨b, hb, hc⟩ := List.mem_flatMap.mp hc
  exact hex2_data (h b hb) c hc

theorem byteText_plain {r t l : List Nat} (hr : IsMem r) {n : Nat} (hn : n ≠ 0) {addr : Nat → Nat}
    (hm : (List.range n).mapM (fun x => get8 r (addr x)) = some l) (h : t = l.flatMap hex2) : PlainLine t := by
  have := mapM_prop (P := fun n => n < 256) hm (fun x _ v hv => get8_lt hr hv)
  subst h
  apply plain_of_all
  · intro e
    have h1 := congrArg List.length e
    rw [flatMap_hex2_length, this.1] at h1
    simp at h1; omega
  · exact flatMap_hex2_data this.2

theorem mapText_plain {r t : List Nat} (hr : IsMem r) {y : Nat} (h : mapText r y = some t) : PlainLine t := by
  unfold mapText at h
  cases hm : (List.range 128).mapM fun x => get8 r (memMapAddr x y) with
  | none => simp [hm] at h
  | some l => rw [hm] at h; simp at h; exact byteText_plain hr (by omega) hm h.symm

theorem gffText_plain {r t : List Nat} (hr : IsMem r) {y : Nat} (h : gffText r y = some t) : PlainLine t := by
  unfold gffText at h
  cases hm : (List.range 128).mapM fun x => get8 r (memFlagAddr x y) with
  | none => simp [hm] at h
  | some l => rw [hm] at h; simp at h; exact byteText_plain hr (by omega) hm h.symm

theorem sfxText_plain {r t : List Nat} (hr : IsMem r) {y : Nat} (h : sfxText r y = some t) : PlainLine t := by
  unfold sfxText at h
  cases hm : (List.range 4).mapM fun x => get8 r (memSfxInfoAddr y x) with
  | none => simp [hm] at h
  | some l =>
    rw [hm] at h
    simp only at h
    cases hn : (List.range 32).mapM fun x => get16 r (memSfxAddr y x) with
    | none => simp [hn] at h
    | some notes =>
      rw [hn] at h
      simp only [Option.some.injEq] at h
      have hl := mapM_prop (P := fun n => n < 256) hm (fun x _ v hv => get8_lt hr hv)
      subst h
      apply plain_of_all
      · intro e
        have h1 := congrArg List.length e
        rw [List.length_append, flatMap_hex2_length, hl.1, List.length_range, List.length_nil] at h1
        omega
      · intro c hc
        rcases List.mem_append.mp hc with hc | hc
        · exact flatMap_hex2_data hl.2 c hc
        · obtain ⟨n, _, hc⟩ := List.mem_flatMap.mp hc
          obtain ⟨d, hd, rfl⟩ := List.mem_map.mp hc
          exact hexDigit_data ((noteDigits_lt n).2 d hd)

theorem musicText_plain {r t : List Nat} (hr : IsMem r) {y : Nat} (h : musicText r y = some t) : PlainLine t := by
  unfold musicText at h
  cases hm : (List.range 4).mapM fun x => get8 r (memMusicAddr y x) with
  | none => simp [hm] at h
  | some l =>
    rw [hm] at h
    simp only [Option.map_some, Option.some.injEq] at h
    have hl := mapM_prop (P := fun n => n < 256) hm (fun x _ v hv => get8_lt hr hv)
    match l, hl with
    | [a, b, c, d], hl =>
      have hlt := (musicFlags_bit a b c d).1
      have hd := (chan_split (hl.2 d (by simp))).2
      have d1 := hex2_data hlt
      have d2 := hex2_data hd
      subst h
      refine ⟨⟨hexDigit (musicFlags [a, b, c, d] / 16), by simp [hex2], d1 _ (by simp [hex2])⟩,
        ⟨hexDigit ((d &&& 0x7f) % 16), by simp [hex2], d2 _ (by simp [hex2])⟩, ?_⟩
      intro hm
      rcases List.mem_append.mp hm with h | h
      · have := (d1 10 h).1; simp [pyIsSpace] at this
      · rcases List.mem_cons.mp h with h | h
        · simp at h
        · obtain ⟨x, hx, h⟩ := List.mem_flatMap.mp h
          have := (hex2_data (chan_split (hl.2 x hx)).2 10 h).1; simp [pyIsSpace] at this

theorem extDigit_ok {n : Nat} (h : n < 32) : extVal (extDigit n) = some n ∧ DataChar (extDigit n) := by
  have : ∀ n : Fin 32, extVal (extDigit n.1) = some n.1 ∧ pyIsSpace (extDigit n.1) = false ∧ extDigit n.1 ≠ 95 := by decide
  exact this ⟨n, h⟩

/-! ### One line of the reader -/

theorem readLine_header (st : RState) (name : List Nat) :
    readLine false st (headerLine name) = some { st with header := some name, y := 0 } := by
  have hs : pyStrip (headerLine name) = headerLine name := by
    apply pyStrip_tight
    · intro a ha; simp [headerLine] at ha; subst ha; decide
    · intro a ha
      have : (headerLine name).getLast? = some 95 := by
        unfold headerLine
        have : 95 :: 95 :: (name ++ [95, 95]) = (95 :: 95 :: (name ++ [95])) ++ [95] := by simp
        rw [this, List.getLast?_append]; rfl
      rw [this] at ha; simp at ha; subst ha; decide
  have hh : isHeaderLine (headerLine name) = true := by
    unfold isHeaderLine
    rw [hs]
    have e1 : (headerLine name).length - 2 = (95 :: 95 :: name).length := by simp [headerLine]
    have e2 : headerLine name = (95 :: 95 :: name) ++ [95, 95] := by simp [headerLine]
    rw [e1]
    have e3 : (headerLine name).drop (95 :: 95 :: name).length = [95, 95] := by
      rw [e2]; exact List.drop_left
    rw [e3]
    simp [headerLine]
  unfold readLine
  simp only [hh, hs, Bool.not_false, Bool.and_self, if_true]
  have e : ((headerLine name).drop 2).take ((headerLine name).length - 4) = name := by
    simp [headerLine]
  rw [e]

theorem splitHeader {name : List Nat} (h : 10 ∉ name) : (splitNl (headerLine name)).map dropCr = [headerLine name] := by
  rw [splitNl_simple (by simp [headerLine, h])]
  unfold dropCr
  have : (headerLine name).getLast? = some 95 := by
    unfold headerLine
    have : 95 :: 95 :: (name ++ [95, 95]) = (95 :: 95 :: (name ++ [95])) ++ [95] := by simp
    rw [this, List.getLast?_append]; rfl
  simp [this]

section
variable {st : RState} {t : List Nat} (ht : PlainLine t)
include ht

theorem readLine_gfx (hh : st.header = some sGfx) (hy : st.y < 0x80) :
    readLine false st t = (gfxLine st.cart.rom st.y t).map fun rom =>
      { st with cart := { st.cart with rom := rom }, y := st.y + 1 } := by
  unfold readLine
  simp [ht.strip, ht.not_header, ht.ne_nil, hh, hy, sGfx, sLua]

theorem readLine_map (hh : st.header = some sMap) (hy : st.y < 0x40) :
    readLine false st t = (mapLine st.cart.rom st.y t).map fun rom =>
      { st with cart := { st.cart with rom := rom }, y := st.y + 1 } := by
  unfold readLine
  simp [ht.strip, ht.not_header, ht.ne_nil, hh, hy, sGfx, sLua, sMap]

theorem readLine_gff (hh : st.header = some sGff) (hy : st.y < 2) :
    readLine false st t = (gffLine st.cart.rom st.y t).map fun rom =>
      { st with cart := { st.cart with rom := rom }, y := st.y + 1 } := by
  unfold readLine
  simp [ht.strip, ht.not_header, ht.ne_nil, hh, hy, sGfx, sLua, sMap, sGff]

theorem readLine_sfx (hh : st.header = some sSfx) (hy : st.y < 0x40) :
    readLine false st t = (sfxLine st.cart.rom st.y t).map fun rom =>
      { st with cart := { st.cart with rom := rom }, y := st.y + 1 } := by
  unfold readLine
  simp [ht.strip, ht.not_header, ht.ne_nil, hh, hy, sGfx, sLua, sMap, sGff, sSfx]

theorem readLine_music (hh : st.header = some sMusic) (hy : st.y < 0x40) :
    readLine false st t = (musicLine st.cart.rom st.y t).map fun rom =>
      { st with cart := { st.cart with rom := rom }, y := st.y + 1 } := by
  unfold readLine
  simp [ht.strip, ht.not_header, ht.ne_nil, hh, hy, sGfx, sLua, sMap, sGff, sSfx, sMusic]

theorem readLine_label (hh : st.header = some sLabel) (hy : st.y < 0x80) :
    readLine false st t = (labelLine st.cart.label st.y t).map fun l =>
      { st with cart := { st.cart with label := some l }, y := st.y + 1 } := by
  unfold readLine
  simp [ht.strip, ht.not_header, ht.ne_nil, hh, hy, sGfx, sLua, sMap, sGff, sSfx, sMusic, sLabel]

end

theorem readLines_append (raw : Bool) (st : RState) (a b : List (List Nat)) :
    readLines raw st (a ++ b) = (readLines raw st a).bind fun st => readLines raw st b := by
  induction a generalizing st with
  | nil => rfl
  | cons l a ih =>
    rw [List.cons_append, readLines, readLines]
    cases readLine raw st l with
    | none => rfl
    | some st => exact ih _

/-! ### Data sections -/

/-- The part of the state a data section leaves alone. -/
def SameBut (st st' : RState) : Prop :=
  st'.cart = { st.cart with rom := st'.cart.rom }

theorem SameBut.refl (st : RState) : SameBut st st := rfl

theorem SameBut.trans {a b c : RState} (h1 : SameBut a b) (h2 : SameBut b c) : SameBut a c := by
  unfold SameBut at *
  rw [h2, h1]

/-- Reading the lines written for rows `y`, `y+1`, ... of a section. -/
theorem readRows {r : List Nat} {name : List Nat} {row : Nat → Option (List Nat)} {f : List Nat → Nat → List Nat → Option (List Nat)}
    {base size max : Nat}
    (hrow : ∀ m y, IsMem m → m.length = 0x4300 → y < max → ∃ t m', row y = some t ∧ f m y t = some m' ∧
      RowDone r m m' fun a => base + size * y ≤ a ∧ a < base + size * y + size)
    (hplain : ∀ y t, row y = some t → PlainLine t)
    (hstep : ∀ (st : RState) t, PlainLine t → st.header = some name → st.y < max →
      readLine false st t = (f st.cart.rom st.y t).map fun rom =>
        { st with cart := { st.cart with rom := rom }, y := st.y + 1 }) :
    ∀ n (st : RState), st.header = some name → st.y + n ≤ max → IsMem st.cart.rom → st.cart.rom.length = 0x4300 →
      ∃ ts st', (List.range' st.y n).mapM row = some ts ∧ ts.flatMap (fun l => (splitNl l).map dropCr) = ts ∧
        readLines false st ts = some st' ∧ SameBut st st' ∧ IsMem st'.cart.rom ∧ st'.cart.rom.length = 0x4300 ∧
        ∀ a, (base + size * st.y ≤ a ∧ a < base + size * (st.y + n) → get8 st'.cart.rom a = get8 r a) ∧
          (¬ (base + size * st.y ≤ a ∧ a < base + size * (st.y + n)) → get8 st'.cart.rom a = get8 st.cart.rom a) := by
  intro n
  induction n with
  | zero =>
    intro st _ _ h1 h2
    exact ⟨[], st, rfl, rfl, rfl, rfl, h1, h2, fun a => ⟨fun h => by rw [Nat.add_zero] at h; omega, fun _ => rfl⟩⟩
  | succ n ih =>
    intro st hh hy h1 h2
    obtain ⟨t, m', e1, e2, g1, g2, g3⟩ := hrow st.cart.rom st.y h1 h2 (by omega)
    have hp := hplain _ _ e1
    obtain ⟨ts, st', f1, f2, f3, f4, f5, f6, f7⟩ := ih
      { st with cart := { st.cart with rom := m' }, y := st.y + 1, lineI := st.lineI + 1 } hh (by simp; omega) g1 g2
    refine ⟨t :: ts, st', ?_, ?_, ?_, ?_, f5, f6, ?_⟩
    · rw [List.range'_succ, List.mapM_cons, e1]
      simp only [] at f1
      simp [f1]
    · rw [List.flatMap_cons, f2, hp.split]; rfl
    · rw [readLines, hstep st t hp hh (by omega), e2]
      exact f3
    · unfold SameBut at f4 ⊢; rw [f4]
    · intro a
      have es : size * (st.y + 1) = size * st.y + size := by rw [Nat.mul_add, Nat.mul_one]
      have en : st.y + 1 + n = st.y + (n + 1) := by omega
      have := f7 a
      simp only [es, en] at this
      have em : size * st.y + size ≤ size * (st.y + (n + 1)) := by
        rw [← es]; exact Nat.mul_le_mul_left _ (by omega)
      have g := g3 a
      by_cases hi : base + (size * st.y + size) ≤ a ∧ a < base + size * (st.y + (n + 1))
      · exact ⟨fun _ => this.1 hi, fun h => absurd (by omega) h⟩
      · rw [this.2 hi]
        exact ⟨fun h => g.1 (by omega), fun h => g.2 (by omega)⟩

theorem isMem_set {m : List Nat} (hm : IsMem m) (i : Nat) {v : Nat} (hv : v < 256) : IsMem (m.set i v) := by
  intro b hb
  rcases List.mem_or_eq_of_mem_set hb with h | h
  · exact hm b h
  · omega

theorem createRomStep_ok {m : List Nat} (hm : IsMem m) (i : Nat) :
    IsMem (createRomStep m i) ∧ (createRomStep m i).length = m.length := by
  unfold createRomStep
  simp only [List.range, List.range.loop, List.foldl]
  refine ⟨?_, by simp⟩
  refine isMem_set (isMem_set (isMem_set (isMem_set (isMem_set hm _ ?_) _ (by omega)) _ (by omega)) _ (by omega)) _ (by omega)
  split <;> omega

theorem createRom_ok : IsMem createRom ∧ createRom.length = 0x4300 := by
  unfold createRom
  have : ∀ (l : List Nat) m, IsMem m → IsMem (l.foldl createRomStep m) ∧ (l.foldl createRomStep m).length = m.length := by
    intro l
    induction l with
    | nil => exact fun m hm => ⟨hm, rfl⟩
    | cons a l ih =>
      intro m hm
      have h := createRomStep_ok hm a
      rw [List.foldl_cons]
      exact ⟨(ih _ h.1).1, by rw [(ih _ h.1).2, h.2]⟩
  have h := this (List.range 0x40) (List.replicate 0x4300 0) (by intro b hb; rw [List.eq_of_mem_replicate hb]; omega)
  rw [List.length_replicate] at h
  exact h

theorem neededLines_spec {rom : List Nat} {addr : Nat → Nat} {size : Nat} (n : Nat) :
    neededLines rom addr size n ≤ n ∧
    ∀ y, neededLines rom addr size n ≤ y → y < n → ∀ k, k < size → get8 rom (addr y + k) = get8 createRom (addr y + k) := by
  have hne : createRom.isEmpty = false := by
    cases h : createRom with
    | nil => have := createRom_ok.2; rw [h, List.length_nil] at this; omega
    | cons => rfl
  induction n with
  | zero => exact ⟨Nat.le_refl _, fun y _ h => by omega⟩
  | succ n ih =>
    unfold neededLines
    by_cases h : cmpeq8 rom (addr n) (addr n) size createRom = true
    · rw [if_pos h]
      refine ⟨by omega, fun y h1 h2 k hk => ?_⟩
      by_cases hy : y = n
      · subst hy
        have := (C12_cmpeq8 _ _ _ _ _).mp h k hk
        rw [hne] at this
        exact this
      · exact ih.2 y h1 (by omega) k hk
    · rw [if_neg h]
      exact ⟨Nat.le_refl _, fun y h1 h2 => by omega⟩

/-- Reading a whole data section as written: with its trailing default rows left out. -/
theorem readSection {r : List Nat} {name : List Nat} {row : Nat → Option (List Nat)} {f : List Nat → Nat → List Nat → Option (List Nat)}
    {base size max rmax : Nat} {addr : Nat → Nat} {inc : Bool} (hname : 10 ∉ name) (hmax : max ≤ rmax)
    (hsz : 0 < size) (haddr : ∀ y, y < max → addr y = base + size * y)
    (hrow : ∀ m y, IsMem m → m.length = 0x4300 → y < max → ∃ t m', row y = some t ∧ f m y t = some m' ∧
      RowDone r m m' fun a => base + size * y ≤ a ∧ a < base + size * y + size)
    (hplain : ∀ y t, row y = some t → PlainLine t)
    (hstep : ∀ (st : RState) t, PlainLine t → st.header = some name → st.y < rmax →
      readLine false st t = (f st.cart.rom st.y t).map fun rom =>
        { st with cart := { st.cart with rom := rom }, y := st.y + 1 })
    (st : RState) (h1 : IsMem st.cart.rom) (h2 : st.cart.rom.length = 0x4300)
    (hdef : ∀ a, base ≤ a ∧ a < base + size * max → get8 st.cart.rom a = get8 createRom a) :
    ∃ ts st', sectionText inc name (neededLines r addr size max) row = some ts ∧
      readLines false st (ts.flatMap fun l => (splitNl l).map dropCr) = some st' ∧ SameBut st st' ∧ IsMem st'.cart.rom ∧
      st'.cart.rom.length = 0x4300 ∧
      ∀ a, (base ≤ a ∧ a < base + size * max → get8 st'.cart.rom a = if inc then get8 r a else get8 createRom a) ∧
        (¬ (base ≤ a ∧ a < base + size * max) → get8 st'.cart.rom a = get8 st.cart.rom a) := by
  obtain ⟨k1, k2⟩ := neededLines_spec (rom := r) (addr := addr) (size := size) max
  generalize hN : neededLines r addr size max = N at k1 k2
  have hel : ∀ a, base + size * N ≤ a ∧ a < base + size * max → get8 r a = get8 createRom a := by
    intro a ha
    have hq : (a - base) / size < max := by
      rw [Nat.div_lt_iff_lt_mul hsz, Nat.mul_comm]; omega
    have hq2 : N ≤ (a - base) / size := by
      rw [Nat.le_div_iff_mul_le hsz, Nat.mul_comm]; omega
    have hd := Nat.div_add_mod (a - base) size
    have := k2 _ hq2 hq ((a - base) % size) (Nat.mod_lt _ hsz)
    rw [haddr _ hq] at this
    rw [show base + size * ((a - base) / size) + (a - base) % size = a by omega] at this
    exact this
  cases inc with
  | false =>
    refine ⟨[], st, by simp [sectionText], rfl, rfl, h1, h2, fun a => ⟨fun h => ?_, fun _ => rfl⟩⟩
    simp only [Bool.false_eq_true, if_false]
    exact hdef a h
  | true =>
    by_cases h0 : N = 0
    · subst h0
      refine ⟨[], st, by simp [sectionText], rfl, rfl, h1, h2, fun a => ⟨fun h => ?_, fun _ => rfl⟩⟩
      simp only [if_true]
      rw [hel a (by omega), hdef a h]
    · obtain ⟨ts, st', f1, f2, f3, f4, f5, f6, f7⟩ := readRows (max := max) hrow hplain
        (fun st t hp hh hy => hstep st t hp hh (by omega)) N
        { st with header := some name, y := 0, lineI := st.lineI + 1 } rfl (by simpa using k1) h1 h2
      refine ⟨headerLine name :: ts, st', ?_, ?_, ?_, f5, f6, fun a => ?_⟩
      · simp only [sectionText]
        rw [if_pos (by simp [h0])]
        rw [List.range_eq_range', f1]; rfl
      · rw [List.flatMap_cons, f2, splitHeader hname, List.cons_append, List.nil_append, readLines, readLine_header]
        exact f3
      · unfold SameBut at f4 ⊢; rw [f4]
      · have := f7 a
        simp only [Nat.mul_zero, Nat.add_zero, Nat.zero_add] at this
        have hle : size * N ≤ size * max := Nat.mul_le_mul_left _ k1
        simp only [if_true]
        by_cases hi : base ≤ a ∧ a < base + size * N
        · exact ⟨fun _ => this.1 hi, fun h => absurd (by omega) h⟩
        · refine ⟨fun h => ?_, fun h => this.2 (by omega)⟩
          rw [this.2 hi, hel a (by omega), hdef a h]

/-! ### Label -/

theorem labelText_ok {L t : List Nat} {y : Nat} (hlt : ∀ b ∈ L, b < 32) (h : labelText L y = some t) : PlainLine t := by
  unfold labelText at h
  cases hm : (List.range 128).mapM fun x => L[x * 128 + y]? with
  | none => simp [hm] at h
  | some l =>
    simp [hm] at h; subst h
    have := mapM_prop (P := fun n => n < 32) hm (fun x _ v hv => hlt v (List.mem_of_getElem? hv))
    apply plain_of_all
    · intro e
      have h1 := congrArg List.length e
      rw [List.length_map, this.1, List.length_range, List.length_nil] at h1
      omega
    · intro c hc
      obtain ⟨n, hn, rfl⟩ := List.mem_map.mp hc
      exact (extDigit_ok (this.2 n hn)).2

theorem mapM_map_some {α : Type} {l : List α} {f : Nat → Option α} {g : α → Nat} (h : ∀ x ∈ l, f (g x) = some x) :
    (l.map g).mapM f = some l := by
  induction l with
  | nil => rfl
  | cons a l ih =>
    rw [List.map_cons, List.mapM_cons, h a (by simp), ih fun x hx => h x (List.mem_cons_of_mem _ hx)]
    rfl

theorem labelRow {L : List Nat} (hlt : ∀ b ∈ L, b < 32) (hL : L.length = 128 * 128) {cur : Option (List Nat)}
    (hcur : ∀ l, cur = some l → l.length = 128 * 128) {y : Nat} (hy : y < 128) :
    ∃ t l', labelText L y = some t ∧ labelLine cur y t = some l' ∧ l'.length = 128 * 128 ∧
      ∀ k, (k < 128 * 128 → k % 128 = y → l'[k]? = L[k]?) ∧
        (k % 128 ≠ y → l'[k]? = (cur.getD (List.replicate (128 * 128) 0))[k]?) := by
  have hidx : ∀ x, x < 128 → x * 128 + y < L.length := by intro x hx; omega
  have hval : ∀ x, x < 128 → L[x * 128 + y]? = some (L.getD (x * 128 + y) 0) := by
    intro x hx; simp [List.getD, hidx x hx]
  have hm : (List.range 128).mapM (fun x => L[x * 128 + y]?) = some ((List.range 128).map fun x => L.getD (x * 128 + y) 0) :=
    mapM_some fun x hx => hval x (by simpa using hx)
  have hlen : (cur.getD (List.replicate (128 * 128) 0)).length = 128 * 128 := by
    cases cur with
    | none => exact List.length_replicate
    | some l => exact hcur l rfl
  generalize hc0 : cur.getD (List.replicate (128 * 128) 0) = c0 at hlen
  have := writeRow_spec (f := fun l x b => setLabel l x y b) (lim := 128) (fun l => l.length = 128 * 128) (fun l k => l[k]?)
    (fun x => L.getD (x * 128 + y) 0) (fun x k => k = x * 128 + y) (fun k => L[k]?) (by
      intro s x hs hx
      refine ⟨s.set (x * 128 + y) (L.getD (x * 128 + y) 0), by simp [setLabel, hx, hy], by simpa using hs, fun k => ⟨?_, ?_⟩⟩
      · intro hk; subst hk
        rw [hval x hx, List.getElem?_set_self (by rw [hs]; omega)]
      · intro hk
        rw [List.getElem?_set_ne (by omega)]) 128 0 c0 (by omega) hlen
  obtain ⟨l', e, i1, g⟩ := this
  refine ⟨((List.range 128).map fun x => L.getD (x * 128 + y) 0).map extDigit, l', ?_, ?_, i1, fun k => ⟨?_, ?_⟩⟩
  · unfold labelText; rw [hm]; rfl
  · unfold labelLine
    rw [mapM_map_some]
    · simp only
      rw [hc0, List.range_eq_range']; exact e
    · intro b hb
      obtain ⟨x, hx, rfl⟩ := List.mem_map.mp hb
      exact (extDigit_ok (hlt _ (List.mem_of_getElem? (hval x (by simpa using hx))))).1
  · intro h1 h2
    exact (g k).1 ⟨k / 128, by omega, by omega, by omega⟩
  · intro h
    exact (g k).2 fun ⟨j, h1, h2, h3⟩ => h (by omega)

/-- The part of the state a label section leaves alone. -/
def SameButLabel (st st' : RState) : Prop :=
  st'.cart = { st.cart with label := st'.cart.label }

theorem readLabelRows {L : List Nat} (hlt : ∀ b ∈ L, b < 32) (hL : L.length = 128 * 128) :
    ∀ n (st : RState), st.header = some sLabel → st.y + n = 128 → (∀ l, st.cart.label = some l → l.length = 128 * 128) →
      (∀ k, k < 128 * 128 → k % 128 < st.y → (st.cart.label.getD (List.replicate (128 * 128) 0))[k]? = L[k]?) →
      ∃ ts st', (List.range' st.y n).mapM (labelText L) = some ts ∧
        ts.flatMap (fun l => (splitNl l).map dropCr) = ts ∧ readLines false st ts = some st' ∧ SameButLabel st st' ∧
        (n ≠ 0 → st'.cart.label = some L) := by
  intro n
  induction n with
  | zero => intro st _ _ _ _; exact ⟨[], st, rfl, rfl, rfl, rfl, by simp⟩
  | succ n ih =>
    intro st hh hy hlen hprev
    obtain ⟨t, l', e1, e2, e3, e4⟩ := labelRow hlt hL hlen (y := st.y) (by omega)
    have hp := labelText_ok hlt e1
    have hnew : ∀ k, k < 128 * 128 → k % 128 < st.y + 1 → l'[k]? = L[k]? := by
      intro k hk hk2
      by_cases h : k % 128 = st.y
      · exact (e4 k).1 hk h
      · rw [(e4 k).2 h]; exact hprev k hk (by omega)
    obtain ⟨ts, st', f1, f2, f3, f4, f5⟩ := ih
      { st with cart := { st.cart with label := some l' }, y := st.y + 1, lineI := st.lineI + 1 } hh (by simp; omega)
      (by intro l h; simp at h; subst h; exact e3) hnew
    refine ⟨t :: ts, st', ?_, ?_, ?_, ?_, fun _ => ?_⟩
    · rw [List.range'_succ, List.mapM_cons, e1]
      simp only [] at f1
      simp [f1]
    · rw [List.flatMap_cons, f2, hp.split]; rfl
    · rw [readLines, readLine_label hp hh (by omega), e2]
      exact f3
    · unfold SameButLabel at f4 ⊢; rw [f4]
    · by_cases hn : n = 0
      · subst hn
        have hLe : l' = L := by
          apply List.ext_getElem?
          intro k
          by_cases hk : k < 128 * 128
          · exact hnew k hk (by omega)
          · rw [List.getElem?_eq_none (by omega), List.getElem?_eq_none (by omega)]
        simp at f1
        subst f1
        simp [readLines] at f3
        rw [← f3, hLe]
      · exact f5 hn

/-! ### Code -/

/-- White space or underscore: the characters the header test looks at. -/
def special (a : Nat) : Bool := pyIsSpace a || a == 95

/-- The text of one character. -/
def entry (u : Bool) (c : Nat) : List Nat := (if u then unicapCharset else charset).getD c []

theorem entry_special_table : ∀ u : Bool, ∀ c : Fin 256,
    entry u c.1 ≠ [] ∧ (∀ a ∈ entry u c.1, special a = true → entry u c.1 = [a] ∧ a = c.1 ∧ (a = 9 ∨ a = 10 ∨ a = 13 ∨ a = 32 ∨ a = 95)) := by
  decide +kernel

theorem entry_special {u : Bool} {c : Nat} (hc : c < 256) : entry u c ≠ [] ∧
    (∀ a ∈ entry u c, special a = true → entry u c = [a] ∧ a = c ∧ (a = 9 ∨ a = 10 ∨ a = 13 ∨ a = 32 ∨ a = 95)) :=
  entry_special_table u ⟨c, hc⟩

theorem entry_plain : ∀ u : Bool, entry u 10 = [10] ∧ entry u 95 = [95] ∧ entry u 13 = [13] := by decide +kernel

theorem fromP8_cons (u : Bool) (c : Nat) (s : List Nat) : fromP8str u (c :: s) = entry u c ++ fromP8str u s := by
  simp [fromP8str, entry]

theorem fromP8_append (u : Bool) (a b : List Nat) : fromP8str u (a ++ b) = fromP8str u a ++ fromP8str u b := by
  simp [fromP8str]

theorem splitNl_prefix {a : List Nat} (h : 10 ∉ a) (s : List Nat) (l : List Nat) (ls : List (List Nat))
    (hs : splitNl s = l :: ls) : splitNl (a ++ s) = (a ++ l) :: ls := by
  induction a with
  | nil => exact hs
  | cons c a ih =>
    simp only [List.mem_cons, not_or] at h
    rw [List.cons_append, splitNl, if_neg (by omega), ih h.2]
    rfl

theorem splitNl_fromP8 (u : Bool) {s : List Nat} (hs : ∀ c ∈ s, c < 256) :
    splitNl (fromP8str u s) = (splitNl s).map (fromP8str u) := by
  induction s with
  | nil => rfl
  | cons c s ih =>
    have ih := ih fun x hx => hs x (List.mem_cons_of_mem _ hx)
    rw [fromP8_cons, splitNl]
    by_cases hc : c = 10
    · subst hc
      rw [if_pos rfl, (entry_plain u).1, List.cons_append, List.nil_append, splitNl, if_pos rfl, ih]
      rfl
    · rw [if_neg hc]
      have hn : 10 ∉ entry u c := by
        intro hm
        have := (entry_special (u := u) (hs c (by simp))).2 10 hm (by decide)
        omega
      cases hsp : splitNl s with
      | nil => exact absurd hsp (splitNl_ne_nil s)
      | cons l ls =>
        rw [hsp] at ih
        rw [splitNl_prefix hn _ _ _ ih]
        simp [fromP8_cons]

/-- A tail of special characters of the text comes from the same tail of the string. -/
theorem fromP8_tail (u : Bool) {s : List Nat} (hs : ∀ c ∈ s, c < 256) {p q : List Nat} (h : fromP8str u s = p ++ q)
    (hq : ∀ a ∈ q, special a = true) : ∃ s', s = s' ++ q ∧ fromP8str u s' = p := by
  generalize hr : q.reverse = r
  induction r generalizing q p s with
  | nil =>
    have : q = [] := by simpa using hr
    subst this
    exact ⟨s, by simp, by simpa using h⟩
  | cons a r ih =>
    have hqa : q = r.reverse ++ [a] := by
      have := congrArg List.reverse hr; simpa using this
    subst hqa
    rcases List.eq_nil_or_concat s with e | ⟨s0, c, e⟩
    · subst e
      have := congrArg List.length h
      simp [fromP8str] at this
    · rw [List.concat_eq_append] at e; subst e
      have hc := hs c (by simp)
      obtain ⟨hne, hsp⟩ := entry_special (u := u) hc
      have e1 : fromP8str u (s0 ++ [c]) = fromP8str u s0 ++ entry u c := by
        rw [fromP8_append, fromP8_cons]; simp [fromP8str]
      rw [e1, ← List.append_assoc] at h
      have hlast : entry u c = (entry u c).dropLast ++ [(entry u c).getLast hne] := (List.dropLast_concat_getLast hne).symm
      have ha : (entry u c).getLast hne = a := by
        have := congrArg List.getLast? h
        rw [hlast, ← List.append_assoc] at this
        simpa using this
      obtain ⟨h3, h4, _⟩ := hsp a (ha ▸ List.getLast_mem hne) (hq a (by simp))
      rw [h3] at h
      have h5 : fromP8str u s0 = p ++ r.reverse := List.append_cancel_right h
      obtain ⟨s', e2, e3⟩ := ih (fun x hx => hs x (by simp [hx])) h5 (fun x hx => hq x (by simp at hx ⊢; exact .inl hx)) (by simp)
      exact ⟨s', by rw [e2, h4]; simp, e3⟩

/-- A line of code (P8SCII) that the reader would take for a section header: it begins with two underscores and, blanks at the
end aside, ends with two. -/
def LooksLikeHeader (l : List Nat) : Prop :=
  [95, 95] <+: l ∧ ∃ p w, l = p ++ [95, 95] ++ w ∧ ∀ c ∈ w, c = 9 ∨ c = 13 ∨ c = 32

theorem isHeaderLine_fromP8 {u : Bool} {l : List Nat} (hl : ∀ c ∈ l, c < 256) (hn : 10 ∉ l)
    (h : isHeaderLine (fromP8str u l) = true) : LooksLikeHeader l := by
  unfold isHeaderLine at h
  simp only [Bool.and_eq_true, beq_iff_eq] at h
  obtain ⟨h1, h2⟩ := h
  generalize ht : fromP8str u l = t at h1 h2
  have hstart : t = [95, 95] ++ t.drop 2 := by
    rw [← h1]; exact (List.take_append_drop 2 t).symm
  constructor
  · -- the first two characters
    match l, hl with
    | [], _ => rw [← ht] at h1; simp [fromP8str] at h1
    | [c], hl =>
      rw [fromP8_cons] at ht
      obtain ⟨hne, hsp⟩ := entry_special (u := u) (hl c (by simp))
      cases he : entry u c with
      | nil => exact absurd he hne
      | cons a r =>
        rw [he] at ht hsp
        rw [hstart] at ht
        simp at ht
        have := hsp a (by simp) (by rw [ht.1]; decide)
        rw [(List.cons.inj this.1).2] at ht
        simp [fromP8str] at ht
    | c :: d :: l', hl =>
      rw [fromP8_cons, fromP8_cons] at ht
      obtain ⟨hne, hsp⟩ := entry_special (u := u) (hl c (by simp))
      obtain ⟨hne2, hsp2⟩ := entry_special (u := u) (hl d (by simp))
      cases he : entry u c with
      | nil => exact absurd he hne
      | cons a r =>
        rw [he] at ht hsp
        rw [hstart] at ht
        simp at ht
        have hc := hsp a (by simp) (by rw [ht.1]; decide)
        rw [(List.cons.inj hc.1).2] at ht
        cases he2 : entry u d with
        | nil => exact absurd he2 hne2
        | cons a2 r2 =>
          rw [he2] at ht hsp2
          simp at ht
          have hd := hsp2 a2 (by simp) (by rw [ht.2.1]; decide)
          refine ⟨l', ?_⟩
          rw [← hc.2.1, ← hd.2.1, ht.1, ht.2.1]; rfl
  · have e0 : t.dropWhile pyIsSpace = t := by
      rw [hstart]; exact dropWhile_cons_of_neg' (by decide)
    unfold pyStrip at h2
    rw [e0] at h2
    obtain ⟨w, hw1, hw2⟩ := pyRstrip_split t
    have hr : pyRstrip t = (pyRstrip t).take ((pyRstrip t).length - 2) ++ [95, 95] := by
      rw [← h2]; exact (List.take_append_drop _ _).symm
    have htt : t = (pyRstrip t).take ((pyRstrip t).length - 2) ++ ([95, 95] ++ w) := by
      rw [← List.append_assoc, ← hr]; exact hw1
    obtain ⟨s', e1, _⟩ := fromP8_tail u hl (ht.trans htt) (by
      intro a ha
      rcases List.mem_append.mp ha with ha | ha
      · simp at ha; subst ha; decide
      · unfold special; rw [hw2 a ha]; rfl)
    refine ⟨s', w, by rw [e1, List.append_assoc], fun c hc => ?_⟩
    have hcl : c ∈ l := by rw [e1]; simp [hc]
    have hsp := hw2 c hc
    have hmem : c ∈ t := by rw [htt]; simp [hc]
    rw [← ht] at hmem
    obtain ⟨d, hd, hcd⟩ := List.mem_flatMap.mp hmem
    have := (entry_special (u := u) (hl d hd)).2 c hcd (by unfold special; rw [hsp]; rfl)
    rcases this.2.2 with h | h | h | h | h
    · exact .inl h
    · exact absurd (h ▸ hcl) hn
    · exact .inr (.inl h)
    · exact .inr (.inr h)
    · subst h; exact absurd hsp (by decide)

theorem fromP8_dropCr {u : Bool} {l : List Nat} (hl : ∀ c ∈ l, c < 256) (h : l.getLast? ≠ some 13) :
    dropCr (fromP8str u l) = fromP8str u l := by
  unfold dropCr
  rw [if_neg]
  intro hg
  have hne : fromP8str u l ≠ [] := by intro e; rw [e] at hg; simp at hg
  have e1 := List.dropLast_concat_getLast hne
  have e2 : (fromP8str u l).getLast hne = 13 := by
    rw [List.getLast?_eq_some_getLast hne] at hg; exact Option.some.inj hg
  rw [e2] at e1
  obtain ⟨s', e3, _⟩ := fromP8_tail u hl e1.symm (by simp; decide)
  rw [e3] at h
  simp at h

/-- Provisos on code: no line looks like a section header, no line ends with a carriage return. -/
def CodeOk (code : List Nat) : Prop :=
  ∀ l ∈ splitNl code, ¬ LooksLikeHeader l ∧ l.getLast? ≠ some 13

theorem readLine_lua {st : RState} {t p : List Nat} (hn : isHeaderLine t = false) (hp : toP8str t = some p)
    (hh : st.header = some sLua) : readLine false st t = some { st with
        cart := { st.cart with code := if st.y = 0 then st.cart.code ++ p else st.cart.code ++ 10 :: p,
                               codeLine := if st.y = 0 then st.lineI else st.cart.codeLine },
        y := st.y + 1 } := by
  unfold readLine
  simp only [hn, Bool.false_and, Bool.false_eq_true, if_false, hh, if_true, hp]

theorem readCodeRest {u : Bool} : ∀ (ls : List (List Nat)) (st : RState),
    (∀ l ∈ ls, (∀ c ∈ l, c < 256) ∧ 10 ∉ l ∧ ¬ LooksLikeHeader l ∧ l.getLast? ≠ some 13) → st.header = some sLua → st.y ≠ 0 →
    ∃ st', readLines false st ((ls.map (fromP8str u)).map dropCr) = some st' ∧
      st'.cart = { st.cart with code := st.cart.code ++ (ls.flatMap fun l => 10 :: l) } := by
  intro ls
  induction ls with
  | nil => intro st _ _ _; exact ⟨st, rfl, by simp⟩
  | cons l ls ih =>
    intro st hl hh hy
    obtain ⟨h1, h2, h3, h4⟩ := hl l (by simp)
    have hn : isHeaderLine (fromP8str u l) = false := by
      cases h : isHeaderLine (fromP8str u l) with
      | false => rfl
      | true => exact absurd (isHeaderLine_fromP8 h1 h2 h) h3
    rw [List.map_cons, List.map_cons, readLines, fromP8_dropCr h1 h4, readLine_lua hn (C16_roundtrip h1 u) hh]
    simp only [if_neg hy]
    obtain ⟨st', e1, e2⟩ := ih { st with
        cart := { st.cart with code := st.cart.code ++ 10 :: l }, y := st.y + 1, lineI := st.lineI + 1 }
        (fun x hx => hl x (List.mem_cons_of_mem _ hx)) hh (by simp)
    refine ⟨st', e1, ?_⟩
    rw [e2]; simp

theorem joinNl_flatMap (l : List Nat) (ls : List (List Nat)) : joinNl (l :: ls) = l ++ ls.flatMap fun l => 10 :: l := by
  induction ls generalizing l with
  | nil => simp [joinNl]
  | cons l' ls ih => rw [joinNl_cons (by simp), ih]; simp

/-- Reading the code section. -/
theorem readCode {u : Bool} {code : List Nat} (hcode : ∀ c ∈ code, c < 256) (hok : CodeOk code) (st : RState)
    (hh : st.header = some sLua) (hy : st.y = 0) (h0 : st.cart.code = []) :
    ∃ st', readLines false st ((splitNl (fromP8str u code)).map dropCr) = some st' ∧
      st'.cart = { st.cart with code := code, codeLine := st.lineI } := by
  rw [splitNl_fromP8 u hcode]
  have hmem : ∀ {code : List Nat}, (∀ c ∈ code, c < 256) → ∀ l ∈ splitNl code, ∀ c ∈ l, c < 256 := by
    intro code
    induction code with
    | nil => simp [splitNl]
    | cons a code ih =>
      intro h l hl c hc
      have ih := ih fun x hx => h x (List.mem_cons_of_mem _ hx)
      rw [splitNl] at hl
      split at hl
      · rcases List.mem_cons.mp hl with e | e
        · subst e; simp at hc
        · exact ih l e c hc
      · split at hl
        · simp at hl; subst hl; simp at hc; subst hc; exact h _ (by simp)
        · rename_i l0 ls0 he
          rw [he] at ih
          rcases List.mem_cons.mp hl with e | e
          · subst e
            rcases List.mem_cons.mp hc with e | e
            · subst e; exact h _ (by simp)
            · exact ih l0 (by simp) c e
          · exact ih l (by simp [e]) c hc
  have hall : ∀ l ∈ splitNl code, (∀ c ∈ l, c < 256) ∧ 10 ∉ l ∧ ¬ LooksLikeHeader l ∧ l.getLast? ≠ some 13 :=
    fun l hl => ⟨hmem hcode l hl, splitNl_no_nl code l hl, hok l hl⟩
  have hj := joinNl_splitNl code
  cases hs : splitNl code with
  | nil => exact absurd hs (splitNl_ne_nil code)
  | cons l ls =>
    rw [hs] at hall hj
    obtain ⟨h1, h2, h3, h4⟩ := hall l (by simp)
    have hn : isHeaderLine (fromP8str u l) = false := by
      cases h : isHeaderLine (fromP8str u l) with
      | false => rfl
      | true => exact absurd (isHeaderLine_fromP8 h1 h2 h) h3
    rw [List.map_cons, List.map_cons, readLines, fromP8_dropCr h1 h4, readLine_lua hn (C16_roundtrip h1 u) hh]
    simp only [if_pos hy]
    obtain ⟨st', e1, e2⟩ := readCodeRest (u := u) ls { st with
        cart := { st.cart with code := st.cart.code ++ l, codeLine := st.lineI }, y := st.y + 1, lineI := st.lineI + 1 }
        (fun x hx => hall x (List.mem_cons_of_mem _ hx)) hh (by simp)
    refine ⟨st', e1, ?_⟩
    rw [e2, ← hj, joinNl_flatMap, h0]
    simp

/-! ### Metadata -/

/-- A metadata line that survives: one line, not ended by a carriage return, not taken for a header. -/
def MetaLineOk (l : List Nat) : Prop := 10 ∉ l ∧ l.getLast? ≠ some 13 ∧ isHeaderLine l = false

theorem MetaLineOk.split {l : List Nat} (h : MetaLineOk l) : (splitNl l).map dropCr = [l] := by
  rw [splitNl_simple h.1, List.map_cons]
  unfold dropCr
  rw [if_neg h.2.1]; rfl

theorem readLine_meta {st : RState} {t name : List Nat} (hn : isHeaderLine t = false)
    (hh : st.header = some (sMeta ++ name)) :
    readLine false st t = some { st with cart := { st.cart with metas := metaAppend name t st.cart.metas } } := by
  unfold readLine
  simp [hn, hh, sLua, sGfx, sMap, sGff, sSfx, sMusic, sLabel, sMeta]

theorem metaAppend_new {name line : List Nat} {ms : List (List Nat × List (List Nat))} (h : name ∉ ms.map (·.1)) :
    metaAppend name line ms = ms ++ [(name, [line])] := by
  induction ms with
  | nil => rfl
  | cons m ms ih =>
    simp only [List.map_cons, List.mem_cons, not_or] at h
    rw [metaAppend, if_neg (fun e => h.1 e.symm), ih h.2]; rfl

theorem metaAppend_last {name line : List Nat} {ls : List (List Nat)} {ms : List (List Nat × List (List Nat))}
    (h : name ∉ ms.map (·.1)) : metaAppend name line (ms ++ [(name, ls)]) = ms ++ [(name, ls ++ [line])] := by
  induction ms with
  | nil => simp [metaAppend]
  | cons m ms ih =>
    simp only [List.map_cons, List.mem_cons, not_or] at h
    rw [List.cons_append, metaAppend, if_neg (fun e => h.1 e.symm), ih h.2]; rfl

theorem readMetaLines {name : List Nat} : ∀ (ls done : List (List Nat)) (ms : List (List Nat × List (List Nat))) (st : RState),
    (∀ l ∈ ls, MetaLineOk l) → st.header = some (sMeta ++ name) → name ∉ ms.map (·.1) →
    st.cart.metas = (if done = [] then ms else ms ++ [(name, done)]) →
    ∃ st', readLines false st (ls.flatMap fun l => (splitNl l).map dropCr) = some st' ∧
      st'.cart = { st.cart with metas := if done ++ ls = [] then ms else ms ++ [(name, done ++ ls)] } := by
  intro ls
  induction ls with
  | nil =>
    intro done ms st _ _ _ h
    exact ⟨st, rfl, by rw [List.append_nil, ← h]⟩
  | cons l ls ih =>
    intro done ms st hl hh hn hm
    rw [List.flatMap_cons, (hl l (by simp)).split, List.cons_append, List.nil_append, readLines,
      readLine_meta (hl l (by simp)).2.2 hh]
    simp only
    obtain ⟨st', e1, e2⟩ := ih (done ++ [l]) ms { st with
        cart := { st.cart with metas := metaAppend name l st.cart.metas }, lineI := st.lineI + 1 }
        (fun x hx => hl x (List.mem_cons_of_mem _ hx)) hh hn (by
          simp only [hm]
          by_cases hd : done = []
          · subst hd; simp [metaAppend_new hn]
          · simp [hd, metaAppend_last hn])
    refine ⟨st', e1, ?_⟩
    rw [e2]; simp

/-- Metadata that survives: distinct one-line names, each with at least one line. -/
def MetasOk (ms : List (List Nat × List (List Nat))) : Prop :=
  (ms.map (·.1)).Nodup ∧ ∀ m ∈ ms, 10 ∉ m.1 ∧ m.2 ≠ [] ∧ ∀ l ∈ m.2, MetaLineOk l

theorem readMetas : ∀ (ms done : List (List Nat × List (List Nat))) (st : RState),
    MetasOk (done ++ ms) → st.cart.metas = done →
    ∃ st', readLines false st ((ms.flatMap fun m => headerLine (sMeta ++ m.1) :: m.2).flatMap fun l => (splitNl l).map dropCr) =
        some st' ∧ st'.cart = { st.cart with metas := done ++ ms } := by
  intro ms
  induction ms with
  | nil => intro done st _ h; exact ⟨st, rfl, by rw [List.append_nil, ← h]⟩
  | cons m ms ih =>
    intro done st hok hm
    have hmo := hok.2 m (by simp)
    have hnew : m.1 ∉ done.map (·.1) := by
      have := hok.1
      rw [List.map_append, List.map_cons, List.nodup_append] at this
      intro h
      exact this.2.2 _ h _ (by simp) rfl
    rw [List.flatMap_cons, List.flatMap_append, List.flatMap_cons, splitHeader (by simp [sMeta, hmo.1]), List.append_assoc,
      List.cons_append, List.nil_append, readLines, readLine_header]
    simp only
    obtain ⟨st1, e1, e2⟩ := readMetaLines (name := m.1) m.2 [] done
      { st with header := some (sMeta ++ m.1), y := 0, lineI := st.lineI + 1 } hmo.2.2 rfl hnew (by simpa using hm)
    rw [readLines_append, e1]
    simp only [Option.bind_some]
    obtain ⟨st2, e3, e4⟩ := ih (done ++ [m]) st1 (by simpa using hok) (by rw [e2]; simp [hmo.2.1])
    refine ⟨st2, e3, ?_⟩
    rw [e4, e2]; simp

end Verif
