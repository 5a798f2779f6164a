import Verif.StegoLemmas
import Verif.Props.P8Source
/-!
Properties C35 (cart images) and C57 (label and sprite sheet images).
-/
namespace Verif.Stego
open Verif.StegoSpec

/-! ### PICO-8 cart images -/

/-- **C35 (PICO-8).** Any data that is long enough can be hidden in any image; it is found again, the hidden bytes are
where the format has them, and only the low two bits of each channel change. -/
theorem C35_pico_hide (ps : List Px) {out : List Nat} (hb : ∀ c ∈ out, c < 256) :
    ((hide ps out).isSome ↔ ps.length ≤ out.length) ∧
    ∀ image, hide ps out = some image →
      seek image = out.take ps.length ∧ image.map byteIn = out.take ps.length ∧ Look Same2 image ps := by
  rw [hide_eq]
  constructor
  · split <;> simp_all
  · intro image h
    split at h
    · rename_i hl
      simp only [Option.some.injEq] at h
      subst h
      have := seek_zipWith hl hb
      refine ⟨this, ?_, look_zipWith ps out hl⟩
      rw [← this, seek]
      exact List.map_congr_left fun p _ => (seekByte_eq p).symm
    · simp at h

/-- Two pixels hold two bytes. -/
example : hide [⟨255, 128, 7, 255⟩, ⟨0, 0, 0, 252⟩] [0xe4, 0x1b, 0x99] = some [⟨254, 129, 4, 255⟩, ⟨1, 2, 3, 252⟩] := by
  decide +kernel

theorem colorOf_key {p q : Px} (h : key p = key q) : colorOf p = colorOf q := by unfold colorOf; rw [h]

theorem key_same2 {p q : Px} (h : Same2 p q) : key p = key q := by
  simp only [key, clear2_eq, Prod.mk.injEq]
  obtain ⟨h1, h2, h3, _⟩ := h
  rw [h1, h2, h3]; simp

/-- The colours of the palette differ in their high six bits. -/
theorem colorOf_palette : ∀ i < 32, (palette[i]?).map colorOf = some i := by decide +kernel

theorem screenshotPx_spec {t : Bool} {i : Nat} (hi : i < 32) :
    ∃ p, screenshotPx t i = some p ∧ colorOf p = i ∧ (t = true → (p.a = 0 ↔ i = 0)) ∧ (i ≠ 0 → palette[i]? = some p) := by
  have h := colorOf_palette i hi
  cases hp : palette[i]? with
  | none => simp [hp] at h
  | some p =>
    simp [hp] at h
    have ha : p.a = 255 := by
      have : ∀ p ∈ palette, p.a = 255 := by decide
      exact this p (List.mem_of_getElem? hp)
    unfold screenshotPx
    rw [hp]
    refine ⟨_, rfl, ?_, ?_, fun h0 => by simp [h0]⟩
    · split
      · rw [← h]; exact colorOf_key rfl
      · exact h
    · intro ht
      by_cases h0 : i = 0 <;> simp [ht, h0, ha]

theorem createScreenshot_spec {t : Bool} {l : List Nat} (hl : ∀ c ∈ l, c < 32) :
    ∃ s, createScreenshot t l = some s ∧ s.length = l.length ∧
      ∀ (k : Nat) c, l[k]? = some c → ∃ p, s[k]? = some p ∧ colorOf p = c ∧ (t = true → (p.a = 0 ↔ c = 0)) ∧
        (c ≠ 0 → palette[c]? = some p) := by
  unfold createScreenshot
  induction l with
  | nil => exact ⟨[], by simp⟩
  | cons c l ih =>
    obtain ⟨s, h1, h2, h3⟩ := ih fun c hc => hl c (by simp [hc])
    obtain ⟨p, e1, e2, e3⟩ := screenshotPx_spec (t := t) (hl c (by simp))
    refine ⟨p :: s, by simp [h1, e1], by simp [h2], fun k c' hk => ?_⟩
    cases k with
    | zero => simp at hk; subst hk; exact ⟨p, by simp, e2, e3⟩
    | succ k => simpa using h3 k c' (by simpa using hk)

theorem glyphs_spec (text : List Nat) (x y : Nat) (hy : y = 0 ∨ y = 8) :
    ∀ g ∈ glyphs x y text, g.1 + (if g.2.2 ≥ 0x80 then 8 else 4) ≤ 124 ∧ g.2.1 + 6 ≤ 16 := by
  induction text generalizing x y with
  | nil => simp [glyphs]
  | cons ch text ih =>
    intro g hg
    unfold glyphs at hg
    by_cases h10 : ch = 10
    · rw [if_pos h10] at hg
      by_cases h16 : y + 6 + 2 ≥ 16
      · rw [if_pos h16] at hg; simp at hg
      · rw [if_neg h16] at hg; exact ih 0 _ (by omega) g hg
    · rw [if_neg h10] at hg
      simp only at hg
      generalize hw : (if ch ≥ 0x80 then 8 else 4) = w at hg
      by_cases h : x + w ≤ 124
      · rw [if_pos h] at hg
        rcases List.mem_cons.mp hg with rfl | hg
        · exact ⟨by rw [hw]; exact h, by simp; omega⟩
        · exact ih _ _ hy g hg
      · rw [if_neg h] at hg; exact ih _ _ hy g hg

theorem drawTitle_spec (font : Nat → Nat → Px) (over : Px → Px → Px) (title : List Nat) (image : List Px) :
    (drawTitle font over title image).length = image.length ∧
    ∀ x y, x < 160 → ¬ (18 ≤ x ∧ x < 18 + 124 ∧ 167 ≤ y ∧ y < 167 + 16) →
      (drawTitle font over title image)[x + y * 160]? = image[x + y * 160]? := by
  unfold drawTitle
  have hg := glyphs_spec title 0 0 (.inl rfl)
  revert hg
  generalize glyphs 0 0 title = gs
  intro hg
  induction gs generalizing image with
  | nil => simp
  | cons g gs ih =>
    obtain ⟨h1, h2⟩ := ih (drawGlyph font over image g) fun g' h => hg g' (by simp [h])
    have hb := hg g (by simp)
    refine ⟨by simpa [drawGlyph] using h1, fun x y hx hn => ?_⟩
    rw [List.foldl_cons, h2 x y hx hn]
    unfold drawGlyph
    rw [List.getElem?_mapIdx]
    have e1 : (x + y * 160) % 160 = x := by omega
    have e2 : (x + y * 160) / 160 = y := by omega
    simp only [e1, e2]
    generalize (if g.2.2 ≥ 0x80 then 8 else 4) = w at hb
    have hneg : ¬ (18 + g.1 ≤ x ∧ x < 18 + g.1 + w ∧ 167 + g.2.1 ≤ y ∧ y < 167 + g.2.1 + 6) := by omega
    simp only [hneg, if_false]
    cases image[x + y * 160]? <;> rfl

/-- Where pixel number `k` of the label lies in the image. -/
def labelPos (k : Nat) : Nat := (16 + k % 128) + (24 + k / 128) * 160

theorem drawLabel_spec {surf template : List Px} :
    (drawLabel surf template).length = template.length ∧
    (∀ x y, x < 160 → ¬ (16 ≤ x ∧ x < 144 ∧ 24 ≤ y ∧ y < 152) →
      (drawLabel surf template)[x + y * 160]? = template[x + y * 160]?) ∧
    ∀ k < 128 * 128, ∀ c p, surf[k]? = some c → template[labelPos k]? = some p →
      (drawLabel surf template)[labelPos k]? = some (if c.a = 0 then p else c) := by
  refine ⟨by simp [drawLabel], fun x y hx hn => ?_, fun k hk c p hc hp => ?_⟩
  · have e1 : (x + y * 160) % 160 = x := by omega
    have e2 : (x + y * 160) / 160 = y := by omega
    rw [drawLabel, List.getElem?_mapIdx]
    unfold drawPx
    simp only [e1, e2]
    have hneg : ¬ (16 ≤ x ∧ x < 16 + 128 ∧ 24 ≤ y ∧ y < 24 + 128) := by omega
    simp only [hneg, if_false]
    cases template[x + y * 160]? <;> rfl
  · rw [drawLabel, List.getElem?_mapIdx, hp, Option.map_some]
    unfold drawPx
    have e1 : labelPos k % 160 = 16 + k % 128 := by unfold labelPos; omega
    have e2 : labelPos k / 160 = 24 + k / 128 := by unfold labelPos; omega
    simp only [e1, e2]
    rw [if_pos (by omega), show 16 + k % 128 - 16 + (24 + k / 128 - 24) * 128 = k from by omega, hc]

/-- **C35 (PICO-8, writing).** For every template of the right size, label, title and 0x8020 bytes, the image is written;
it holds exactly those bytes; and apart from the low two bits it is the template, except for the label where the label is
not transparent, and the 124 x 16 pixels of the title. -/
theorem C35_pico_write (font : Nat → Nat → Px) (over : Px → Px → Px) {template : List Px}
    (ht : template.length = 160 * 205) {label : Option (List Nat)}
    (hlab : ∀ l, label = some l → l.length = 128 * 128 ∧ ∀ c ∈ l, c < 32) (title : List Nat) {out : List Nat}
    (hb : ∀ c ∈ out, c < 256) (hlen : out.length = 0x8020) :
    ∃ image, writeImage font over template label title out = some image ∧ image.length = 160 * 205 ∧
      image.map byteIn = out ∧
      (∀ x y p q, x < 160 → image[x + y * 160]? = some p → template[x + y * 160]? = some q →
        ¬ (label ≠ none ∧ 16 ≤ x ∧ x < 144 ∧ 24 ≤ y ∧ y < 152) →
        ¬ (18 ≤ x ∧ x < 18 + 124 ∧ 167 ≤ y ∧ y < 167 + 16) → Same2 p q) ∧
      (∀ l k c p q, label = some l → l[k]? = some c → image[labelPos k]? = some p → template[labelPos k]? = some q →
        if c = 0 then Same2 p q else ∃ color, palette[c]? = some color ∧ Same2 p color) := by
  obtain ⟨pic, hpic, hpl, hout, hin⟩ : ∃ pic, writeImage font over template label title out =
      hide (drawTitle font over title pic) out ∧ pic.length = template.length ∧
      (∀ x y, x < 160 → ¬ (label ≠ none ∧ 16 ≤ x ∧ x < 144 ∧ 24 ≤ y ∧ y < 152) →
        pic[x + y * 160]? = template[x + y * 160]?) ∧
      (∀ l k c q, label = some l → l[k]? = some c → template[labelPos k]? = some q →
        if c = 0 then pic[labelPos k]? = some q else ∃ p, pic[labelPos k]? = some p ∧ palette[c]? = some p) := by
    unfold writeImage
    rw [if_neg (by omega)]
    cases label with
    | none => exact ⟨template, rfl, rfl, fun _ _ _ _ => rfl, by simp⟩
    | some l =>
      obtain ⟨hl1, hl2⟩ := hlab l rfl
      obtain ⟨s, h1, h2, h3⟩ := createScreenshot_spec (t := true) hl2
      obtain ⟨d1, d2, d3⟩ := drawLabel_spec (surf := s) (template := template)
      refine ⟨drawLabel s template, by simp only [h1], d1, fun x y hx hn => d2 x y hx (fun h => hn ⟨by simp, h⟩), ?_⟩
      intro l' k c q hl hk hq
      simp only [Option.some.injEq] at hl
      subst hl
      have hk' : k < 128 * 128 := by
        have := (List.getElem?_eq_some_iff.mp hk).1; omega
      obtain ⟨p, e1, e2, e3, e4⟩ := h3 k c hk
      have := d3 k hk' p q e1 hq
      split
      · rename_i h0
        rw [this, if_pos ((e3 rfl).mpr h0)]
      · rename_i h0
        exact ⟨p, by rw [this, if_neg (fun h => h0 ((e3 rfl).mp h))], e4 h0⟩
  obtain ⟨t1, t2⟩ := drawTitle_spec font over title pic
  obtain ⟨g1, g2⟩ := C35_pico_hide (drawTitle font over title pic) hb
  obtain ⟨image, him⟩ := Option.isSome_iff_exists.mp (g1.mpr (by omega))
  obtain ⟨_, i2, i3, i4⟩ := g2 image him
  have hil : image.length = 160 * 205 := by omega
  refine ⟨image, by rw [hpic, him], hil, ?_, ?_, ?_⟩
  · rw [i2, List.take_of_length_le (by omega)]
  · intro x y p q hx hp hq h1 h2
    exact i4 _ p q hp (by rw [t2 x y hx h2, hout x y hx h1, hq])
  · intro l k c p q hl hk hp hq
    have hk' : k < 128 * 128 := by
      have := (List.getElem?_eq_some_iff.mp hk).1; have := (hlab l hl).1; omega
    have e : (drawTitle font over title pic)[labelPos k]? = pic[labelPos k]? := by
      unfold labelPos
      exact t2 _ _ (by omega) (by omega)
    have := hin l k c q hl hk hq
    split
    · rename_i h0
      rw [if_pos h0] at this
      exact i4 _ p q hp (by rw [e, this])
    · rename_i h0
      rw [if_neg h0] at this
      obtain ⟨p', e1, e2⟩ := this
      exact ⟨p', e2, i4 _ p p' hp (by rw [e, e1])⟩

theorem toScreenshot_spec {w dx dy : Nat} {image : List Px}
    (h : ∀ k < 128 * 128, ∃ p, image[(k % 128 + dx) + (k / 128 + dy) * w]? = some p) :
    ∃ l, toScreenshot w dx dy image = some l ∧ l.length = 128 * 128 ∧
      ∀ k < 128 * 128, ∀ p, image[(k % 128 + dx) + (k / 128 + dy) * w]? = some p → l[k]? = some (colorOf p) := by
  unfold toScreenshot
  rw [mapM_some (g := fun k => (image[(k % 128 + dx) + (k / 128 + dy) * w]?.map colorOf).getD 0)]
  · refine ⟨_, rfl, by simp, fun k hk p hp => ?_⟩
    simp [hk, hp]
  · intro k hk
    obtain ⟨p, hp⟩ := h k (by simpa using hk)
    rw [hp]; rfl

/-- **C35 (PICO-8, reading).** Reading the written image is reading the bytes, and the label comes back: where it is
transparent, as the colour of the template there (0 if that is not a colour of the palette). -/
theorem C35_pico_read (font : Nat → Nat → Px) (over : Px → Px → Px) {template : List Px}
    (ht : template.length = 160 * 205) {l : List Nat} (hl : l.length = 128 * 128) (hc : ∀ c ∈ l, c < 32) (title : List Nat)
    {out : List Nat} (hb : ∀ c ∈ out, c < 256) (hlen : out.length = 0x8020) (sha : List Nat → List Nat) (base : PCart)
    (tiny keep : Bool) :
    ∃ image l', writeImage font over template (some l) title out = some image ∧
      readImage sha base tiny keep image = (readRom sha base tiny keep out).map (·, l') ∧ l'.length = 128 * 128 ∧
      ∀ k c q, l[k]? = some c → template[labelPos k]? = some q → l'[k]? = some (if c = 0 then colorOf q else c) := by
  obtain ⟨image, h1, h2, h3, _, h4⟩ := C35_pico_write font over ht (label := some l)
    (fun l' e => by simp only [Option.some.injEq] at e; subst e; exact ⟨hl, hc⟩) title hb hlen
  have hpos : ∀ k < 128 * 128, (k % 128 + 16) + (k / 128 + 24) * 160 = labelPos k ∧ labelPos k < 160 * 205 := by
    intro k hk; unfold labelPos; omega
  have hget : ∀ k < 128 * 128, ∃ p, image[(k % 128 + 16) + (k / 128 + 24) * 160]? = some p := by
    intro k hk
    obtain ⟨e1, e2⟩ := hpos k hk
    rw [e1]
    exact ⟨_, List.getElem?_eq_getElem (by omega)⟩
  obtain ⟨l', s1, s2, s3⟩ := toScreenshot_spec hget
  refine ⟨image, l', h1, ?_, s2, fun k c q hk hq => ?_⟩
  · have hs : seek image = out := by rw [← h3]; exact List.map_congr_left fun p _ => seekByte_eq p
    unfold readImage
    rw [if_neg (by omega), hs, s1]
    cases readRom sha base tiny keep out <;> rfl
  · have hk' : k < 128 * 128 := by have := (List.getElem?_eq_some_iff.mp hk).1; omega
    obtain ⟨p, hp⟩ := hget k hk'
    rw [s3 k hk' p hp]
    rw [(hpos k hk').1] at hp
    have := h4 l k c p q rfl hk hp hq
    by_cases h0 : c = 0
    · rw [if_pos h0] at this ⊢
      rw [colorOf_key (key_same2 this)]
    · rw [if_neg h0] at this ⊢
      obtain ⟨color, e1, e2⟩ := this
      rw [colorOf_key (key_same2 e2)]
      have := colorOf_palette c (hc c (List.mem_of_getElem? hk))
      rw [e1] at this
      exact this

theorem compressFast_bytes {code area : List Nat} (hcode : ∀ c ∈ code, c < 256)
    (h : compressFull true true false true code = some area) : ∀ x ∈ area, x < 256 := by
  obtain ⟨items, h1, h2, h3⟩ := pxaItems_fast (code := code)
  simp only [compressFull, Bool.or_true, if_true, h1] at h
  have hl := (C01_pxa_roundtrip_checked hcode h3 h2 h []).2
  have hlen : code.length < 0x10000 := by
    unfold compressNew at h
    cases hw : writeItems BitWriter.init initMtf (items.map (·.2)) with
    | none => simp [hw] at h
    | some w => simp [hw] at h; omega
  obtain ⟨body, e, _, hb, _⟩ := compressNew_eq hcode h3 h2 hlen h (by omega)
  rw [e]
  intro x hx
  simp only [List.mem_append] at hx
  rcases hx with hx | (hx | hx) | hx
  · simp [newHeader] at hx; omega
  · simp [be16] at hx; omega
  · simp [be16] at hx; omega
  · exact hb x hx

/-- **C35 (PICO-8, whole cart).** A cart written as an image in fast mode, on a template that is black where the label goes
(as the standard template is), and read again, is the same cart with the same label. -/
theorem C35_pico_cart (font : Nat → Nat → Px) (over : Px → Px → Px) {template : List Px} (ht : template.length = 160 * 205)
    (hblack : ∀ k < 128 * 128, ∀ q, template[labelPos k]? = some q → q.r < 4 ∧ q.g < 4 ∧ q.b < 4) {l : List Nat}
    (hl : l.length = 128 * 128) (hc : ∀ c ∈ l, c < 32) (title : List Nat) {sha : List Nat → List Nat}
    (hsha : ∀ b, (sha b).length = 20 ∧ ∀ c ∈ sha b, c < 256) {c : PCart} (hrom : c.rom.length = 0x4300)
    (hromb : ∀ x ∈ c.rom, x < 256) (hcode : ∀ x ∈ c.code, x < 256) {out : List Nat}
    (hw : writeRom sha (compressFull true true false true) true false c = some out) (base : PCart) :
    (writeImage font over template (some l) title out).bind (readImage sha base false false) =
      some ({ c with codeRom := none, defaultVersion := false }, l) := by
  obtain ⟨hlen, hread⟩ := C09_rom_roundtrip_fast (fun b => (hsha b).1) hrom hcode hw base
  have hb : ∀ x ∈ out, x < 256 := by
    cases ha : codeArea (compressFull true true false true) false c with
    | none => simp [writeRom, ha] at hw
    | some area =>
      have hold : AreaHolds area c.code := C09_area_fast hcode ha
      have harea : ∀ x ∈ area, x < 256 :=
         compressFast_bytes hcode ha
      have himg := writeRom_eq (fun b => (hsha b).1) hrom ha hold.1 hw
      have hv : ∀ x ∈ [c.versionId, c.v0, c.v1, c.v2, c.platform, c.v3], x < 256 := by
        unfold writeRom at hw
        simp only [ha, if_true] at hw
        split at hw
        · rename_i h; simpa using h
        · simp at hw
      rw [himg]
      unfold imageSpec
      simp only [if_true]
      intro x hx
      simp only [List.mem_append, List.mem_replicate] at hx
      rcases hx with (((((hx | hx) | hx) | hx) | hx) | hx)
      all_goals first | exact hromb x hx | exact harea x hx | omega | exact hv x hx | exact (hsha _).2 x hx
  obtain ⟨image, l', h1, h2, h3, h4⟩ := C35_pico_read font over ht hl hc title hb hlen sha base false false
  have hll : l' = l := by
    apply List.ext_getElem?
    intro k
    by_cases hk : k < 128 * 128
    · have e1 : l[k]? = some l[k] := List.getElem?_eq_getElem (by omega)
      have hk2 : labelPos k < template.length := by unfold labelPos; omega
      have e2 := List.getElem?_eq_getElem hk2
      rw [h4 k _ _ e1 e2, e1]
      split
      · rename_i h0
        obtain ⟨b1, b2, b3⟩ := hblack k hk _ e2
        have : key template[labelPos k] = key ⟨0, 0, 0, 0⟩ := by
          simp only [key, clear2_eq, Prod.mk.injEq]; omega
        rw [colorOf_key this, h0]; decide +kernel
      · rfl
    · rw [List.getElem?_eq_none (by omega), List.getElem?_eq_none (by omega)]
  rw [h1, Option.bind_some, h2, hread, hll]
  rfl

/-- A template that meets the hypothesis: the standard one has these pixels where the label goes. -/
example : ∀ k < 128 * 128, ∀ q, (List.replicate (160 * 205) (⟨0, 0, 0, 252⟩ : Px))[labelPos k]? = some q →
    q.r < 4 ∧ q.g < 4 ∧ q.b < 4 := by
  intro k _ q h
  obtain ⟨_, rfl⟩ := List.mem_replicate.mp (List.mem_of_getElem? h)
  decide

/-- A label on a template that is not black: colour 0 of the label shows, and comes back as, the colour below. -/
theorem C35_pico_label_counterexample : ∃ p : Px, colorOf p ≠ 0 ∧
    ∀ s, screenshotPx true 0 = some s → drawPx (List.replicate (128 * 128) s) (labelPos 0) p = p := by
  refine ⟨⟨255, 0, 77, 255⟩, by decide +kernel, fun s hs => ?_⟩
  have : s.a = 0 := by
    have h : screenshotPx true 0 = some ⟨0, 0, 0, 0⟩ := by decide +kernel
    rw [h] at hs; simp only [Option.some.injEq] at hs; subst hs; rfl
  have hp : ∀ n, (List.replicate (n + 1) s)[0]? = some s := by simp
  unfold drawPx
  simp only [show labelPos 0 % 160 = 16 from rfl, show labelPos 0 / 160 = 24 from rfl]
  rw [if_pos (by decide), show 16 - 16 + (24 - 24) * 128 = 0 from rfl, hp 16383]
  simp [this]

/-! ### Picotron cart images -/

/-- **C35 (Picotron).** Data with four zeros after it can be hidden in every image with enough pixels; the words hidden
are the data's bits and zeros, reading gives the data and zeros, and only the low three bits of the colours and two of
alpha change. -/
theorem C35_ptron_hide {data : List Nat} (hd : ∀ c ∈ data, c < 256) {ps : List Px} (h8 : 8 ∣ 11 * ps.length)
    (hcap : 8 * (data.length + 4) ≤ 11 * ps.length) :
    ∃ image n, hide64 (data.length + 4) (data.length + 4 - 2) ps (BitReader.init (data ++ List.replicate 4 0)) = some image ∧
      Look Same3 image ps ∧ seek64 image = data ++ List.replicate n 0 ∧ 4 ≤ n ∧
      (image.flatMap fun p => lowest 11 (wordIn p)) = (data ++ List.replicate n 0).flatMap (lowest 8) := by
  obtain ⟨image, h1, h2, h3⟩ := hide64_seek64 hd h8 hcap
  refine ⟨image, _, h1, h2, h3, by omega, ?_⟩
  have e1 := (seek64_bits (image := image) (by rw [h2.1]; exact h8)).1
  have e2 : ∀ l : List Nat, l.flatMap (lowest 8) = bytesBits l := by
    intro l
    induction l with
    | nil => rfl
    | cons a l ih => rw [List.flatMap_cons, ih, bytesBits, fieldBits_eq_testBit]; rfl
  rw [e2, ← h3, e1]
  congr 1
  funext p
  rw [fieldBits_eq_testBit]; rfl

/-- Eight pixels hold eleven bytes; here seven and four zeros. -/
example : hide64 11 9 (List.replicate 8 ⟨255, 255, 255, 255⟩) (BitReader.init ([1, 2, 3, 4, 5, 6, 255] ++ [0, 0, 0, 0])) =
    some [⟨249, 248, 248, 253⟩, ⟨248, 252, 249, 252⟩, ⟨248, 250, 248, 254⟩, ⟨250, 248, 252, 253⟩, ⟨248, 254, 255, 255⟩,
      ⟨249, 248, 248, 252⟩, ⟨248, 248, 248, 252⟩, ⟨248, 248, 248, 252⟩] := by
  simp [hide64, BitReader.init, BitReader.readBits, BitReader.fill, hideWord, clear3, clear2]

theorem writeRom64_form {cart : Ptron.Cart} (h0 : ∀ f ∈ cart.files, 0 ∉ f.1) (h1 : ∀ f ∈ cart.files, ∀ c ∈ f.1, c < 256)
    (h2 : ∀ f ∈ cart.files, ∀ d, f.2 = some d → ∀ c ∈ d, c < 256) {fast : Bool} {out : List Nat}
    (hw : Ptron.writeRom cart 4 0x40000 fast = some out) :
    ∃ data, out = data ++ List.replicate 4 0 ∧ data.length ≤ 0x40000 ∧ ∀ c ∈ data, c < 256 := by
  unfold Ptron.writeRom at hw
  cases hb : Ptron.filesBytes (Ptron.sortFiles cart.files) with
  | none => simp [hb] at hw
  | some body =>
    have hp : (Ptron.sortFiles cart.files).Perm cart.files := Ptron.sortFiles_perm _
    have hbody : ∀ c ∈ body, c < 256 :=
      Ptron.entries_bytes (Ptron.filesBytes_entries (fun f hf => h0 f (hp.subset hf)) hb)
        (fun f hf => h1 f (hp.subset hf)) (fun f hf => h2 f (hp.subset hf))
    obtain ⟨block, e1, _, e3⟩ := Lz4.C33_writer fast hbody
    simp only [hb, Option.bind_eq_bind, Option.bind_some, e1] at hw
    split at hw
    · simp at hw
    · rename_i hlim
      rw [Ptron.packU1] at hw
      by_cases hv : cart.version < 256
      · rw [if_pos hv] at hw
        have hbl : block.length < 256 ^ 4 := by
          have : ¬ 8 + block.length > 0x40000 := fun h => hlim ⟨by decide, h⟩
          omega
        rw [Ptron.packU4 hbl] at hw
        simp only [Option.bind_some, pure, Option.some.injEq] at hw
        refine ⟨_, hw.symm, ?_, ?_⟩
        · have : ¬ 8 + block.length > 0x40000 := fun h => hlim ⟨by decide, h⟩
          simp [Ptron.romSig]; omega
        · intro c hc
          simp only [List.mem_append, Ptron.romSig, List.mem_cons, List.not_mem_nil, or_false] at hc
          rcases hc with ((hc | hc) | hc) | hc
          · omega
          · omega
          · omega
          · exact e3 c hc
      · rw [if_neg hv] at hw; simp at hw

/-- **C35 (Picotron, whole cart).** A cart whose ROM form exists within the limit is written as an image that looks like
the template with label and title drawn on it, and reading the image gives the cart's version and files, and in addition,
only if it has no label file, one that holds the label area of the picture. -/
theorem C35_ptron_cart {template : List Px} (ht : template.length = 512 * 384) {draw : List Px → List Px}
    (hdraw : (draw template).length = template.length) {cart : Ptron.Cart} (hn : (cart.files.map (·.1)).Nodup)
    (h0 : ∀ f ∈ cart.files, 0 ∉ f.1) (h1 : ∀ f ∈ cart.files, ∀ c ∈ f.1, c < 256)
    (h2 : ∀ f ∈ cart.files, ∀ d, f.2 = some d → ∀ c ∈ d, c < 256) {fast : Bool} {out : List Nat}
    (hw : Ptron.writeRom cart 4 0x40000 fast = some out) (saveQoi : List Px → Option (List Nat))
    (savePng : List Px → List Nat) (defVersion : Nat) (tiny : Bool) :
    ∃ image files, writeImage64 template draw cart fast = some image ∧ Look Same3 image (draw template) ∧
      files.Perm cart.files ∧
      ((∃ f ∈ cart.files, f.1 = labelQoi ∨ f.1 = labelPng) →
        readImage64 saveQoi savePng defVersion tiny image = some ⟨cart.version, files⟩) ∧
      ((¬ ∃ f ∈ cart.files, f.1 = labelQoi ∨ f.1 = labelPng) →
        ∃ label name data, readImage64 saveQoi savePng defVersion tiny image = some ⟨cart.version, files ++ [(name, some data)]⟩ ∧
          (name = labelQoi ∧ saveQoi label = some data ∨
            name = labelPng ∧ saveQoi label = none ∧ savePng label = data) ∧
          label.length = 480 * 270 ∧
          ∀ x y p, x < 480 → y < 270 → (draw template)[(16 + x) + (38 + y) * 512]? = some p →
            label[x + y * 480]? = some ⟨8 * (p.r / 8), 8 * (p.g / 8), 8 * (p.b / 8), 255⟩) := by
  obtain ⟨data, hout, hdl, hdb⟩ := writeRom64_form h0 h1 h2 hw
  have hps : (draw template).length = 512 * 384 := by omega
  obtain ⟨image, n, i1, i2, i3, i4, _⟩ := C35_ptron_hide hdb (ps := draw template) (by rw [hps]; decide) (by rw [hps]; omega)
  obtain ⟨files, hp, hr⟩ := ((Ptron.C34_writer h0 h1 h2 4 0x40000 fast).1 out hw).2
  have hrom : PtronFormat.IsRom (seek64 image) cart.version files := by
    obtain ⟨body, block, pad, r1, r2, r3, r4, r5⟩ := hr
    refine ⟨body, block, pad ++ List.replicate (n - 4) 0, r1, r2, r3, r4, ?_⟩
    rw [← List.append_assoc, ← r5, hout, i3, List.append_assoc, List.replicate_append_replicate]
    congr 2
    rw [show 4 + (n - 4) = n from by omega]
  have hread := Ptron.C34_reader hrom ((hp.map _).nodup_iff.mpr hn) (fun f hf => h1 f (hp.subset hf))
    (fun f hf => h2 f (hp.subset hf)) defVersion tiny
  refine ⟨image, files, ?_, i2, hp, ?_⟩
  · unfold writeImage64
    simp only [hw]
    rw [if_neg (by omega), hout]
    simpa using i1
  · have himl : image.length = 512 * 384 := by rw [i2.1, hps]
    unfold readImage64
    rw [if_neg (by omega), hread]
    simp only
    have hany : (files.any fun f => f.1 == labelQoi || f.1 == labelPng) = true ↔
        ∃ f ∈ cart.files, f.1 = labelQoi ∨ f.1 = labelPng := by
      rw [List.any_eq_true]
      simp only [Bool.or_eq_true, beq_iff_eq]
      constructor
      · rintro ⟨f, hf, h⟩; exact ⟨f, hp.subset hf, h⟩
      · rintro ⟨f, hf, h⟩; exact ⟨f, hp.symm.subset hf, h⟩
    refine ⟨fun hlab => by rw [if_pos (hany.mpr hlab)], fun hlab => ?_⟩
    · rw [if_neg (fun h => hlab (hany.mp h))]
      have hget : ∀ k < 480 * 270, ∃ p, image[(16 + k % 480) + (38 + k / 480) * 512]? = some p := by
        intro k hk
        exact ⟨_, List.getElem?_eq_getElem (by omega)⟩
      have hlabel : label64 image = some ((List.range (480 * 270)).map fun k =>
          ((image[(16 + k % 480) + (38 + k / 480) * 512]?).map fun p => (⟨clear3 p.r, clear3 p.g, clear3 p.b, 0xff⟩ : Px)).getD
            ⟨0, 0, 0, 0⟩) := by
        unfold label64
        apply mapM_some
        intro k hk
        obtain ⟨p, hp'⟩ := hget k (by simpa using hk)
        rw [hp']; rfl
      rw [hlabel]
      simp only
      generalize hL : ((List.range (480 * 270)).map fun k =>
          ((image[(16 + k % 480) + (38 + k / 480) * 512]?).map fun p => (⟨clear3 p.r, clear3 p.g, clear3 p.b, 0xff⟩ : Px)).getD
            ⟨0, 0, 0, 0⟩) = label
      have hl1 : label.length = 480 * 270 := by rw [← hL]; simp
      have hl2 : ∀ x y p, x < 480 → y < 270 → (draw template)[(16 + x) + (38 + y) * 512]? = some p →
            label[x + y * 480]? = some ⟨8 * (p.r / 8), 8 * (p.g / 8), 8 * (p.b / 8), 255⟩ := by
        intro x y p hx hy hpx
        have hk : x + y * 480 < 480 * 270 := by omega
        obtain ⟨q, hq⟩ := hget (x + y * 480) hk
        have e1 : (x + y * 480) % 480 = x := by omega
        have e2 : (x + y * 480) / 480 = y := by omega
        have hq' := hq
        rw [e1, e2] at hq'
        obtain ⟨s1, s2, s3, _⟩ := i2.2 _ q p hq' hpx
        rw [← hL, List.getElem?_map, List.getElem?_range hk]
        simp only [Option.map_some, hq, Option.getD_some, clear3_eq, s1, s2, s3, Option.some.injEq, Px.mk.injEq, and_true]
        omega
      have hnew : ∀ name, name = labelQoi ∨ name = labelPng → name ∉ files.map (·.1) := by
        intro name hname hmem
        obtain ⟨f, hf, rfl⟩ := List.mem_map.mp hmem
        exact hlab ⟨f, hp.subset hf, hname⟩
      cases hs : saveQoi label with
      | some d =>
        refine ⟨label, labelQoi, d, ?_, .inl ⟨rfl, hs⟩, hl1, hl2⟩
        simp only [Ptron.setFile_new (hnew labelQoi (.inl rfl))]
      | none =>
        refine ⟨label, labelPng, savePng label, ?_, .inr ⟨rfl, hs, rfl⟩, hl1, hl2⟩
        simp only [Ptron.setFile_new (hnew labelPng (.inr rfl))]

/-! ### Label and sprite sheet images -/

theorem screenshot_roundtrip {t : Bool} {l : List Nat} (hl : l.length = 128 * 128) (hc : ∀ c ∈ l, c < 32) :
    ∃ image, createScreenshot t l = some image ∧ image.length = 128 * 128 ∧ toScreenshot 128 0 0 image = some l := by
  obtain ⟨s, h1, h2, h3⟩ := createScreenshot_spec (t := t) hc
  refine ⟨s, h1, by omega, ?_⟩
  have hpos : ∀ k, (k % 128 + 0) + (k / 128 + 0) * 128 = k := by intro k; omega
  obtain ⟨l', e1, e2, e3⟩ := toScreenshot_spec (w := 128) (dx := 0) (dy := 0) (image := s) (by
    intro k hk
    rw [hpos k]
    exact ⟨_, List.getElem?_eq_getElem (by omega)⟩)
  suffices h : l' = l by rw [e1, h]
  apply List.ext_getElem?
  intro k
  by_cases hk : k < 128 * 128
  · have hlk : l[k]? = some l[k] := List.getElem?_eq_getElem (by omega)
    obtain ⟨p, f1, f2, _⟩ := h3 k _ hlk
    rw [e3 k hk p (by rw [hpos k]; exact f1), f2, hlk]
  · rw [List.getElem?_eq_none (by omega), List.getElem?_eq_none (by omega)]

/-- **C57 (colours).** The images use the colours of PICO-8, opaque. -/
theorem C57_colours : palette = StegoSpec.colours.map fun c => ⟨c.1, c.2.1, c.2.2, 255⟩ := by decide

/-- **C57 (label).** Exporting any label as an image and importing it gives the label; a cart without label gives an
all-zero one. -/
theorem C57_label {label : Option (List Nat)} (hl : ∀ l, label = some l → l.length = 128 * 128 ∧ ∀ c ∈ l, c < 32) :
    ∃ image, writeLabel label = some image ∧ readLabel image = some (label.getD (List.replicate (128 * 128) 0)) := by
  obtain ⟨image, h1, h2, h3⟩ := screenshot_roundtrip (t := true) (l := label.getD (List.replicate (128 * 128) 0))
    (by cases label with
        | none => exact List.length_replicate
        | some l => exact (hl l rfl).1)
    (by cases label with
        | none => intro c hc; obtain ⟨_, rfl⟩ := List.mem_replicate.mp hc; decide
        | some l => exact (hl l rfl).2)
  refine ⟨image, h1, ?_⟩
  unfold readLabel
  rw [if_neg (by omega), h3]

theorem sheetAddr (k : Nat) : memSpriteAddr (k % 128) (k / 128) = (k / 2, k % 2 != 0) := by
  have h1 : k % 128 &&& 1 = k % 2 := by
    have := Nat.and_two_pow_sub_one_eq_mod (k % 128) 1
    simp only [Nat.pow_one, Nat.reduceSub] at this
    omega
  simp only [memSpriteAddr, Nat.shiftRight_eq_div_pow, h1, Prod.mk.injEq, and_true]
  omega

theorem setSheet_spec {r : List Nat} (cs : List Nat) (k : Nat) (m : List Nat) (hm : IsMem m) (hml : m.length = 0x4300)
    (hk : k + cs.length ≤ 128 * 128)
    (hr : ∀ (j : Nat) c, cs[j]? = some c → get4 r ((k + j) / 2, (k + j) % 2 != 0) = some (c % 16)) :
    ∃ m', setSheet m k cs = some m' ∧ IsMem m' ∧ m'.length = 0x4300 ∧
      ∀ i (hi : Bool), get4 m' (i, hi) = if k ≤ 2 * i + hi.toNat ∧ 2 * i + hi.toNat < k + cs.length then get4 r (i, hi)
        else get4 m (i, hi) := by
  induction cs generalizing k m with
  | nil =>
    refine ⟨m, rfl, hm, hml, fun i hi => ?_⟩
    rw [if_neg (by simp only [List.length_nil]; omega)]
  | cons c cs ih =>
    simp only [List.length_cons] at hk
    unfold setSheet
    rw [sheetAddr]
    have H := C12_set4 m hm (k / 2) (k % 2 != 0) (c &&& 0xf)
    obtain ⟨m1, hm1⟩ := Option.isSome_iff_exists.mp (H.1.mpr (by omega))
    obtain ⟨q1, q2, q3, q4⟩ := H.2 m1 hm1
    rw [hm1]
    simp only
    obtain ⟨m', e1, e2, e3, e4⟩ := ih (k + 1) m1 q2 (by omega) (by omega) (by
      intro j c' hj
      have := hr (j + 1) c' (by simpa using hj)
      rwa [show k + (j + 1) = k + 1 + j from by omega] at this)
    refine ⟨m', e1, e2, e3, fun i hi => ?_⟩
    rw [e4 i hi]
    have hc15 : (c &&& 0xf) % 16 = c % 16 := by
      have := Nat.and_two_pow_sub_one_eq_mod c 4
      simp only [Nat.reducePow, Nat.reduceSub] at this
      omega
    by_cases ha : k + 1 ≤ 2 * i + hi.toNat ∧ 2 * i + hi.toNat < k + 1 + cs.length
    · rw [if_pos ha, if_pos (by simp only [List.length_cons]; omega)]
    · rw [if_neg ha]
      by_cases hb : 2 * i + hi.toNat = k
      · rw [if_pos (by simp only [List.length_cons]; omega)]
        have hie : (i, hi) = (k / 2, k % 2 != 0) := by
          cases hi
          · simp only [Bool.toNat_false] at hb
            have : k % 2 = 0 := by omega
            simp [this]; omega
          · simp only [Bool.toNat_true] at hb
            have : k % 2 = 1 := by omega
            simp [this]; omega
        have := hr 0 c (by simp)
        rw [Nat.add_zero, ← hie] at this
        rw [this, hie, q3, hc15]
      · rw [if_neg (by simp only [List.length_cons]; omega)]
        apply q4
        intro hie
        apply hb
        obtain ⟨h1, h2⟩ := Prod.mk.inj hie
        subst h1 h2
        by_cases h2 : k % 2 = 0
        · simp [h2]; omega
        · have : k % 2 = 1 := by omega
          simp [this]; omega

theorem createRom_isMem : IsMem createRom ∧ createRom.length = 0x4300 := by
  constructor
  · intro b hb
    obtain ⟨i, hi⟩ := List.mem_iff_getElem?.mp hb
    have := createRom_spec i
    unfold get8 at this
    rw [this] at hi
    unfold emptyByte at hi
    split at hi
    · simp at hi
    · split at hi
      · simp at hi; omega
      · split at hi
        · simp at hi; split at hi <;> omega
        · simp at hi; omega
  · have h1 := createRom_spec 0x4300
    have h2 := createRom_spec 0x42ff
    unfold get8 emptyByte at h1 h2
    rw [if_pos (by omega)] at h1
    rw [if_neg (by omega), if_neg (by omega)] at h2
    have a1 := List.getElem?_eq_none_iff.mp h1
    have a2 : 0x42ff < createRom.length := by
      by_cases h : 0x42ff < createRom.length
      · exact h
      · rw [List.getElem?_eq_none (by omega)] at h2
        split at h2 <;> simp at h2
    omega

/-- **C57 (sprite sheet).** Exporting the sprite sheet of any cart as an image and importing it gives a cart with the same
sprite sheet (0x2000 bytes) and otherwise the data of an empty cart. -/
theorem C57_sheet {rom : List Nat} (hm : IsMem rom) (hl : rom.length = 0x4300) :
    ∃ image rom', writeSheet rom = some image ∧ readSheet image = some rom' ∧ rom'.length = 0x4300 ∧
      ∀ a, get8 rom' a = if a < 0x2000 then get8 rom a else emptyByte a := by
  have hg : ∀ i hi, i < 0x4300 → ∃ n, n < 16 ∧ get4 rom (i, hi) = some n := by
    intro i hi h
    refine ⟨_, ?_, by unfold get4 get8Bits; rw [getD_get8 (by omega)]; rfl⟩
    exact and_lt16 _ (by omega)
  obtain ⟨shot, hshot, hsl, hsv⟩ : ∃ shot, (List.range (128 * 128)).mapM
      (fun k => get4 rom (memSpriteAddr (k % 128) (k / 128))) = some shot ∧ shot.length = 128 * 128 ∧
      ∀ (k : Nat) c, shot[k]? = some c → c < 16 ∧ get4 rom (k / 2, k % 2 != 0) = some c := by
    rw [mapM_some (g := fun k => (get4 rom (memSpriteAddr (k % 128) (k / 128))).getD 0)]
    · refine ⟨_, rfl, by simp, fun k c hk => ?_⟩
      rw [List.getElem?_map] at hk
      by_cases hk' : k < 128 * 128
      · rw [List.getElem?_range hk', Option.map_some, sheetAddr] at hk
        obtain ⟨n, h1, h2⟩ := hg (k / 2) (k % 2 != 0) (by omega)
        rw [h2, Option.getD_some, Option.some.injEq] at hk
        subst hk
        exact ⟨h1, h2⟩
      · rw [List.getElem?_eq_none (by simp; omega)] at hk
        simp at hk
    · intro k hk
      have hk' : k < 128 * 128 := by simpa using hk
      rw [sheetAddr]
      obtain ⟨n, _, h2⟩ := hg (k / 2) (k % 2 != 0) (by omega)
      rw [h2]; rfl
  obtain ⟨image, i1, i2, i3⟩ := screenshot_roundtrip (t := false) hsl (by
    intro c hc
    obtain ⟨k, hk⟩ := List.mem_iff_getElem?.mp hc
    have := (hsv k c hk).1
    omega)
  obtain ⟨m', e1, e2, e3, e4⟩ := setSheet_spec (r := rom) shot 0 createRom createRom_isMem.1 createRom_isMem.2 (by omega) (by
    intro j c hj
    obtain ⟨h1, h2⟩ := hsv j c hj
    rw [Nat.zero_add, h2, Nat.mod_eq_of_lt h1])
  refine ⟨image, m', ?_, ?_, e3, fun a => ?_⟩
  · unfold writeSheet
    rw [hshot]
    exact i1
  · unfold readSheet
    rw [if_neg (by omega), i3]
    exact e1
  · by_cases ha : a < 0x2000
    · rw [if_pos ha]
      refine get8_of_get4 e2 hm (by omega) ?_ ?_
      · rw [e4, if_pos (by simp; omega)]
      · rw [e4, if_pos (by simp; omega)]
    · rw [if_neg ha, ← createRom_spec]
      refine get8_of_get4 e2 createRom_isMem.1 (by rw [e3, createRom_isMem.2]) ?_ ?_
      · rw [e4, if_neg (by simp; omega)]
      · rw [e4, if_neg (by simp; omega)]

/-- The colours of a sprite pixel are those of the palette. -/
example : screenshotPx false 8 = some ⟨255, 0, 77, 255⟩ ∧ colorOf ⟨255, 0, 77, 255⟩ = 8 ∧ colorOf ⟨253, 3, 79, 0⟩ = 8 := by
  decide +kernel

end Verif.Stego
