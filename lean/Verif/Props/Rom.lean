import Verif.Rom
import Verif.Props.Lz77
/-! C09, C10, C11: ROM images. -/
namespace Verif

/-- Specification: an area, zero-filled to the fixed size and followed by anything, reads back as `code`. -/
def AreaHolds (area code : List Nat) : Prop :=
  area.length ≤ 0x3d00 ∧
    ∀ tail, uncompressCode (area ++ List.replicate (0x3d00 - area.length) 0 ++ tail) = some code

/-! ### The areas the compressor produces -/

theorem uncompress_raw_tail {x : List Nat} (hx : x.length = 0x3d00) (h1 : x.take 4 ≠ newHeader)
    (h2 : x.take 4 ≠ oldHeader) (tail : List Nat) : uncompressCode (x ++ tail) = uncompressCode x := by
  have e : (x ++ tail).take 4 = x.take 4 := List.take_append_of_le_length (by omega)
  have e2 : (x ++ tail).take 0x3d00 = x.take 0x3d00 := List.take_append_of_le_length (by omega)
  unfold uncompressCode zbytesEof
  simp only [e, e2, h1, h2, if_false]

/-- **C09 (code area).** The code area written in each mode of the compressor holds the code.  The fast PXA mode needs no
further condition; the default PXA mode the one of `C01_compress_default_partial`; the legacy modes need room for the two
zero bytes that end the code (see `C09_legacy_full_area_counterexample`); raw code must not be the signature text. -/
theorem C09_area_fast {code area : List Nat} (hcode : ∀ c ∈ code, c < 256)
    (h : compressFull true true false true code = some area) : AreaHolds area code := by
  have := (C01_compress_fast_checked hcode).1 area h
  exact ⟨this.2, fun tail => by rw [List.append_assoc]; exact this.1 _⟩

theorem C09_area_legacy {code area : List Nat} {fast : Bool} (hcode : ∀ c ∈ code, c < 256) (hnul : 0 ∉ code)
    (hlen : code.length < 0x10000) (h : compressFull true true true fast code = some area)
    (hroom : area.length + 2 ≤ 0x3d00) : AreaHolds area code := by
  refine ⟨by omega, fun tail => ?_⟩
  have e : 0x3d00 - area.length = (0x3d00 - area.length - 2) + 2 := by omega
  rw [e, List.replicate_succ, List.replicate_succ, List.append_assoc]
  cases fast with
  | false => exact (C06_compress_default_roundtrip hcode hnul hlen).2 true area h _
  | true => exact C06_compress_fast_roundtrip hcode hnul hlen h _

theorem C09_area_default_partial {code area : List Nat} (hcode : ∀ c ∈ code, c < 256) (hnul : 0 ∉ code)
    {items : List (Nat × Item)} (hi : pxaItems false code = some items) (hne : ∀ x ∈ items, x.2 ≠ .str [])
    (h : compressFull true true false false code = some area) : AreaHolds area code := by
  have hb := h
  simp only [compressFull, Bool.or_true, if_true, hi, Bool.false_eq_true, if_false] at hb
  have hb' : area.length ≤ 0x3d00 ∧ code.length < 0x10000 := by
    unfold compressNew at hb
    split at hb
    · simp at hb
    · simp only [Bool.true_and] at hb
      split at hb
      · simp at hb
      · rename_i w _ hc
        simp at hc
        rw [← Option.some.inj hb]
        simp [newHeader, be16]; omega
  refine ⟨hb'.1, fun tail => ?_⟩
  rw [List.append_assoc]
  exact (C01_compress_default_partial hcode hnul hb'.2 hi hne).2 true area h (by omega) _

theorem C09_area_raw {code area : List Nat} {fail old fast : Bool} (hnul : 0 ∉ code)
    (hlen : code.length < 0x3d00) (hsig : code ≠ [0x3a, 0x63, 0x3a])
    (h : compressFull false fail old fast code = some area) : AreaHolds area code ∧ area = code := by
  have hn : ¬ ((decide (code.length ≥ 0x3d00) || false) = true) := by simp; omega
  simp only [compressFull, if_neg hn] at h
  have he : area = code := by
    unfold encodeP8 at h; split at h
    · simpa using h.symm
    · simp at h
  subst he
  refine ⟨⟨by omega, fun tail => ?_⟩, rfl⟩
  obtain ⟨h1, h2⟩ := raw_header hnul (0x3d00 - area.length) (.inl hsig)
  rw [uncompress_raw_tail (by simp; omega) h1 h2]
  exact C07_raw_roundtrip h hnul (by omega) _ (.inl hsig)

/-! ### Image layout -/

theorem setBlock_append (a b src : List Nat) : setBlock (a ++ b) a.length src = a ++ src ++ b.drop src.length := by
  simp [setBlock, List.drop_append]

theorem setBlock_zero (b src : List Nat) : setBlock b 0 src = src ++ b.drop src.length := by simp [setBlock]

/-- Specification of the image: data, code area, zero fill; then optionally version, hash and six zero bytes. -/
def imageSpec (sha : List Nat → List Nat) (c : PCart) (area : List Nat) (withTrailer : Bool) : List Nat :=
  let body := c.rom ++ area ++ List.replicate (0x3d00 - area.length) 0
  if withTrailer then
    body ++ [c.versionId, c.v0, c.v1, c.v2, c.platform, c.v3] ++ sha body ++ List.replicate 6 0
  else body

theorem writeRom_eq {sha : List Nat → List Nat} (hsha : ∀ l, (sha l).length = 20)
    {comp : List Nat → Option (List Nat)} {t keep : Bool} {c : PCart} {area img : List Nat} (hrom : c.rom.length = 0x4300)
    (harea : codeArea comp keep c = some area) (hsize : area.length ≤ 0x3d00)
    (h : writeRom sha comp t keep c = some img) : img = imageSpec sha c area t := by
  have hlb : (c.rom ++ area ++ List.replicate (0x3d00 - area.length) 0).length = 0x8000 := by simp; omega
  have step : ∀ k, setBlock (setBlock (List.replicate (0x8000 + k) 0) 0 c.rom) c.rom.length area =
      (c.rom ++ area ++ List.replicate (0x3d00 - area.length) 0) ++ List.replicate k 0 := by
    intro k
    rw [setBlock_zero, setBlock_append]
    simp only [List.drop_replicate, List.append_assoc]
    congr 2
    rw [List.replicate_append_replicate]
    congr 1; omega
  unfold writeRom at h
  simp only [harea] at h
  cases t with
  | false =>
    simp only [Bool.false_eq_true, if_false, step] at h
    simp at h
    simp [imageSpec, ← h]
  | true =>
    simp only [if_true, step] at h
    split at h
    · simp only [Option.some.injEq] at h
      rw [← hlb, setBlock_append] at h
      have e6 : (c.rom ++ area ++ List.replicate (0x3d00 - area.length) 0).length + 6 =
          ((c.rom ++ area ++ List.replicate (0x3d00 - area.length) 0) ++
            [c.versionId, c.v0, c.v1, c.v2, c.platform, c.v3]).length := by simp; omega
      rw [e6, setBlock_append, hsha] at h
      rw [← h]
      unfold imageSpec
      simp only [if_true]
      congr 2
      congr 1
      rw [List.append_assoc (_ ++ _ ++ _), List.take_left' rfl]
    · simp at h

/-- **C09 (size, layout).** The image has exactly the fixed size. -/
theorem C09_image_size {sha : List Nat → List Nat} (hsha : ∀ l, (sha l).length = 20)
    {comp : List Nat → Option (List Nat)} {t keep : Bool} {c : PCart} {area img : List Nat} (hrom : c.rom.length = 0x4300)
    (harea : codeArea comp keep c = some area) (hsize : area.length ≤ 0x3d00)
    (h : writeRom sha comp t keep c = some img) : img.length = if t then 0x8020 else 0x8000 := by
  rw [writeRom_eq hsha hrom harea hsize h]
  unfold imageSpec
  cases t <;> simp [hsha] <;> omega

/-- **C09 (round trip).** For every cart with 0x4300 data bytes and every code area that holds its code: reading the written
image back gives the same data and code and, with trailer, the same version and platform; without trailer the version
fields are the fresh cart's.  With `keep` on reading, the zero-filled code area is kept as well. -/
theorem C09_rom_roundtrip {sha : List Nat → List Nat} (hsha : ∀ l, (sha l).length = 20)
    {comp : List Nat → Option (List Nat)} {t keep : Bool} {c : PCart} {area img : List Nat} (hrom : c.rom.length = 0x4300)
    (harea : codeArea comp keep c = some area) (hold : AreaHolds area c.code)
    (h : writeRom sha comp t keep c = some img) (base : PCart) (tiny keep' : Bool) :
    readRom sha base tiny keep' img = some
      { rom := c.rom, code := c.code,
        codeRom := if keep' then some (area ++ List.replicate (0x3d00 - area.length) 0) else none,
        versionId := if t then c.versionId else base.versionId,
        v0 := if t then c.v0 else base.v0, v1 := if t then c.v1 else base.v1, v2 := if t then c.v2 else base.v2,
        v3 := if t then c.v3 else base.v3, platform := if t then c.platform else base.platform,
        defaultVersion := if t then false else base.defaultVersion } := by
  have himg := writeRom_eq hsha hrom harea hold.1 h
  have hlen := C09_image_size hsha hrom harea hold.1 h
  obtain ⟨tail, htail, hbody⟩ : ∃ tail, img = c.rom ++ (area ++ List.replicate (0x3d00 - area.length) 0 ++ tail) ∧
      tail = if t then [c.versionId, c.v0, c.v1, c.v2, c.platform, c.v3] ++
        (sha (c.rom ++ area ++ List.replicate (0x3d00 - area.length) 0) ++ List.replicate 6 0) else [] := by
    refine ⟨_, ?_, rfl⟩
    rw [himg]; unfold imageSpec
    cases t <;> simp
  have hdrop : img.drop 0x4300 = area ++ List.replicate (0x3d00 - area.length) 0 ++ tail := by
    rw [htail, List.drop_left' hrom]
  have htake : img.take 0x4300 = c.rom := by rw [htail, List.take_left' hrom]
  have hcode : readCodeFromRom keep' (img.drop 0x4300) =
      some (c.code, if keep' then some (area ++ List.replicate (0x3d00 - area.length) 0) else none) := by
    unfold readCodeFromRom
    rw [hdrop, hold.2]
    have hl : (area ++ List.replicate (0x3d00 - area.length) 0).length = 0x3d00 := by
      have := hold.1; simp; omega
    have e : (area ++ List.replicate (0x3d00 - area.length) 0 ++ tail).take 0x3d00 =
        area ++ List.replicate (0x3d00 - area.length) 0 := List.take_left' hl
    have e2 : setBlock (List.replicate 0x3d00 0) 0 (area ++ List.replicate (0x3d00 - area.length) 0) =
        area ++ List.replicate (0x3d00 - area.length) 0 := by
      rw [setBlock_zero, hl, List.drop_replicate, Nat.sub_self, List.replicate_zero, List.append_nil]
    simp only [e, e2, Option.map_some]
  have hlen1 : ¬ img.length < 0x8000 := by cases t <;> simp_all
  have hl2 : (c.rom ++ (area ++ List.replicate (0x3d00 - area.length) 0)).length = 0x8000 := by
    have := hold.1; simp; omega
  unfold readRom
  rw [if_neg (by omega), if_neg (by omega), hcode]
  simp only [htake]
  cases t with
  | false =>
    have hn : ¬ 0x8000 < img.length := by simp at hlen; omega
    rw [if_neg hn]
    rfl
  | true =>
    have hn : 0x8000 < img.length := by simp at hlen; omega
    have hd : img.drop 0x8000 = tail := by rw [htail, ← List.append_assoc, List.drop_left' hl2]
    have ht8 : img.take 0x8000 = c.rom ++ area ++ List.replicate (0x3d00 - area.length) 0 := by
      rw [htail, ← List.append_assoc, List.take_left' hl2, List.append_assoc]
    rw [if_pos hn, hd, hbody, ht8]
    simp only [if_true, List.cons_append, List.nil_append]
    have hs20 : (sha (c.rom ++ area ++ List.replicate (0x3d00 - area.length) 0) ++ List.replicate 6 0).take 20 =
        sha (c.rom ++ area ++ List.replicate (0x3d00 - area.length) 0) := List.take_left' (hsha _)
    rw [if_neg (by simp [hsha]), hs20, if_neg (by simp)]

/-- **C09 (end to end).** A cart with any data and any code, in fast mode: whenever writing succeeds
with the default checks, the image has the fixed size and reads back as the same cart. -/
theorem C09_rom_roundtrip_fast {sha : List Nat → List Nat} (hsha : ∀ l, (sha l).length = 20) {c : PCart}
    (hrom : c.rom.length = 0x4300) (hcode : ∀ x ∈ c.code, x < 256) {img : List Nat}
    (h : writeRom sha (compressFull true true false true) true false c = some img) (base : PCart) :
    img.length = 0x8020 ∧ readRom sha base false false img = some { c with codeRom := none, defaultVersion := false } := by
  cases ha : codeArea (compressFull true true false true) false c with
  | none => simp [writeRom, ha] at h
  | some area =>
    have hold : AreaHolds area c.code := C09_area_fast hcode ha
    refine ⟨by simpa using C09_image_size hsha hrom ha hold.1 h, ?_⟩
    rw [C09_rom_roundtrip hsha hrom ha hold h base false false]
    simp

/-- Writing does succeed: with 8-bit version fields the only failures are those of the compressor. -/
theorem C09_write_succeeds {sha : List Nat → List Nat} {comp : List Nat → Option (List Nat)} {t keep : Bool} {c : PCart}
    {area : List Nat} (harea : codeArea comp keep c = some area)
    (hv : ∀ x ∈ [c.versionId, c.v0, c.v1, c.v2, c.platform, c.v3], x < 256) :
    (writeRom sha comp t keep c).isSome := by
  unfold writeRom
  simp only [harea]
  cases t with
  | false => rfl
  | true =>
    simp only [if_true]
    rw [if_pos (by rw [List.all_eq_true]; exact fun x hx => decide_eq_true (hv x hx))]
    rfl

/-- A cart and options meeting the hypotheses. -/
example : ∃ (c : PCart) (area : List Nat), c.rom.length = 0x4300 ∧ c.code = [97, 98] ∧
    codeArea (compressFull false true false false) false c = some area ∧ AreaHolds area c.code := by
  have h : compressFull false true false false [97, 98] = some [97, 98] := by decide +kernel
  exact ⟨⟨List.replicate 0x4300 7, [97, 98], none, 42, 0, 2, 6, 1, 119, false⟩, [97, 98], List.length_replicate, rfl, h,
    (C09_area_raw (by decide) (by decide) (by decide) h).1⟩

theorem setBlock_two {a b : List Nat} {n k : Nat} (h : n = a.length + b.length + k) :
    setBlock (setBlock (List.replicate n 0) 0 a) a.length b = (a ++ b) ++ List.replicate k 0 := by
  rw [setBlock_zero, setBlock_append, List.drop_replicate, List.drop_replicate]
  congr 2; omega

/-- **C09 (kept compression).** An image read with its compressed code kept and written again with it kept has the same
first 0x8000 bytes, whatever the code area contains. -/
theorem C09_keep_compression {sha : List Nat → List Nat} {comp : List Nat → Option (List Nat)} {t tiny : Bool}
    {base c : PCart} {img img' : List Nat} (hlen : 0x8000 ≤ img.length)
    (hr : readRom sha base tiny true img = some c) (hw : writeRom sha comp t true c = some img') :
    img'.take 0x8000 = img.take 0x8000 := by
  unfold readRom at hr
  rw [if_neg (by omega), if_neg (by omega)] at hr
  cases hc : readCodeFromRom true (img.drop 0x4300) with
  | none => simp [hc] at hr
  | some r =>
    obtain ⟨code, codeRom⟩ := r
    simp only [hc] at hr
    have hcr : codeRom = some ((img.drop 0x4300).take 0x3d00) := by
      unfold readCodeFromRom at hc
      simp only [if_true] at hc
      cases hu : uncompressCode (img.drop 0x4300) with
      | none => rw [hu] at hc; exact absurd hc (by simp only [Option.map_none]; exact nofun)
      | some x =>
        simp only [hu, Option.map_some, Option.some.injEq, Prod.mk.injEq] at hc
        rw [← hc.2, setBlock_zero]
        have : ((img.drop 0x4300).take 0x3d00).length = 0x3d00 := by simp; omega
        rw [this, List.drop_replicate, Nat.sub_self, List.replicate_zero, List.append_nil]
    have hcart : c.rom = img.take 0x4300 ∧ c.codeRom = codeRom := by
      split at hr
      · split at hr
        · split at hr
          · simp at hr
          · split at hr
            · simp at hr
            · simp at hr; subst hr; exact ⟨rfl, rfl⟩
        · simp at hr
      · simp at hr; subst hr; exact ⟨rfl, rfl⟩
    have harea : codeArea comp true c = some ((img.drop 0x4300).take 0x3d00) := by
      simp only [codeArea, hcart.2, hcr]
    have hl1 : c.rom.length = 0x4300 := by rw [hcart.1]; simp; omega
    have hl2 : ((img.drop 0x4300).take 0x3d00).length = 0x3d00 := by simp; omega
    have e8 : img.take 0x8000 = c.rom ++ (img.drop 0x4300).take 0x3d00 := by
      rw [hcart.1, show (0x8000 : Nat) = 0x4300 + 0x3d00 from rfl, List.take_add]
    have hb : ∀ k n, n = 0x8000 + k → setBlock (setBlock (List.replicate n 0) 0 c.rom) c.rom.length
        ((img.drop 0x4300).take 0x3d00) = (c.rom ++ (img.drop 0x4300).take 0x3d00) ++ List.replicate k 0 :=
      fun k n hn => setBlock_two (by rw [hl1, hl2, hn])
    have hl8 : (c.rom ++ (img.drop 0x4300).take 0x3d00).length = 0x8000 := by simp [hl1]; omega
    unfold writeRom at hw
    simp only [harea] at hw
    cases t with
    | false =>
      simp only [Bool.false_eq_true, if_false] at hw
      rw [hb 0 0x8000 rfl, List.replicate_zero, List.append_nil, Option.some.injEq] at hw
      rw [← hw, e8, ← hl8, List.take_length]
    | true =>
      simp only [if_true] at hw
      rw [hb 0x20 _ rfl] at hw
      split at hw
      · simp only [Option.some.injEq] at hw
        rw [← hw, e8]
        have : ∀ (x b s1 s2 : List Nat), x.length = 0x8000 → 6 = s1.length →
            (setBlock (setBlock (x ++ b) 0x8000 s1) (0x8000 + 6) s2).take 0x8000 = x := by
          intro x b s1 s2 hx h6
          rw [← hx, setBlock_append, h6, ← List.length_append, setBlock_append]
          simp
        exact this _ _ _ _ hl8 rfl
      · simp at hw

/-- Legacy compressed code that is not followed by anything is unreadable, whatever the code. -/
theorem legacy_unterminated {items : List Item} {code area : List Nat} {fail : Bool}
    (h : compressOld code.length items fail = some area) (hok : ∀ it ∈ items, it.OldOk) (hcode : ∀ c ∈ code, c < 256)
    (hcov : Covers code 0 items) : uncompressCode area = none := by
  obtain ⟨body, e, _, hread⟩ := oldWriteItems_read hcode hok hcov
  unfold compressOld at h
  rw [e] at h
  simp only at h
  split at h
  · simp at h
  · simp only [Option.some.injEq] at h
    subst h
    have h2 := hread []
    simp only [List.append_nil, List.take_zero] at h2
    have e1 : (oldHeader ++ be16 (code.length % 0x10000) ++ be16 0 ++ body).take 4 = oldHeader := by simp [oldHeader]
    have e2 : (oldHeader ++ be16 (code.length % 0x10000) ++ be16 0 ++ body).drop 4 =
        be16 (code.length % 0x10000) ++ (be16 0 ++ body) := by simp [oldHeader]
    have hne : oldHeader ≠ newHeader := by decide
    unfold uncompressCode uncompressOld
    simp only [e1, e2, hne, if_false, if_true]
    rw [readBe16_be16 (by omega)]
    simp only
    rw [readBe16_be16 (by omega)]
    simp only
    rw [h2]
    simp [oldReadLoop]

/-- **C09 (legacy mode is not covered when the area is full).** The legacy format writes no terminator: if it fills the area
to the last byte the image cannot be read back. -/
theorem C09_legacy_full_area_counterexample {items : List Item} {code area : List Nat}
    (h : compressOld code.length items true = some area) (hok : ∀ it ∈ items, it.OldOk) (hcode : ∀ c ∈ code, c < 256)
    (hcov : Covers code 0 items) (hfull : area.length = 0x3d00) : ¬ AreaHolds area code := by
  intro hh
  have h1 := hh.2 []
  rw [hfull, Nat.sub_self, List.replicate_zero, List.append_nil, List.append_nil,
    legacy_unterminated h hok hcode hcov] at h1
  simp at h1

/-! ### C10 -/

/-- **C10.** An image with a complete trailer is accepted only if its hash field is all zero or is the hash of its first
0x8000 bytes. -/
theorem C10_accepted_only_if_hash_ok {sha : List Nat → List Nat} {base c : PCart} {tiny keep : Bool} {img : List Nat}
    (hlen : 0x8000 < img.length) (h : readRom sha base tiny keep img = some c) :
    let hash := (img.drop 0x8006).take 20
    hash.length = 20 ∧ (hash = List.replicate 20 0 ∨ hash = sha (img.take 0x8000)) := by
  unfold readRom at h
  rw [if_neg (by omega), if_neg (by omega)] at h
  split at h
  · simp at h
  · simp only at h
    rw [if_pos hlen] at h
    split at h
    · rename_i vid v0 v1 v2 plat v3 rest hd
      have e : img.drop 0x8006 = rest := by
        rw [show (0x8006 : Nat) = 0x8000 + 6 from rfl, ← List.drop_drop, hd]; rfl
      simp only [e]
      split at h
      · simp at h
      · rename_i hr
        split at h
        · simp at h
        · rename_i hh
          refine ⟨by simp; omega, ?_⟩
          by_cases hz : rest.take 20 = List.replicate 20 0
          · exact .inl hz
          · refine .inr ?_
            apply Classical.byContradiction
            intro hs
            exact hh ⟨hz, hs⟩
    · simp at h

/-- **C10.** Changing any of the first 0x8000 bytes of a written image (so that the hash changes) makes reading fail,
unless the recorded hash happened to be the all-zero one. -/
theorem C10_corruption_detected {sha : List Nat → List Nat} (hsha : ∀ l, (sha l).length = 20)
    {comp : List Nat → Option (List Nat)} {keep : Bool} {c : PCart} {area img : List Nat} (hrom : c.rom.length = 0x4300)
    (harea : codeArea comp keep c = some area) (hsize : area.length ≤ 0x3d00)
    (h : writeRom sha comp true keep c = some img) {img' : List Nat} (hsame : img'.drop 0x8000 = img.drop 0x8000)
    (hdiff : sha (img'.take 0x8000) ≠ sha (img.take 0x8000)) (hnz : sha (img.take 0x8000) ≠ List.replicate 20 0)
    (base : PCart) (tiny keep' : Bool) : readRom sha base tiny keep' img' = none := by
  cases hr : readRom sha base tiny keep' img' with
  | none => rfl
  | some c' =>
    exfalso
    have himg := writeRom_eq hsha hrom harea hsize h
    have hlen : img.length = 0x8020 := by simpa using C09_image_size hsha hrom harea hsize h
    have hl' : 0x8000 < img'.length := by
      have := congrArg List.length hsame
      simp at this; omega
    have := (C10_accepted_only_if_hash_ok hl' hr).2
    have e : img'.drop 0x8006 = img.drop 0x8006 := by
      rw [show (0x8006 : Nat) = 0x8000 + 6 from rfl, ← List.drop_drop, ← List.drop_drop, hsame]
    have hb : (c.rom ++ area ++ List.replicate (0x3d00 - area.length) 0).length = 0x8000 := by simp; omega
    have e2 : img = (c.rom ++ area ++ List.replicate (0x3d00 - area.length) 0) ++
        ([c.versionId, c.v0, c.v1, c.v2, c.platform, c.v3] ++
          (sha (c.rom ++ area ++ List.replicate (0x3d00 - area.length) 0) ++ List.replicate 6 0)) := by
      rw [himg]; simp [imageSpec]
    have e3 : img.take 0x8000 = c.rom ++ area ++ List.replicate (0x3d00 - area.length) 0 := by
      conv => lhs; rw [e2]
      rw [List.take_left' hb]
    have e4 : (img.drop 0x8006).take 20 = sha (img.take 0x8000) := by
      rw [e3]
      conv => lhs; rw [e2]
      rw [show (0x8006 : Nat) = 0x8000 + 6 from rfl, ← List.drop_drop, List.drop_left' hb]
      rw [List.drop_left' (by rfl), List.take_left' (hsha _)]
    rw [e, e4] at this
    rcases this with h1 | h1
    · exact hnz h1
    · exact hdiff h1.symm

/-- **C10.** A trailer cut short is rejected. -/
theorem C10_short_trailer_rejected {sha : List Nat → List Nat} {base : PCart} {tiny keep : Bool} {img : List Nat}
    (hlen : 0x8000 < img.length) (hshort : img.length < 0x801a) : readRom sha base tiny keep img = none := by
  cases h : readRom sha base tiny keep img with
  | none => rfl
  | some c =>
    have := (C10_accepted_only_if_hash_ok hlen h).1
    simp at this
    omega

/-- The hypotheses can be met: the "hash" that repeats the first byte 20 times. -/
example : ∃ sha : List Nat → List Nat, (∀ l, (sha l).length = 20) ∧ sha [1] ≠ sha [2] ∧ sha [1] ≠ List.replicate 20 0 :=
  ⟨fun l => List.replicate 20 (l.headD 0), by simp, by decide, by decide⟩

/-! ### C11 -/

theorem readRom_tiny {sha : List Nat → List Nat} {base : PCart} {keep : Bool} {b code : List Nat}
    (hl : b.length < 0x8000) (h : uncompressCode b = some code) :
    (readRom sha base true keep b).map (·.code) = some code := by
  unfold readRom readCodeFromRom
  rw [if_pos ⟨hl, rfl⟩, h]
  rfl

/-- **C11.** If the compressor's output reads back (as the PXA modes' does), then so does the tiny ROM; and the tiny ROM is
never longer than the code, and never longer than the compressed form. -/
theorem C11_tiny_roundtrip {comp : List Nat → Option (List Nat)} {c : PCart} {b t : List Nat} (hnul : 0 ∉ c.code)
    (hc : comp c.code = some b) (hback : uncompressCode b = some c.code) (hsize : b.length ≤ 0x3d00)
    (h : writeTinyRom comp false c = some t) (sha : List Nat → List Nat) (base : PCart) (keep : Bool) :
    (readRom sha base true keep t).map (·.code) = some c.code ∧ t.length ≤ c.code.length ∧ t.length ≤ b.length := by
  unfold writeTinyRom at h
  simp only [hc] at h
  split at h
  · rename_i hgt
    have ht : t = c.code := by
      unfold encodeP8 at h; split at h
      · simpa using h.symm
      · simp at h
    have := C07_raw_roundtrip (size := 0x3d00) h hnul (by omega) 0 (.inr rfl)
    simp only [List.replicate_zero, List.append_nil] at this
    refine ⟨readRom_tiny (by rw [ht]; omega) this, by rw [ht]; omega, by rw [ht]; omega⟩
  · simp at h; subst h
    exact ⟨readRom_tiny (by omega) hback, by omega, by omega⟩

/-- **C11 (end to end, fast mode).** -/
theorem C11_tiny_roundtrip_fast {c : PCart} {t : List Nat} (hcode : ∀ x ∈ c.code, x < 256) (hnul : 0 ∉ c.code)
    (h : writeTinyRom (compressFull true true false true) false c = some t) (sha : List Nat → List Nat) (base : PCart)
    (keep : Bool) : (readRom sha base true keep t).map (·.code) = some c.code ∧ t.length ≤ c.code.length := by
  cases hc : compressFull true true false true c.code with
  | none => simp [writeTinyRom, hc] at h
  | some b =>
    have := (C01_compress_fast_checked hcode).1 b hc
    have h1 := this.1 []
    simp only [List.append_nil] at h1
    have := C11_tiny_roundtrip hnul hc h1 this.2 h sha base keep
    exact ⟨this.1, this.2.1⟩

/-- **C11 (kept compression).** A tiny ROM made from a kept code area reads back as the code of that area. -/
theorem C11_tiny_keep {comp : List Nat → Option (List Nat)} {c : PCart} {area code t : List Nat}
    (ha : c.codeRom = some area) (hl : area.length = 0x3d00) (hcode : uncompressCode area = some code)
    (h : writeTinyRom comp true c = some t) (sha : List Nat → List Nat) (base : PCart) (keep : Bool) :
    (readRom sha base true keep t).map (·.code) = some code := by
  unfold writeTinyRom at h
  simp only [ha] at h
  obtain ⟨n, h1, h2, h3, h4⟩ := C08_size_keeps_code hcode
  simp only [h1, Option.map_some, Option.some.injEq, getBlock, List.drop_zero] at h
  subst h
  apply readRom_tiny (by simp; omega)
  by_cases hn : area.take 4 = newHeader
  · exact h3 (.inl hn)
  · by_cases ho : area.take 4 = oldHeader
    · exact h3 (.inr ho)
    · rw [h4 hn ho]
      have hz : 0 ∉ code := by
        unfold uncompressCode at hcode
        simp only [hn, ho, if_false, Option.some.injEq] at hcode
        rw [← hcode]
        intro h0
        have := List.all_takeWhile (p := fun x : Nat => x != 0) (l := area.take 0x3d00)
        rw [List.all_eq_true] at this
        have := this 0 h0
        simp at this
      have hlc : code.length ≤ 0x3d00 := by
        rw [← h4 hn ho]; simp; omega
      obtain ⟨g1, g2⟩ := raw_header hz 0 (.inr rfl)
      unfold uncompressCode
      simp only [List.replicate_zero, List.append_nil] at g1 g2
      simp only [g1, g2, if_false]
      have := zbytesEof_zero_filled hz hlc (n := 0)
      simpa using this

/-- **C11 fails for the legacy compression**: a tiny ROM ends right after the compressed code, but the legacy format relies on
two zero bytes that follow.  Every tiny ROM holding legacy compressed code is unreadable, for every code and cover. -/
theorem C11_legacy_counterexample {c : PCart} {items : List Item} {t : List Nat} {fail : Bool}
    (hok : ∀ it ∈ items, it.OldOk) (hcode : ∀ x ∈ c.code, x < 256) (hcov : Covers c.code 0 items)
    (hlen : t.length < 0x8000)
    (h : writeTinyRom (fun code => compressOld code.length items fail) false c = some t) (ht : t ≠ c.code)
    (sha : List Nat → List Nat) (base : PCart) (keep : Bool) : readRom sha base true keep t = none := by
  unfold writeTinyRom at h
  simp only at h
  split at h
  · simp at h
  · rename_i b hb
    split at h
    · exfalso
      unfold encodeP8 at h
      split at h
      · simp at h; exact ht h.symm
      · simp at h
    · simp at h; subst h
      unfold readRom readCodeFromRom
      rw [if_pos ⟨hlen, rfl⟩, legacy_unterminated hb hok hcode hcov]
      rfl

/-- Such tiny ROMs exist: `aaaabbbb` five times. -/
example : let u := [97, 97, 97, 97, 98, 98, 98, 98]
    let c : PCart := ⟨[], u ++ u ++ u ++ u ++ u, none, 0, 0, 0, 0, 0, 0, false⟩
    let items : List Item := u.map (fun x => .str [x]) ++ [.mat 8 8, .mat 16 16, .mat 8 8]
    (∀ it ∈ items, it.OldOk) ∧ Covers c.code 0 items ∧
    ∃ t, writeTinyRom (fun code => compressOld code.length items true) false c = some t ∧ t ≠ c.code := by
  intro u c items
  refine ⟨?_, ?_, [0x3a, 0x63, 0x3a, 0x00, 0x00, 40, 0, 0, 13, 13, 13, 13, 14, 14, 14, 14, 0x3c, 104, 0x3d, 224, 0x3c, 104],
    ?_, ?_⟩
  · intro it hit
    simp [items, u] at hit
    rcases hit with rfl | rfl | rfl | rfl | rfl <;> simp [Item.OldOk]
  · simp only [items, u, c, List.map, List.nil_append, List.cons_append, Covers, ItemAt, Item.length]
    decide +kernel
  · decide +kernel
  · decide +kernel

end Verif
