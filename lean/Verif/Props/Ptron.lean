import Verif.PtronLemmas
/-! C34 and C56: Picotron cartridges in ROM form and in tiny ROM form. -/
namespace Verif.Ptron
open Verif.PtronFormat

/-- **C34.** Every ROM image of a set of files with different paths, whoever wrote it, is read as that version and those
files, in the order of the image. -/
theorem C34_reader {bytes : List Nat} {version : Nat} {files : Files} (h : IsRom bytes version files)
    (hn : (files.map (·.1)).Nodup) (h1 : ∀ f ∈ files, ∀ c ∈ f.1, c < 256)
    (h2 : ∀ f ∈ files, ∀ d, f.2 = some d → ∀ c ∈ d, c < 256) (defVersion : Nat) (tiny : Bool) :
    readRom defVersion tiny bytes = some ⟨version, files⟩ := by
  obtain ⟨body, block, pad, he, hb, hv, hl, rfl⟩ := h
  have hbody := Lz4.C33_reads_blocks hb (entries_bytes he h1 h2)
  have hf := readFiles_entries he body.length [] (Nat.le_refl _) (by simpa using hn)
  unfold readRom
  have e1 : readBytes 3 false ([0x70, 0x36, 0x34, version, block.length % 256, block.length / 256 % 256,
      block.length / 256 ^ 2 % 256, block.length / 256 ^ 3] ++ block ++ pad) = some (romSig, version ::
      ([block.length % 256, block.length / 256 % 256, block.length / 256 ^ 2 % 256, block.length / 256 ^ 3] ++
      (block ++ pad))) := by simp [readBytes, romSig]
  rw [e1]
  simp only [Option.bind_eq_bind, Option.bind_some, if_true, unpackU1, unpackU4 hl, Int.toNat_natCast,
    readBytes_append, hbody, hf, List.nil_append]
  rfl

/-- **C34.** Writing succeeds exactly if directories are the paths ending with a slash, no file has 4 GB or more, the version
is a byte, and the compressed form is below 4 GB and within the limit; then the image is in the documented form and has
the same files (in a different order). -/
theorem C34_writer {cart : Cart} (h0 : ∀ f ∈ cart.files, 0 ∉ f.1) (h1 : ∀ f ∈ cart.files, ∀ c ∈ f.1, c < 256)
    (h2 : ∀ f ∈ cart.files, ∀ d, f.2 = some d → ∀ c ∈ d, c < 256) (padding limit : Nat) (fast : Bool) :
    (∀ bytes, writeRom cart padding limit fast = some bytes → (limit ≠ 0 → bytes.length ≤ limit + padding) ∧
      ∃ files, files.Perm cart.files ∧ IsRom bytes cart.version files) ∧
    ((∀ f ∈ cart.files, FileOk f) → cart.version < 256 → ∃ n, (n < 256 ^ 4 → (limit ≠ 0 → 8 + n ≤ limit) →
      ∃ bytes, writeRom cart padding limit fast = some bytes ∧ bytes.length = 8 + n + padding)) ∧
    ((∃ bytes, writeRom cart padding limit fast = some bytes) → (∀ f ∈ cart.files, FileOk f) ∧ cart.version < 256) := by
  have hp : (sortFiles cart.files).Perm cart.files := sortFiles_perm _
  have k0 : ∀ f ∈ sortFiles cart.files, 0 ∉ f.1 := fun f hf => h0 f (hp.subset hf)
  have k1 : ∀ f ∈ sortFiles cart.files, ∀ c ∈ f.1, c < 256 := fun f hf => h1 f (hp.subset hf)
  have k2 : ∀ f ∈ sortFiles cart.files, ∀ d, f.2 = some d → ∀ c ∈ d, c < 256 := fun f hf => h2 f (hp.subset hf)
  have key : ∀ body, filesBytes (sortFiles cart.files) = some body → ∃ block, Lz4.compress fast body = some block ∧
      Lz4Format.IsBlock block body ∧ Entries (sortFiles cart.files) body := by
    intro body hb
    have he := filesBytes_entries k0 hb
    obtain ⟨block, e1, e2, _⟩ := Lz4.C33_writer fast (entries_bytes he k1 k2)
    exact ⟨block, e1, e2, he⟩
  have hok := filesBytes_isSome (sortFiles cart.files)
  refine ⟨?_, ?_, ?_⟩
  · intro bytes hw
    unfold writeRom at hw
    cases hb : filesBytes (sortFiles cart.files) with
    | none => simp [hb] at hw
    | some body =>
      obtain ⟨block, e1, e2, e3⟩ := key body hb
      simp only [hb, Option.bind_eq_bind, Option.bind_some, e1, packU1] at hw
      split at hw
      · simp at hw
      · rename_i hlim
        by_cases hv : cart.version < 256
        · by_cases hl : block.length < 256 ^ 4
          · simp only [if_pos hv, packU4 hl, Option.bind_some, pure, Option.some.injEq] at hw
            subst hw
            refine ⟨fun h => ?_, sortFiles cart.files, hp, body, block, List.replicate padding 0, e3, e2, hv, hl,
              by simp [romSig]⟩
            have : 8 + block.length ≤ limit := by omega
            simp [romSig]; omega
          · simp [hv, packU4_none hl] at hw
        · simp [hv] at hw
  · intro hf hv
    have hs := hok.mpr (fun f hf' => hf f (hp.subset hf'))
    obtain ⟨body, hb⟩ := Option.isSome_iff_exists.mp hs
    obtain ⟨block, e1, e2, e3⟩ := key body hb
    refine ⟨block.length, fun hl hlim => ?_⟩
    unfold writeRom
    simp only [hb, Option.bind_eq_bind, Option.bind_some, e1, packU1]
    rw [if_neg (by intro h; have := hlim h.1; omega), if_pos hv, packU4 hl]
    refine ⟨_, rfl, ?_⟩
    simp [romSig]; omega
  · rintro ⟨bytes, hw⟩
    unfold writeRom at hw
    cases hb : filesBytes (sortFiles cart.files) with
    | none => simp [hb] at hw
    | some body =>
      obtain ⟨block, e1, e2, e3⟩ := key body hb
      simp only [hb, Option.bind_eq_bind, Option.bind_some, e1, packU1] at hw
      refine ⟨fun f hf => hok.mp (by simp [hb]) f (hp.symm.subset hf), ?_⟩
      split at hw
      · simp at hw
      · by_cases hv : cart.version < 256
        · exact hv
        · simp [hv] at hw

/-- **C34.** Writing a Picotron cart in ROM form and reading it gives the same version and the same files with the same
contents (the order of the files, which nothing depends on, may change), with any padding and in both compression modes. -/
theorem C34_roundtrip {cart : Cart} (hn : (cart.files.map (·.1)).Nodup) (h0 : ∀ f ∈ cart.files, 0 ∉ f.1)
    (h1 : ∀ f ∈ cart.files, ∀ c ∈ f.1, c < 256) (h2 : ∀ f ∈ cart.files, ∀ d, f.2 = some d → ∀ c ∈ d, c < 256)
    {padding limit : Nat} {fast : Bool} {bytes : List Nat} (hw : writeRom cart padding limit fast = some bytes)
    (defVersion : Nat) (tiny : Bool) :
    ∃ files, readRom defVersion tiny bytes = some ⟨cart.version, files⟩ ∧ files.Perm cart.files := by
  obtain ⟨files, hp, hr⟩ := ((C34_writer h0 h1 h2 padding limit fast).1 bytes hw).2
  exact ⟨files, C34_reader hr ((hp.map _).nodup_iff.mpr hn) (fun f hf => h1 f (hp.subset hf))
    (fun f hf => h2 f (hp.subset hf)) defVersion tiny, hp⟩

/-- A cart with a directory, a program and an empty file. -/
example : writeRom ⟨7, [([0x61], some []), ([0x62, 0x2f], none), (mainPath, some [1, 2, 3])]⟩ 2 0 true =
    some ([0x70, 0x36, 0x34, 7, 21, 0, 0, 0] ++ [0xf0, 4, 0x62, 0x2f, 0] ++ mainPath ++ [0, 3, 1, 2, 3, 0x61, 0, 0] ++
      [0, 0]) := by decide +kernel

/-- It meets the hypotheses of `C34_roundtrip`. -/
example : ([([0x61], some []), ([0x62, 0x2f], none), (mainPath, some [1, 2, 3])].map
    (fun f : List Nat × Option (List Nat) => f.1)).Nodup := by decide

/-- **C34** needs NUL-free paths: a path with a NUL is cut. -/
theorem C34_nul_path_counterexample :
    (writeRom ⟨7, [([0x61, 0, 0x62], some [0x63])]⟩ 0 0 true).bind (readRom 0 false) ≠
      some ⟨7, [([0x61, 0, 0x62], some [0x63])]⟩ := by decide +kernel

/-! ### Tiny form -/

/-- **C56 (partial).** Full claim: the tiny form of every program, read back, gives the program.  Proved: for NUL-free
programs of at least three bytes that do not start with `p64`, on which the search of the default compressor emitted no
empty block.  Missing: the other programs, for which it is false (below) or the compressor fails. -/
theorem C56_partial {data : List Nat} (hd : ∀ c ∈ data, c < 256) (hnul : 0 ∉ data) (hlen : 3 ≤ data.length)
    (hsig : data.take 3 ≠ romSig) {items : List (Nat × Item)} (hi : pxaItems false data = some items)
    (hne : ∀ x ∈ items, x.2 ≠ .str []) {defVersion : Nat} {b : List Nat} (hw : writeTiny defVersion data = some b) :
    readRom defVersion true b = some ⟨defVersion, [(mainPath, some data)]⟩ := by
  unfold writeTiny at hw
  cases h1 : writeRom ⟨defVersion, [(mainPath, some data)]⟩ 0 0 false with
  | none => simp [h1] at hw
  | some lz4 =>
    cases h2 : compressFull true true false false data with
    | none => simp [h1, h2] at hw
    | some pxa =>
      simp only [h1, h2, Option.bind_eq_bind, Option.bind_some, pure, Option.some.injEq] at hw
      have r1 : readRom defVersion true lz4 = some ⟨defVersion, [(mainPath, some data)]⟩ := by
        obtain ⟨files, e, hp⟩ := C34_roundtrip (cart := ⟨defVersion, [(mainPath, some data)]⟩) (by simp)
          (by simp; decide) (by simp; decide)
          (by intro f hf d hd'; simp at hf; subst hf; simp at hd'; subst hd'; exact hd) h1 defVersion true
        rw [e, List.perm_singleton.mp hp]
      have hshort : data.length < 0x10000 ∧ pxa.length < 0x10000 ∧ ∃ t, pxa = newHeader ++ t ∧ 3 ≤ t.length := by
        have h2' := h2
        simp only [compressFull, Bool.or_true, if_true, hi, Bool.false_eq_true, if_false] at h2'
        unfold compressNew at h2'
        split at h2'
        · simp at h2'
        · simp only [Bool.true_and] at h2'
          split at h2'
          · simp at h2'
          · rename_i hc
            simp at hc
            simp at h2'
            subst h2'
            refine ⟨by omega, by simp [newHeader, be16]; omega, _, rfl, by simp [be16]⟩
      obtain ⟨s1, s2, t, s3, s4⟩ := hshort
      have r2 : readRom defVersion true pxa = some ⟨defVersion, [(mainPath, some data)]⟩ := by
        have hu := (C01_compress_default_partial hd hnul s1 hi hne).2 true pxa h2 s2 []
        have hu2 : uncompressCode pxa pxa.length = some data := by
          rw [List.append_nil] at hu
          rw [← hu, s3]
          unfold uncompressCode
          simp [newHeader]
        unfold readRom
        have : readBytes 3 false pxa = some ([0, 0x70, 0x78], pxa.drop 3) := by
          rw [s3]; simp [readBytes, newHeader]
        rw [this]
        simp [hu2, romSig]
      have r3 : readRom defVersion true data = some ⟨defVersion, [(mainPath, some data)]⟩ := by
        have hu : uncompressCode data data.length = some data := by
          have := C07_raw_roundtrip (code := data) (b := data) (by unfold encodeP8; rw [if_pos (by simpa using hd)]) hnul
            (Nat.le_refl _) 0 (.inr rfl)
          simpa using this
        unfold readRom
        have : readBytes 3 false data = some (data.take 3, data.drop 3) := by simp [readBytes]; omega
        rw [this]
        simp [hsig, hu]
      subst hw
      by_cases hc : pxa.length < data.length
      · rw [if_pos hc]; split
        · exact r1
        · exact r2
      · rw [if_neg hc]; split
        · exact r1
        · exact r3

/-- The hypotheses of `C56_partial` are met. -/
example : pxaItems false [97, 98, 97, 98, 97, 98, 97, 99] =
      some [(0, .str [97]), (1, .str [98]), (2, .mat 2 5), (7, .str [99])] ∧
    writeTiny 3 [97, 98, 97, 98, 97, 98, 97, 99] = some [97, 98, 97, 98, 97, 98, 97, 99] := by
  constructor <;> decide +kernel

/-- The form that is chosen is the smallest of the three. -/
theorem C56_smallest {defVersion : Nat} {data b : List Nat} (hw : writeTiny defVersion data = some b) : ∃ lz4 pxa,
    writeRom ⟨defVersion, [(mainPath, some data)]⟩ 0 0 false = some lz4 ∧ compressFull true true false false data = some pxa ∧
      (b = data ∨ b = pxa ∨ b = lz4) ∧ b.length ≤ data.length ∧ b.length ≤ pxa.length ∧ b.length ≤ lz4.length := by
  unfold writeTiny at hw
  cases h1 : writeRom ⟨defVersion, [(mainPath, some data)]⟩ 0 0 false with
  | none => simp [h1] at hw
  | some lz4 =>
    cases h2 : compressFull true true false false data with
    | none => simp [h1, h2] at hw
    | some pxa =>
      simp only [h1, h2, Option.bind_eq_bind, Option.bind_some, pure, Option.some.injEq] at hw
      refine ⟨lz4, pxa, rfl, rfl, ?_⟩
      subst hw
      split <;> split <;> refine ⟨by simp, ?_⟩ <;> omega

/-- **C56.** A program of 64 K or more has no tiny form at all, although the plain and the LZ4 form would do: the attempt
to compress it in the PICO-8 way fails. -/
theorem C56_size_counterexample (defVersion : Nat) {data : List Nat} (h : 0x10000 ≤ data.length) :
    writeTiny defVersion data = none := by
  unfold writeTiny
  cases writeRom ⟨defVersion, [(mainPath, some data)]⟩ 0 0 false with
  | none => rfl
  | some lz4 =>
    have : compressFull true true false false data = none := by
      unfold compressFull
      simp only [Bool.or_true, if_true, Bool.false_eq_true, if_false]
      cases pxaItems false data with
      | none => rfl
      | some items =>
        simp only
        unfold compressNew
        split
        · rfl
        · simp; intro; omega
    simp [this]

/-- **C56** fails for programs of one or two bytes in the tiny form (`x=`, say, is not read), for programs that start with
`p64`, and for programs with a NUL, which lose their end. -/
theorem C56_counterexample :
    (writeTiny 3 [0x78]).map (readRom 3 true) = some none ∧
    (writeTiny 3 [0x70, 0x36, 0x34, 0x3d, 0x31]).map (readRom 3 true) = some none ∧
    (writeTiny 3 [0x2d, 0x2d, 0x78, 0, 0x79]).map (readRom 3 true) =
      some (some ⟨3, [(mainPath, some [0x2d, 0x2d, 0x78])]⟩) := by
  refine ⟨?_, ?_, ?_⟩ <;> decide +kernel

end Verif.Ptron
