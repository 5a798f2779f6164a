import Verif.CompressLemmas
import Verif.PxaLocal
/-!
Properties C01, C03–C08: code compression.

The specification used here is `Covers` (Verif/Spec/Cover.lean): a list of literals, raw blocks and back-references
describes a text when each piece, laid end to end, is literally in the text (or repeats it from `offset` before).
-/
namespace Verif

/-! ### C04: bit stream -/

/-- Write a sequence of (width, value) fields. -/
def writeFields (w : BitWriter) : List (Nat × Nat) → BitWriter
  | [] => w
  | (n, v) :: fs => writeFields (w.writeBits n v) fs

/-- Read fields of the given widths. -/
def readFields (r : BitReader) : List Nat → Option (List Nat × BitReader)
  | [] => some ([], r)
  | n :: ns =>
    match r.readBits n with
    | none => none
    | some (v, r) => (readFields r ns).map fun (vs, r) => (v :: vs, r)

/-- Every field fits its width. -/
def FieldsOk (fs : List (Nat × Nat)) : Prop := ∀ f ∈ fs, f.2 < 2 ^ f.1

/-- The bits of the fields, lowest bit of each field first. -/
def fieldsBits : List (Nat × Nat) → List Bool
  | [] => []
  | (n, v) :: fs => fieldBits n v ++ fieldsBits fs

theorem writeFields_spec {w : BitWriter} (hw : w.WF) {fs : List (Nat × Nat)} (h : FieldsOk fs) :
    (writeFields w fs).WF ∧ (writeFields w fs).abs = w.abs ++ fieldsBits fs := by
  induction fs generalizing w with
  | nil => simp [writeFields, fieldsBits, hw]
  | cons f fs ih =>
    obtain ⟨n, v⟩ := f
    have h1 := BitWriter.writeBits_spec hw (n := n) (v := v) (h (n, v) (by simp))
    have h2 := ih h1.2 (fun f hf => h f (by simp [hf]))
    exact ⟨h2.1, by simp only [writeFields, fieldsBits]; rw [h2.2, h1.1, List.append_assoc]⟩

theorem readFields_spec {r : BitReader} (hr : r.WF) {fs : List (Nat × Nat)} (h : FieldsOk fs) {rest : List Bool}
    (habs : r.abs = fieldsBits fs ++ rest) :
    ∃ r', readFields r (fs.map (·.1)) = some (fs.map (·.2), r') ∧ r'.WF ∧ r'.abs = rest := by
  induction fs generalizing r with
  | nil => exact ⟨r, rfl, hr, by simpa [fieldsBits] using habs⟩
  | cons f fs ih =>
    obtain ⟨n, v⟩ := f
    obtain ⟨r1, e1, a1, w1⟩ := BitReader.readBits_spec hr (n := n) (v := v) (h (n, v) (by simp))
      (rest := fieldsBits fs ++ rest) (by rw [habs]; simp [fieldsBits])
    obtain ⟨r2, e2, w2, a2⟩ := ih w1 (fun f hf => h f (by simp [hf])) a1
    refine ⟨r2, ?_, w2, a2⟩
    simp only [List.map_cons, readFields, e1, e2, Option.map_some]

theorem fieldsBits_length (fs : List (Nat × Nat)) : (fieldsBits fs).length = (fs.map (·.1)).sum := by
  induction fs with
  | nil => rfl
  | cons f fs ih => obtain ⟨n, v⟩ := f; simp [fieldsBits, ih]

/-- **C04.** Any sequence of fields, each fitting its width, written to a bit stream and flushed is read back field by
field whatever bytes follow, and takes exactly ⌈total width / 8⌉ bytes. -/
theorem C04_bitstream_roundtrip (fs : List (Nat × Nat)) (h : FieldsOk fs) (tail : List Nat)
    (ht : ∀ b ∈ tail, b < 256) :
    let bytes := (writeFields BitWriter.init fs).flush
    (∀ b ∈ bytes, b < 256) ∧ bytes.length = ((fs.map (·.1)).sum + 7) / 8 ∧
      (readFields (BitReader.init (bytes ++ tail)) (fs.map (·.1))).map (·.1) = some (fs.map (·.2)) := by
  intro bytes
  obtain ⟨hw, ha⟩ := writeFields_spec BitWriter.init_wf h
  obtain ⟨pad, hp, hb, hbyte⟩ := BitWriter.flush_spec hw
  have hinit : BitWriter.init.abs = [] := rfl
  rw [ha, hinit, List.nil_append] at hb
  refine ⟨hbyte, ?_, ?_⟩
  · have := congrArg List.length hb
    rw [bytesBits_length] at this
    simp [fieldsBits_length] at this
    show (writeFields BitWriter.init fs).flush.length = _
    omega
  · obtain ⟨r', e, _, _⟩ := readFields_spec (r := BitReader.init (bytes ++ tail)) (fs := fs)
      (rest := List.replicate pad false ++ bytesBits tail)
      (BitReader.init_wf (by
        intro b hb'
        rcases List.mem_append.mp hb' with h1 | h1
        · exact hbyte b h1
        · exact ht b h1)) h
      (by rw [BitReader.init_abs, bytesBits_append, show bytesBits bytes = _ from hb, List.append_assoc])
    rw [e]; rfl

/-- The hypotheses are met by fields of mixed widths at odd phases. -/
example : FieldsOk [(3, 5), (10, 1000), (1, 1), (15, 32767)] := by unfold FieldsOk; decide

/-! ### C03: move-to-front table -/

/-- Tables that occur while compressing or decompressing any stream. -/
inductive MtfReachable : List Nat → Prop
  | init : MtfReachable initMtf
  | write {m m' : List Nat} {w w' : BitWriter} {it : Item} :
      MtfReachable m → writeItem w m it = some (w', m') → MtfReachable m'
  | read {m m' code code' : List Nat} {r r' : BitReader} :
      MtfReachable m → readItem r m code = some (r', m', code') → MtfReachable m'

theorem writeItem_mtf_perm {w w' : BitWriter} {m m' : List Nat} {it : Item}
    (h : writeItem w m it = some (w', m')) : m'.Perm m := by
  unfold writeItem at h
  split at h
  · cases hw : writeMatch w _ _ with
    | none => rw [hw] at h; simp at h
    | some x => rw [hw] at h; simp at h; rw [← h.2]
  · unfold writeLiteral at h
    split at h
    · simp at h
    · rename_i i hi
      simp at h
      rw [← h.2]
      apply updateMtf_perm
      obtain ⟨hlt, he, _⟩ := List.idxOf?_eq_some_iff.mp hi
      rw [List.getElem?_eq_getElem hlt, he]
  · simp at h; rw [← h.2]

theorem readItem_mtf_perm {r r' : BitReader} {m m' code code' : List Nat}
    (h : readItem r m code = some (r', m', code')) : m'.Perm m := by
  unfold readItem at h
  split at h
  · simp at h
  · split at h
    · simp at h
    · split at h
      · simp at h
      · simp only at h
        split at h
        · simp at h
        · rename_i hget
          simp at h
          rw [← h.2.1]
          exact updateMtf_perm _ _ _ hget
  · split at h
    · simp at h
    · split at h
      · simp at h
      · simp only at h
        split at h
        · split at h
          · split at h
            · simp at h
            · simp at h; rw [h.2.1]
          · simp at h
        · split at h
          · simp at h
          · split at h
            · simp at h
            · simp at h; rw [h.2.1]

/-- **C03.** In every reachable table each of the 256 characters occurs exactly once, and only these occur. -/
theorem C03_mtf_permutation {m : List Nat} (h : MtfReachable m) :
    m.length = 256 ∧ (∀ c, c < 256 → m.count c = 1) ∧ ∀ c ∈ m, c < 256 := by
  have hp : m.Perm initMtf := by
    induction h with
    | init => exact List.Perm.refl _
    | write _ hw ih => exact (writeItem_mtf_perm hw).trans ih
    | read _ hr ih => exact (readItem_mtf_perm hr).trans ih
  refine ⟨by rw [hp.length_eq]; simp [initMtf], ?_, ?_⟩
  · intro c hc
    rw [hp.count_eq]
    unfold initMtf
    have h1 : List.count c (List.range 256) ≤ 1 := List.nodup_iff_count.mp List.nodup_range c
    have h2 : 0 < List.count c (List.range 256) := List.count_pos_iff.mpr (by simpa using hc)
    omega
  · intro c hc
    have := hp.mem_iff.mp hc
    simpa [initMtf] using this

/-- **C03.** So every character has a literal code: writing it succeeds in every reachable table (and fails for
non-characters). -/
theorem C03_literal_always_writable {m : List Nat} (h : MtfReachable m) (w : BitWriter) (c : Nat) :
    (writeLiteral w m c).isSome = true ↔ c < 256 := by
  obtain ⟨_, h2, h3⟩ := C03_mtf_permutation h
  unfold writeLiteral
  constructor
  · intro h4
    cases hi : m.idxOf? c with
    | none => rw [hi] at h4; simp at h4
    | some i =>
      obtain ⟨hlt, he, _⟩ := List.idxOf?_eq_some_iff.mp hi
      exact h3 c (he ▸ List.getElem_mem hlt)
  · intro hc
    have hm : c ∈ m := List.count_pos_iff.mp (by rw [h2 c hc]; omega)
    obtain ⟨i, hi, _⟩ := idxOf?_some hm
    rw [hi]; rfl

/-- A table after two literals is reachable. -/
example : ∃ w w' m m', writeItem BitWriter.init initMtf (.str [65]) = some (w, m) ∧
    writeItem w m (.str [66]) = some (w', m') ∧ m'.take 3 = [66, 65, 0] ∧ MtfReachable m' := by
  have e1 : (writeItem BitWriter.init initMtf (.str [65])).isSome = true := by decide +kernel
  obtain ⟨⟨w, m⟩, h1⟩ := Option.isSome_iff_exists.mp e1
  have hm : m = updateMtf initMtf 65 65 := by
    have : (writeItem BitWriter.init initMtf (.str [65])).map (·.2) = some (updateMtf initMtf 65 65) := by decide +kernel
    rw [h1] at this; simpa using this
  have hi : m.idxOf? 66 = some 66 := by rw [hm]; decide +kernel
  refine ⟨w, writeIdx (w.writeBit true) 66 4, m, updateMtf m 66 66, h1,
    by simp only [writeItem, writeLiteral, hi], by rw [hm]; decide +kernel, ?_⟩
  exact .write (w := w) (w' := writeIdx (w.writeBit true) 66 4) (it := .str [66]) (.write .init h1)
    (by simp only [writeItem, writeLiteral, hi])

/-! ### C05: back-reference fields -/

/-- **C05.** A back-reference (any offset 1..32768, any count ≥ 3) written at any bit phase (after arbitrary fields `fs`)
is decoded as a copy with exactly that offset and count – in particular never as a raw block – and leaves the
move-to-front table alone. -/
theorem C05_match_decodes (fs : List (Nat × Nat)) (hfs : FieldsOk fs) (o c : Nat) (ho : 1 ≤ o) (ho2 : o ≤ 0x8000)
    (hc : 3 ≤ c) (code code' mtf tail : List Nat) (ht : ∀ b ∈ tail, b < 256)
    (hcopy : copyLoop code o c = some code') :
    ∃ w r, writeMatch (writeFields BitWriter.init fs) o c = some w ∧
      (readFields (BitReader.init (w.flush ++ tail)) (fs.map (·.1))) = some (fs.map (·.2), r) ∧
      (readItem r mtf code).map (·.2) = some (mtf, code') := by
  obtain ⟨hw, ha⟩ := writeFields_spec BitWriter.init_wf hfs
  obtain ⟨w', bits, e, hw', ha', hread⟩ := writeMatch_read hw ho ho2 hc
  obtain ⟨pad, hp, hb, hbyte⟩ := BitWriter.flush_spec hw'
  have hinit : BitWriter.init.abs = [] := rfl
  rw [ha', ha, hinit, List.nil_append] at hb
  obtain ⟨r, er, hr, har⟩ := readFields_spec (r := BitReader.init (w'.flush ++ tail)) (fs := fs)
      (rest := bits ++ (List.replicate pad false ++ bytesBits tail))
      (BitReader.init_wf (by
        intro b hb'
        rcases List.mem_append.mp hb' with h1 | h1
        · exact hbyte b h1
        · exact ht b h1)) hfs
      (by rw [BitReader.init_abs, bytesBits_append, hb]; simp)
  obtain ⟨r', e', _, _⟩ := hread r mtf code code' _ hr har hcopy
  exact ⟨w', r, e, er, by rw [e']; rfl⟩

/-- **C05.** A raw block written at any bit phase is decoded as exactly these characters – never as a copy. -/
theorem C05_block_decodes (fs : List (Nat × Nat)) (hfs : FieldsOk fs) (s : List Nat)
    (hs : ∀ c ∈ s, c < 256 ∧ c ≠ 0) (code mtf tail : List Nat) (ht : ∀ b ∈ tail, b < 256) :
    ∃ r, (readFields (BitReader.init ((writeLitblock (writeFields BitWriter.init fs) s).flush ++ tail))
        (fs.map (·.1))) = some (fs.map (·.2), r) ∧
      (readItem r mtf code).map (·.2) = some (mtf, code ++ s) := by
  obtain ⟨hw, ha⟩ := writeFields_spec BitWriter.init_wf hfs
  obtain ⟨bits, hw', ha', hread⟩ := writeLitblock_read hw hs
  obtain ⟨pad, hp, hb, hbyte⟩ := BitWriter.flush_spec hw'
  have hinit : BitWriter.init.abs = [] := rfl
  rw [ha', ha, hinit, List.nil_append] at hb
  obtain ⟨r, er, hr, har⟩ := readFields_spec
      (r := BitReader.init ((writeLitblock (writeFields BitWriter.init fs) s).flush ++ tail)) (fs := fs)
      (rest := bits ++ (List.replicate pad false ++ bytesBits tail))
      (BitReader.init_wf (by
        intro b hb'
        rcases List.mem_append.mp hb' with h1 | h1
        · exact hbyte b h1
        · exact ht b h1)) hfs
      (by rw [BitReader.init_abs, bytesBits_append, hb]; simp)
  obtain ⟨r', e', _, _⟩ := hread r mtf code _ hr har
  exact ⟨r, er, by rw [e']; rfl⟩

/-- Offset 1 at phase 3, count 10 (needs two count fields) after the text "ab". -/
example : FieldsOk [(3, 5)] ∧ copyLoop [97, 98] 1 10 = some (97 :: List.replicate 11 98) := by
  refine ⟨by unfold FieldsOk; decide, by decide⟩

/-- An offset above 32768 is refused (`assert offset_bits in (5, 10, 15)`). -/
theorem C05_offset_bound (w : BitWriter) (c : Nat) : writeMatch w 0x8001 c = none := by
  unfold writeMatch
  split
  · rfl
  · have : offsetBits (0x8001 - 1) = 20 := by decide +kernel
    simp [this]

/-! ### C01: PXA round trip -/

theorem compressNew_eq {code : List Nat} (hcode : ∀ c ∈ code, c < 256) {items : List Item}
    (hok : ∀ it ∈ items, it.PxaOk) (hcov : Covers code 0 items) (hlen : code.length < 0x10000) {fail : Bool}
    {b : List Nat} (hb : compressNew code.length items fail = some b) (hsize : b.length < 0x10000) :
    ∃ body, b = newHeader ++ (be16 code.length ++ be16 (8 + body.length) ++ body) ∧ b.length = 8 + body.length ∧
      (∀ x ∈ body, x < 256) ∧ ∀ tail, uncompressNew (be16 code.length ++ be16 (8 + body.length) ++ body ++ tail) =
        some (code, tail) := by
  obtain ⟨w, e, hbytes, h⟩ := pxa_main hcode hok hcov hlen
  unfold compressNew at hb
  rw [e] at hb
  simp only at hb
  split at hb
  · simp at hb
  · simp only [Option.some.injEq] at hb
    have hl : b.length = 8 + w.flush.length := by rw [← hb]; simp [newHeader, be16]; omega
    have hs : 8 + w.flush.length < 0x10000 := by omega
    rw [Nat.mod_eq_of_lt hlen, Nat.mod_eq_of_lt hs] at hb
    refine ⟨w.flush, by rw [← hb]; simp, hl, hbytes, fun tail => ?_⟩
    have h0 := h hs [] (by simp)
    rw [Nat.mod_eq_of_lt hlen, Nat.mod_eq_of_lt hs] at h0
    obtain ⟨used, _, _, e1, _, _, _, _, f⟩ := uncompressNew_local h0
    have : used = be16 code.length ++ be16 (8 + w.flush.length) ++ w.flush := by simpa using e1.symm
    rw [← this]; exact f tail

/-- **C01 (encoder/decoder part).**  For every code of 8-bit characters and every item list that covers it (raw blocks
NUL-free, matches with count ≥ 3 and offset ≤ 32768): if the PXA writer succeeds within the 16-bit size field, the
reader returns the code whatever bytes follow.  The size hypothesis follows from success under `failOnError`
(`C01_pxa_roundtrip_checked`). -/
theorem C01_pxa_roundtrip {code : List Nat} (hcode : ∀ c ∈ code, c < 256) {items : List Item}
    (hok : ∀ it ∈ items, it.PxaOk) (hcov : Covers code 0 items) (hlen : code.length < 0x10000) {fail : Bool}
    {b : List Nat} (hb : compressNew code.length items fail = some b) (hsize : b.length < 0x10000)
    (tail : List Nat) : uncompressCode (b ++ tail) = some code := by
  obtain ⟨body, rfl, _, _, h⟩ := compressNew_eq hcode hok hcov hlen hb hsize
  have e : (newHeader ++ (be16 code.length ++ be16 (8 + body.length) ++ body) ++ tail).take 4 = newHeader := by
    simp [newHeader]
  have e2 : (newHeader ++ (be16 code.length ++ be16 (8 + body.length) ++ body) ++ tail).drop 4 =
      be16 code.length ++ be16 (8 + body.length) ++ body ++ tail := by simp [newHeader]
  unfold uncompressCode
  simp only [e, e2, if_true, h tail]
  rfl

/-- **C01.** With the default size checks on, success of the writer alone suffices. -/
theorem C01_pxa_roundtrip_checked {code : List Nat} (hcode : ∀ c ∈ code, c < 256) {items : List Item}
    (hok : ∀ it ∈ items, it.PxaOk) (hcov : Covers code 0 items)
    {b : List Nat} (hb : compressNew code.length items true = some b)
    (tail : List Nat) : uncompressCode (b ++ tail) = some code ∧ b.length ≤ 0x3d00 := by
  have hb' := hb
  unfold compressNew at hb'
  split at hb'
  · simp at hb'
  · rename_i w hw
    simp only [Bool.true_and] at hb'
    split at hb'
    · simp at hb'
    · rename_i hc
      simp at hc hb'
      have hl : b.length = 8 + w.flush.length := by rw [← hb']; simp [newHeader, be16]; omega
      exact ⟨C01_pxa_roundtrip hcode hok hcov hc.1 hb (by omega) tail, by omega⟩

/-- **C01.** The writer never fails on a correct cover when the size checks are off. -/
theorem C01_pxa_writer_total {code : List Nat} (hcode : ∀ c ∈ code, c < 256) {items : List Item}
    (hok : ∀ it ∈ items, it.PxaOk) (hcov : Covers code 0 items) (hlen : code.length < 0x10000) :
    ∃ b, compressNew code.length items false = some b ∧ ∀ x ∈ b, x < 256 := by
  obtain ⟨w, e, hbytes, _⟩ := pxa_main hcode hok hcov hlen
  refine ⟨_, by unfold compressNew; rw [e]; rfl, ?_⟩
  intro x hx
  simp only [List.mem_append] at hx
  rcases hx with ((h | h) | h) | h
  · simp [newHeader] at h; omega
  · simp [be16] at h; omega
  · simp [be16] at h; omega
  · exact hbytes x h

/-- A cover with a literal, an overlapping match and a raw block. -/
example : (∀ it ∈ [Item.str [97], .mat 1 5, .str [98, 99]], it.PxaOk) ∧
    Covers [97, 97, 97, 97, 97, 97, 98, 99] 0 [.str [97], .mat 1 5, .str [98, 99]] := by
  refine ⟨by simp [Item.PxaOk], ?_⟩
  refine ⟨by simp [ItemAt], ?_, by simp [ItemAt, Item.length], by simp [Covers, Item.length]⟩
  refine ⟨by omega, by simp [Item.length], by simp [Item.length], ?_⟩
  intro k hk
  match k, hk with
  | 0, _ => rfl
  | 1, _ => rfl
  | 2, _ => rfl
  | 3, _ => rfl
  | 4, _ => rfl

/-- The NUL exclusion for raw blocks is necessary: a raw block containing NUL is not read back. -/
theorem C01_nul_block_counterexample : ∃ code items, Covers code 0 items ∧
    (compressNew code.length items true).isSome = true ∧
    (compressNew code.length items true).bind uncompressCode ≠ some code := by
  refine ⟨[1, 0], [.str [1, 0]], ⟨by simp [ItemAt], by simp [Covers, Item.length]⟩, ?_, ?_⟩ <;> decide +kernel

/-! ### C06: legacy format -/

/-- **C06.** For every NUL-free code and every cover with single-character literals and matches within the legacy limits
(`count ≤ offset ≤ 3135`, `2 ≤ count ≤ 17`): the writer succeeds, and the reader returns the code provided the area is
followed by two zero bytes (the writer writes no terminator of its own; the zero padding of the code area supplies it,
see `C06_no_terminator_counterexample`). -/
theorem C06_old_roundtrip {code : List Nat} (hcode : ∀ c ∈ code, c < 256) {items : List Item}
    (hok : ∀ it ∈ items, it.OldOk) (hcov : Covers code 0 items) (hlen : code.length < 0x10000) {fail : Bool}
    {b : List Nat} (hb : compressOld code.length items fail = some b) (tail : List Nat) :
    uncompressCode (b ++ 0 :: 0 :: tail) = some code := by
  obtain ⟨body, e, _, h⟩ := oldWriteItems_read hcode hok hcov
  unfold compressOld at hb
  rw [e] at hb
  simp only at hb
  split at hb
  · simp at hb
  · simp only [Option.some.injEq] at hb
    rw [Nat.mod_eq_of_lt hlen] at hb
    subst hb
    have h2 := h (0 :: 0 :: tail)
    simp only [List.take_zero, oldReadLoop] at h2
    have e1 : (oldHeader ++ be16 code.length ++ be16 0 ++ body ++ 0 :: 0 :: tail).take 4 = oldHeader := by
      simp [oldHeader]
    have e2 : (oldHeader ++ be16 code.length ++ be16 0 ++ body ++ 0 :: 0 :: tail).drop 4 =
      be16 code.length ++ (be16 0 ++ (body ++ 0 :: 0 :: tail)) := by simp [oldHeader]
    have e3 : oldHeader ≠ newHeader := by decide
    unfold uncompressCode
    simp only [e1, e2, if_true]
    rw [if_neg e3]
    unfold uncompressOld
    rw [readBe16_be16 hlen]
    simp only
    rw [readBe16_be16 (by omega)]
    simp only [h2]
    simp

/-- **C06.** The legacy writer succeeds on every such cover when size checks are off. -/
theorem C06_old_writer_total {code : List Nat} (hcode : ∀ c ∈ code, c < 256) {items : List Item}
    (hok : ∀ it ∈ items, it.OldOk) (hcov : Covers code 0 items) :
    ∃ b, compressOld code.length items false = some b := by
  obtain ⟨body, e, _, _⟩ := oldWriteItems_read hcode hok hcov
  exact ⟨_, by unfold compressOld; rw [e]; rfl⟩

/-- A cover with literals in and out of the table and a match. -/
example : (∀ it ∈ [Item.str [97], .str [65], .str [10], .mat 3 3], it.OldOk) ∧
    Covers [97, 65, 10, 97, 65, 10] 0 [.str [97], .str [65], .str [10], .mat 3 3] := by
  refine ⟨by simp [Item.OldOk], by simp [ItemAt], by simp [ItemAt, Item.length], by simp [ItemAt, Item.length], ?_,
    by simp [Covers, Item.length]⟩
  refine ⟨by omega, by simp [Item.length], by simp [Item.length], ?_⟩
  intro k hk
  match k, hk with
  | 0, _ => rfl
  | 1, _ => rfl
  | 2, _ => rfl

/-- Without following zero bytes (e.g. a "tiny" ROM that is just the compressed code) the legacy form is unreadable. -/
theorem C06_no_terminator_counterexample : ∃ code items b, Covers code 0 items ∧ (∀ it ∈ items, it.OldOk) ∧
    compressOld code.length items true = some b ∧ uncompressCode b = none :=
  ⟨[97], [.str [97]], _, ⟨by simp [ItemAt], by simp [Covers, Item.length]⟩, by simp [Item.OldOk], rfl,
    by decide +kernel⟩

/-- The NUL exclusion is necessary: NUL is written as the terminator. -/
theorem C06_nul_counterexample : ∃ code items b, Covers code 0 items ∧
    compressOld code.length items true = some b ∧ uncompressCode (b ++ List.replicate 100 0) ≠ some code :=
  ⟨[0, 97, 97], [.str [0], .str [97], .str [97]], _, ⟨by simp [ItemAt], by simp [ItemAt, Item.length],
    by simp [ItemAt, Item.length], by simp [Covers, Item.length]⟩, rfl, by decide +kernel⟩

/-! ### C07: raw layout -/

theorem take4_ne_new {l : List Nat} (h : l.head? ≠ some 0 ∨ l.take 4 = [0, 0, 0, 0] ∨ l.length < 4) :
    l.take 4 ≠ newHeader := by
  intro e
  rcases h with h | h | h
  · cases l with
    | nil => simp [newHeader] at e
    | cons a l => simp [newHeader] at e; simp at h; omega
  · rw [h] at e; exact absurd e (by decide)
  · have := congrArg List.length e; simp [newHeader] at this; omega

/-- The only NUL-free text that, zero-filled, starts with a signature is `:c:` itself. -/
theorem raw_header {code : List Nat} (hz : 0 ∉ code) (n : Nat) (hc : code ≠ [0x3a, 0x63, 0x3a] ∨ n = 0) :
    (code ++ List.replicate n 0).take 4 ≠ newHeader ∧ (code ++ List.replicate n 0).take 4 ≠ oldHeader := by
  match code, hz, hc with
  | [], _, _ =>
    have h : (List.replicate n 0).take 4 = List.replicate (min 4 n) 0 := by simp [List.take_replicate]
    simp only [List.nil_append, h]
    have : min 4 n = 0 ∨ min 4 n = 1 ∨ min 4 n = 2 ∨ min 4 n = 3 ∨ min 4 n = 4 := by omega
    rcases this with h | h | h | h | h <;> rw [h] <;> decide
  | [a], hz, _ =>
    simp at hz
    match n with
    | 0 => simp [newHeader, oldHeader]
    | 1 => simp [newHeader, oldHeader]
    | n + 2 => simp [newHeader, oldHeader, List.replicate_succ]
  | [a, b], hz, _ =>
    simp at hz
    match n with
    | 0 => simp [newHeader, oldHeader]
    | 1 => simp [newHeader, oldHeader]
    | n + 2 => simp [newHeader, oldHeader, List.replicate_succ]
  | [a, b, c], hz, hc =>
    simp at hz
    match n with
    | 0 => simp [newHeader, oldHeader]
    | n + 1 =>
      simp [newHeader, oldHeader, List.replicate_succ] at hc ⊢
      exact hc
  | a :: b :: c :: d :: l, hz, _ =>
    simp at hz
    simp [newHeader, oldHeader]
    omega

theorem zbytesEof_zero_filled {code : List Nat} (hz : 0 ∉ code) {size : Nat} (hl : code.length ≤ size) (n : Nat) :
    zbytesEof size (code ++ List.replicate n 0) = code := by
  unfold zbytesEof
  rw [List.take_append, List.take_of_length_le hl, List.takeWhile_append_of_pos]
  · simp [List.take_replicate]
  · intro c hc
    simp; intro h; exact hz (h ▸ hc)

/-- **C07.** NUL-free code stored raw and zero-filled (by any amount `n`, up to the maximal code size) reads back
unchanged.  A NUL-free code can only collide with a compression signature if it is exactly `:c:`. -/
theorem C07_raw_roundtrip {code b : List Nat} (hb : encodeP8 code = some b) (hz : 0 ∉ code) {size : Nat}
    (hl : code.length ≤ size) (n : Nat) (hc : code ≠ [0x3a, 0x63, 0x3a] ∨ n = 0) :
    uncompressCode (b ++ List.replicate n 0) size = some code := by
  unfold encodeP8 at hb
  split at hb
  · simp at hb; subst hb
    obtain ⟨h1, h2⟩ := raw_header hz n hc
    unfold uncompressCode
    simp only [h1, h2, if_false, zbytesEof_zero_filled hz hl]
  · simp at hb

/-- **C07.** Raw storage succeeds exactly for 8-bit characters. -/
theorem C07_raw_writable (code : List Nat) : (encodeP8 code).isSome = true ↔ ∀ c ∈ code, c < 256 := by
  unfold encodeP8
  split
  · rename_i h; simpa using h
  · rename_i h; simpa using h

example : (encodeP8 [112, 114, 105, 110, 116]) = some [112, 114, 105, 110, 116] ∧ 0 ∉ [112, 114, 105, 110, 116] := by
  decide

/-- **C07.** The NUL exclusion is necessary: any code with a NUL not read as compressed loses its end. -/
theorem C07_nul_never_roundtrips {code : List Nat} (hz : 0 ∈ code) (h1 : code.take 4 ≠ newHeader)
    (h2 : code.take 4 ≠ oldHeader) (h4 : 4 ≤ code.length) (size : Nat) (tail : List Nat) :
    uncompressCode (code ++ tail) size ≠ some code := by
  have e : (code ++ tail).take 4 = code.take 4 := List.take_append_of_le_length h4
  unfold uncompressCode
  simp only [e, h1, h2, if_false]
  intro h
  simp only [Option.some.injEq] at h
  have : ∀ c ∈ zbytesEof size (code ++ tail), c ≠ 0 := by
    intro c hc
    unfold zbytesEof at hc
    have := List.all_takeWhile (p := (· != 0)) (l := (code ++ tail).take size)
    rw [List.all_eq_true] at this
    simpa using this c hc
  rw [h] at this
  exact this 0 hz rfl

/-- **C07.** The signature exclusion is necessary: code starting with a signature is misread, and so is `:c:` in a
zero-filled area. -/
theorem C07_signature_counterexample :
    uncompressCode ([0x3a, 0x63, 0x3a] ++ List.replicate 100 0) = some [] ∧
      uncompressCode (newHeader ++ [97, 97, 97, 97]) = none := by
  constructor <;> decide +kernel

/-! ### C08: reported size -/

theorem readBe16_shift {src : List Nat} {v : Nat} {r : List Nat} (h : readBe16 src = some (v, r)) :
    r = src.drop 2 ∧ 2 ≤ src.length := by
  match src, h with
  | a :: b :: l, h => simp [readBe16] at h; simp [h.2]

/-- **C08 (PXA).** The size reported for PXA-compressed code is exactly the number of bytes written. -/
theorem C08_pxa_size {code : List Nat} (hcode : ∀ c ∈ code, c < 256) {items : List Item}
    (hok : ∀ it ∈ items, it.PxaOk) (hcov : Covers code 0 items) (hlen : code.length < 0x10000) {fail : Bool}
    {b : List Nat} (hb : compressNew code.length items fail = some b) (hsize : b.length < 0x10000)
    (tail : List Nat) : getCompressedSize (b ++ tail) = some b.length := by
  obtain ⟨body, rfl, hl, _, _⟩ := compressNew_eq hcode hok hcov hlen hb hsize
  have e : (newHeader ++ (be16 code.length ++ be16 (8 + body.length) ++ body) ++ tail).take 4 = newHeader := by
    simp [newHeader]
  have e2 : (newHeader ++ (be16 code.length ++ be16 (8 + body.length) ++ body) ++ tail).drop 4 =
      be16 code.length ++ (be16 (8 + body.length) ++ (body ++ tail)) := by simp [newHeader]
  unfold getCompressedSize
  simp only [e, e2, if_true, readBe16_be16 hlen, readBe16_be16 (show 8 + body.length < 0x10000 by omega)]
  rw [hl]; rfl

/-- **C08 (raw).** Likewise for raw code in a zero-filled area. -/
theorem C08_raw_size {code b : List Nat} (hb : encodeP8 code = some b) (hz : 0 ∉ code) {size : Nat}
    (hl : code.length ≤ size) (n : Nat) (hc : code ≠ [0x3a, 0x63, 0x3a] ∨ n = 0) :
    getCompressedSize (b ++ List.replicate n 0) size = some b.length := by
  unfold encodeP8 at hb
  split at hb
  · simp at hb; subst hb
    obtain ⟨h1, h2⟩ := raw_header hz n hc
    unfold getCompressedSize
    simp only [h1, h2, if_false, zbytesEof_zero_filled hz hl]
  · simp at hb

/-- **C08 (legacy).** For the legacy layout the reported size is the written size plus the two terminating zero bytes
that the zero fill supplies. -/
theorem C08_old_size {code : List Nat} (hcode : ∀ c ∈ code, c < 256) {items : List Item}
    (hok : ∀ it ∈ items, it.OldOk) (hcov : Covers code 0 items) (hlen : code.length < 0x10000) {fail : Bool}
    {b : List Nat} (hb : compressOld code.length items fail = some b) (tail : List Nat) :
    getCompressedSize (b ++ 0 :: 0 :: tail) = some (b.length + 2) := by
  obtain ⟨body, e, _, h⟩ := oldWriteItems_read hcode hok hcov
  unfold compressOld at hb
  rw [e] at hb
  simp only at hb
  split at hb
  · simp at hb
  · simp only [Option.some.injEq] at hb
    rw [Nat.mod_eq_of_lt hlen] at hb
    subst hb
    have h2 := h (0 :: 0 :: tail)
    simp only [List.take_zero, oldReadLoop] at h2
    obtain ⟨n, hn, hle, hrest, _⟩ := oldSizeLoop_of_read _ _ h2
    have hn' : n = body.length + 2 := by
      have := congrArg List.length hrest
      simp at this hle; omega
    have e1 : (oldHeader ++ be16 code.length ++ be16 0 ++ body ++ 0 :: 0 :: tail).take 4 = oldHeader := by
      simp [oldHeader]
    have e2 : (oldHeader ++ be16 code.length ++ be16 0 ++ body ++ 0 :: 0 :: tail).drop 4 =
      be16 code.length ++ (be16 0 ++ (body ++ 0 :: 0 :: tail)) := by simp [oldHeader]
    have e3 : oldHeader ≠ newHeader := by decide
    unfold getCompressedSize
    simp only [e1, e2, if_true]
    rw [if_neg e3, readBe16_be16 hlen]
    simp only
    rw [readBe16_be16 (by omega)]
    simp only [hn, hn', Option.map_some]
    simp [oldHeader, be16]

/-- **C08.** For *any* code area (however produced) that reads as some code: the reported size lies within the area and
copying just that many bytes keeps the code readable. -/
theorem C08_size_keeps_code {src code : List Nat} {size : Nat} (h : uncompressCode src size = some code) :
    ∃ n, getCompressedSize src size = some n ∧ n ≤ src.length ∧
      (src.take 4 = newHeader ∨ src.take 4 = oldHeader → uncompressCode (src.take n) size = some code) ∧
      (src.take 4 ≠ newHeader → src.take 4 ≠ oldHeader → src.take n = code) := by
  unfold uncompressCode at h
  simp only at h
  split at h
  · rename_i hh
    cases hu : uncompressNew (src.drop 4) with
    | none => rw [hu] at h; simp at h
    | some p =>
      obtain ⟨code', rest⟩ := p
      rw [hu] at h; simp at h; subst h
      obtain ⟨used, u, c, e1, h4, r1, r2, hc, f⟩ := uncompressNew_local hu
      have hs : src = newHeader ++ (used ++ rest) := by rw [← hh, ← e1, List.take_append_drop]
      have hcl : c = (newHeader ++ used).length := by rw [hc]; simp [newHeader]; omega
      refine ⟨c, ?_, ?_, fun _ => ?_, fun hn => absurd hh hn⟩
      · unfold getCompressedSize
        simp only [hh, if_true, r1, r2, Option.map_some]
      · rw [hcl, hs]; simp
      · have ht : src.take c = newHeader ++ used := by
          rw [hs, ← List.append_assoc, hcl, List.take_left]
        rw [ht]
        unfold uncompressCode
        have := f []
        rw [List.append_nil] at this
        simp [newHeader, this]
  · rename_i hh
    split at h
    · rename_i hh2
      unfold uncompressOld at h
      cases hr1 : readBe16 (src.drop 4) with
      | none => rw [hr1] at h; simp at h
      | some p =>
        obtain ⟨u, s1⟩ := p
        rw [hr1] at h; simp only at h
        cases hr2 : readBe16 s1 with
        | none => rw [hr2] at h; simp at h
        | some p =>
          obtain ⟨z, s2⟩ := p
          rw [hr2] at h
          cases z with
          | succ z => simp at h
          | zero =>
            simp only at h
            cases hl : oldReadLoop s2 [] with
            | none => rw [hl] at h; simp at h
            | some p =>
              obtain ⟨code', rest⟩ := p
              rw [hl] at h
              simp only at h
              split at h
              · rename_i hsz
                simp at h; subst h
                obtain ⟨n, hn, hle, hrest, f⟩ := oldSizeLoop_of_read _ _ hl
                obtain ⟨e1, l1⟩ := readBe16_shift hr1
                obtain ⟨e2, l2⟩ := readBe16_shift hr2
                have es2 : s2 = src.drop 8 := by rw [e2, e1]; simp
                have hlen : 8 ≤ src.length := by
                  rw [e1] at l2; simp at l1 l2; omega
                refine ⟨n + 8, ?_, ?_, fun _ => ?_, fun _ hn => absurd hh2 hn⟩
                · unfold getCompressedSize
                  simp only [hh2, hr1, hr2, hn, Option.map_some]
                  rw [if_neg (by decide)]
                  simp
                · rw [es2] at hle; simp at hle; omega
                · have t4 : (src.take (n + 8)).take 4 = oldHeader := by
                    rw [List.take_take, show min 4 (n + 8) = 4 by omega, hh2]
                  have d4 : (src.take (n + 8)).drop 4 = (src.drop 4).take (n + 4) := by
                    rw [List.drop_take]; congr 1
                  have hsrc : src.drop 4 = (src.drop 4).take 4 ++ s2 := by
                    rw [es2]
                    conv => lhs; rw [← List.take_append_drop 4 (src.drop 4)]
                    simp
                  have d4' : (src.drop 4).take (n + 4) = (src.drop 4).take 4 ++ s2.take n := by
                    conv => lhs; rw [hsrc]
                    rw [List.take_append]
                    have : ((src.drop 4).take 4).length = 4 := by simp; omega
                    rw [this, List.take_of_length_le (by omega)]
                    congr 2
                  unfold uncompressCode
                  simp only [t4, d4, d4']
                  rw [if_neg (by decide), if_pos trivial]
                  have hf := f []
                  rw [List.append_nil] at hf
                  match hd : src.drop 4, hr1, e1 with
                  | a :: b :: l, hr1, e1 =>
                    simp [readBe16] at hr1
                    have hs1 : s1 = l := hr1.2.symm
                    rw [hs1] at hr2
                    match l, hr2 with
                    | c :: d :: l', hr2 =>
                      have hr2' := hr2
                      simp [readBe16] at hr2
                      unfold uncompressOld
                      simp only [List.take_succ_cons, List.take_zero, List.cons_append, List.nil_append, readBe16]
                      rw [show c * 256 + d = 0 by omega]
                      simp only [hf]
                      rw [hr1.1, if_pos hsz]; rfl
              · simp at h
    · rename_i hh2
      simp at h
      refine ⟨code.length, ?_, ?_, fun hx => ?_, fun _ _ => ?_⟩
      · unfold getCompressedSize
        simp [hh, hh2, h]
      · rw [← h]; unfold zbytesEof
        exact Nat.le_trans (List.takeWhile_prefix _).length_le (by simp; omega)
      · rcases hx with hx | hx
        · exact absurd hx hh
        · exact absurd hx hh2
      · have hp : code <+: src := by
          rw [← h]; unfold zbytesEof
          exact (List.takeWhile_prefix _).trans (List.take_prefix _ _)
        exact (List.prefix_iff_eq_take.mp hp).symm

/-- Non-vacuous: a PXA area followed by junk reads as "aaaaaaab" and reports a smaller size. -/
example : (compressNew 8 [.str [97], .mat 1 6, .str [98]] true).bind (fun b => uncompressCode (b ++ [1, 2, 3])) =
      some [97, 97, 97, 97, 97, 97, 97, 98] ∧
    (compressNew 8 [.str [97], .mat 1 6, .str [98]] true).bind (fun b => getCompressedSize (b ++ [1, 2, 3])) =
      some 12 := by constructor <;> decide +kernel

end Verif
