import Verif.Lz4Lemmas
import Verif.Props.Lz77
/-! C33: LZ4 blocks. -/
namespace Verif.Lz4
open Verif.Lz4Format

/-- **C33.** What the reader accepts and what it makes of it, exactly: a block with the lenient variations of `Loose`. -/
theorem C33_reader {bytes : List Nat} (hb : ∀ b ∈ bytes, b < 256) (data : List Nat) :
    uncompress bytes = some data ↔ Loose [] bytes data :=
  ⟨readLoop_sound hb, fun h => readLoop_complete h hb _ (Nat.le_refl _)⟩

/-- **C33.** Every LZ4 block, whoever wrote it, is read as the data it stands for. -/
theorem C33_reads_blocks {bytes data : List Nat} (h : IsBlock bytes data) (hd : ∀ b ∈ data, b < 256) :
    uncompress bytes = some data := by
  obtain ⟨ss, lits, h1, h2, _⟩ := h
  obtain ⟨_, a, b⟩ := means_bytes h2 hd
  exact (C33_reader (block_bytes h1 a b) data).mpr (loose_of_block h1 h2)

/-- **C33.** The writer never fails, in either mode, on any byte string; what it writes are bytes that form a block of the
data within the end-of-block restrictions (so that other readers accept it). -/
theorem C33_writer (fast : Bool) {data : List Nat} (hd : ∀ b ∈ data, b < 256) :
    ∃ bytes, compress fast data = some bytes ∧ IsBlock bytes data ∧ ∀ b ∈ bytes, b < 256 := by
  obtain ⟨items, h1, h2, h3⟩ := C02_cover (params fast data) (by simp [params]) data
  obtain ⟨s, e, ss, t, hs, hl, _, hend⟩ := writeItems_inv (data := data) (i := 0) (s := ⟨[], []⟩)
    ⟨[], [], .nil, by simp, by simp, by simp⟩ h2 (fun x hx => (h3 x hx).1)
  obtain ⟨b, hb, hlast⟩ := writeBlock_last (lits := s.lits)
  obtain ⟨k1, k2⟩ := hs.block hlast
  rw [hl, List.take_length] at k2
  obtain ⟨_, a1, a2⟩ := means_bytes k2 hd
  refine ⟨s.out ++ b, by simp [compress, h1, e, emit, hb], ⟨ss, s.lits, k1, k2, fun q hq => ?_⟩, block_bytes k1 a1 a2⟩
  have hlen : t.length + s.lits.length = data.length := by
    have := congrArg List.length hl
    simpa using this
  have := hend q hq
  omega

/-- **C33.** Compressing and decompressing gives back every byte string, in either mode. -/
theorem C33_roundtrip (fast : Bool) {data : List Nat} (hd : ∀ b ∈ data, b < 256) :
    ∃ bytes, compress fast data = some bytes ∧ uncompress bytes = some data := by
  obtain ⟨bytes, h1, h2, _⟩ := C33_writer fast hd
  exact ⟨bytes, h1, C33_reads_blocks h2 hd⟩

/-- A match that would reach into the last five bytes is cut short; literals remain at the end. -/
example : compress true (List.replicate 20 7) = some [0x1a, 7, 1, 0, 0x50, 7, 7, 7, 7, 7] := by decide +kernel

/-- Lengths of 15 and more (here 19 + 1 literals and a copy of 4 + 15 + 1). -/
example : uncompress ([0xff, 5] ++ List.range 20 ++ [20, 0, 1] ++ [0x50, 1, 2, 3, 4, 5]) =
    some (List.range 20 ++ List.range 20 ++ [1, 2, 3, 4, 5]) := by decide +kernel

/-- The writer's optimal mode on a text with a repetition. -/
example : compress false [1, 2, 3, 4, 5, 1, 2, 3, 4, 5, 6, 7, 8, 9, 10, 11, 12, 13, 14, 15] =
    some ([0x51, 1, 2, 3, 4, 5, 5, 0] ++ [0xa0, 6, 7, 8, 9, 10, 11, 12, 13, 14, 15]) := by decide +kernel

/-- A block that meets `IsBlock`, from which `C33_reads_blocks` gives its data. -/
example : IsBlock [0x10, 9, 1, 0, 0x80, 1, 2, 3, 4, 5, 6, 7, 8] [9, 9, 9, 9, 9, 1, 2, 3, 4, 5, 6, 7, 8] :=
  ⟨[⟨[9], 1, 4⟩], [1, 2, 3, 4, 5, 6, 7, 8],
    .seq (b := [0x10, 9, 1, 0]) ⟨1, [], 0, [], .short (by decide), by decide, .short (by decide), by decide, by decide, rfl⟩
      (.last ⟨8, [], .short (by decide), rfl⟩),
    .seq (text' := [9, 9, 9, 9, 9]) ⟨by decide, by decide, by decide, by decide, by
      intro k h1 h2
      have : k = 1 ∨ k = 2 ∨ k = 3 ∨ k = 4 := by simp at h1 h2; omega
      rcases this with rfl | rfl | rfl | rfl <;> rfl⟩ .last,
    by simp [EndRules]⟩

end Verif.Lz4
