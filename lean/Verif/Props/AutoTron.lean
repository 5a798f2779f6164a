import Verif.AutoTron
import Verif.PtFileLemmas
import Verif.Props.P64
import Verif.Props.Ptron
/-! C83: Picotron files are recognised as what they were written as, and pods stay what they are. -/
namespace Verif.AutoTron

open Verif.Ptron (Cart)

theorem prefix_false {p s : List Nat} {a : Nat} {t : List Nat} (h : p.head? ≠ some a) (hp : p ≠ []) (hs : s = a :: t) : p.isPrefixOf s = false := by
  subst hs
  cases p with
  | nil => exact absurd rfl hp
  | cons b p =>
    have : (b == a) = false := by simpa using h
    simp [List.isPrefixOf, this]

/-- **C83 (.p64).** A saved `.p64` file is recognised and read back (see C42 for the files it can hold). -/
theorem C83_p64 {av : Bool} {cart : Cart} (h : ∀ f ∈ cart.files, P64.FileOk av f) (hn : (cart.files.map (·.1)).Nodup) (defVersion : Nat) :
    auto (P64.write av cart) = .source ∧
      ∃ files, run defVersion (P64.write av cart) = some ⟨cart.version, files⟩ ∧ files.Perm cart.files := by
  have hp : P64.p64Prefix.isPrefixOf (P64.write av cart) = true := by
    unfold P64.write P64.sourceLines
    rw [List.append_assoc, List.cons_append, List.cons_append, joinNl, List.isPrefixOf_iff_prefix, List.append_assoc, List.append_assoc]
    exact List.prefix_append _ _
  have e : auto (P64.write av cart) = .source := by unfold auto; rw [if_pos hp]
  refine ⟨e, ?_⟩
  unfold run
  rw [e]
  exact P64.C42_roundtrip_partial h hn defVersion

/-- **C83 (which files are ROMs).** Bytes of the ROM form are recognised exactly if the version or one of the four bytes of the size is
zero. -/
theorem C83_rom_form {bytes : List Nat} {version : Nat} {files : List (List Nat × Option (List Nat))} {body block pad : List Nat}
    (hv : PtronFormat.Entries files body ∧ Lz4Format.IsBlock block body ∧ version < 256 ∧ block.length < 256 ^ 4)
    (hb : bytes = [0x70, 0x36, 0x34, version, block.length % 256, block.length / 256 % 256, block.length / 256 ^ 2 % 256,
      block.length / 256 ^ 3] ++ block ++ pad) :
    auto bytes = .rom ↔ version = 0 ∨ block.length % 256 = 0 ∨ block.length / 256 % 256 = 0 ∨ block.length / 256 ^ 2 % 256 = 0 ∨
      block.length < 256 ^ 3 := by
  have e1 : P64.p64Prefix.isPrefixOf bytes = false := by
    subst hb
    have : P64.p64Prefix = 0x70 :: 0x69 :: P64.p64Prefix.drop 2 := by decide
    rw [this]
    simp [List.isPrefixOf]
  have e2 : Auto.pngHeader.isPrefixOf bytes = false := prefix_false (a := 0x70) (by decide) (by decide) hb
  have e3 : Ptron.romSig.isPrefixOf bytes = true := by
    rw [List.isPrefixOf_iff_prefix, hb]; exact ⟨_, rfl⟩
  have e4 : bytes.take 8 = [0x70, 0x36, 0x34, version, block.length % 256, block.length / 256 % 256, block.length / 256 ^ 2 % 256,
      block.length / 256 ^ 3] := by
    rw [hb, List.append_assoc]
    exact List.take_left' rfl
  have e5 : block.length / 256 ^ 3 = 0 ↔ block.length < 256 ^ 3 := by
    rw [Nat.div_eq_zero_iff]; omega
  unfold auto
  rw [e1, e2, e3, e4]
  rw [← e5]
  simp only [Bool.false_eq_true, if_false, Bool.true_and, List.contains_iff_mem, List.mem_cons, List.not_mem_nil, or_false]
  constructor
  · intro h
    split at h
    · next hm =>
      rcases hm with hm | hm | hm | hm | hm | hm | hm | hm
      · omega
      · omega
      · omega
      · exact .inl hm.symm
      · exact .inr (.inl hm.symm)
      · exact .inr (.inr (.inl hm.symm))
      · exact .inr (.inr (.inr (.inl hm.symm)))
      · exact .inr (.inr (.inr (.inr hm.symm)))
    · cases h
  · intro h
    rw [if_pos]
    rcases h with h | h | h | h | h
    · exact .inr (.inr (.inr (.inl h.symm)))
    · exact .inr (.inr (.inr (.inr (.inl h.symm))))
    · exact .inr (.inr (.inr (.inr (.inr (.inl h.symm)))))
    · exact .inr (.inr (.inr (.inr (.inr (.inr (.inl h.symm))))))
    · exact .inr (.inr (.inr (.inr (.inr (.inr (.inr h.symm))))))

/-- **C83 (ROM).** A ROM file below 16 MB is recognised and read back. -/
theorem C83_rom {cart : Cart} (hn : (cart.files.map (·.1)).Nodup) (h0 : ∀ f ∈ cart.files, 0 ∉ f.1)
    (h1 : ∀ f ∈ cart.files, ∀ c ∈ f.1, c < 256) (h2 : ∀ f ∈ cart.files, ∀ d, f.2 = some d → ∀ c ∈ d, c < 256)
    {padding limit : Nat} {fast : Bool} {bytes : List Nat} (hw : Ptron.writeRom cart padding limit fast = some bytes)
    (hl : bytes.length < 256 ^ 3) (defVersion : Nat) :
    auto bytes = .rom ∧ ∃ files, run defVersion bytes = some ⟨cart.version, files⟩ ∧ files.Perm cart.files := by
  obtain ⟨files, hp, body, block, pad, g1, g2, g3, g4, g5⟩ := ((Ptron.C34_writer h0 h1 h2 padding limit fast).1 bytes hw).2
  have e : auto bytes = .rom := by
    rw [C83_rom_form ⟨g1, g2, g3, g4⟩ g5]
    right; right; right; right
    rw [g5] at hl
    simp only [List.length_append] at hl
    omega
  refine ⟨e, ?_⟩
  unfold run
  rw [e]
  exact Ptron.C34_roundtrip hn h0 h1 h2 hw defVersion false

/-- **C83 (images).** Exactly the files that begin like a PNG image are read as one. -/
theorem C83_png (bytes : List Nat) : auto bytes = .image ↔ Auto.pngHeader <+: bytes := by
  unfold auto
  constructor
  · intro h
    split at h
    · cases h
    · split at h
      · next hp => exact List.isPrefixOf_iff_prefix.1 hp
      · split at h <;> cases h
  · rintro ⟨t, rfl⟩
    rw [if_neg, if_pos]
    · rw [List.isPrefixOf_iff_prefix]; exact ⟨t, rfl⟩
    · have := prefix_false (p := P64.p64Prefix) (a := 0x89) (s := Auto.pngHeader ++ t) (by decide) (by decide) rfl
      rw [this]; decide

/-- **C83 (code).** Text without NULs that begins neither like a cart nor like an image is code, and (without carriage returns) it is the
program, but for a line feed at its end. -/
theorem C83_lua {data : List Nat} (h1 : ¬ P64.lit "picotron cartridge" <+: data) (h2 : ¬ Auto.pngHeader <+: data) (h3 : 0 ∉ data.take 8) :
    auto data = .raw ∧ (13 ∉ data → ¬ P64.lit "b64$" <+: data → ∀ defVersion,
      (∀ t, data = t ++ [10] → run defVersion data = some ⟨defVersion, [(P64.lit "main.lua", some t)]⟩) ∧
      ((¬ ∃ t, data = t ++ [10]) → run defVersion data = some ⟨defVersion, [(P64.lit "main.lua", some data)]⟩)) := by
  have e : auto data = .raw := by
    unfold auto
    have k1 : P64.p64Prefix.isPrefixOf data = false := Bool.eq_false_iff.2 fun h => h1 (List.isPrefixOf_iff_prefix.1 h)
    have k2 : Auto.pngHeader.isPrefixOf data = false := Bool.eq_false_iff.2 fun h => h2 (List.isPrefixOf_iff_prefix.1 h)
    have k3 : (data.take 8).contains 0 = false := by
      rw [Bool.eq_false_iff, ne_eq, List.contains_iff_mem]; exact h3
    rw [k1, k2, k3, Bool.and_false]
    rfl
  refine ⟨e, fun hc hb defVersion => ?_⟩
  unfold run
  rw [e]
  exact P64.C42_raw hc hb (.inl rfl) defVersion

/-! ### Pods -/

theorem kPod_good : PtFile.GoodMeta kPod := by
  refine ⟨by decide, ?_, by decide⟩
  rintro ⟨a, b, h⟩
  have h93 : (93 : Nat) ∈ kPod := by
    rw [← h]
    have : PtFile.asc "]]" = [93, 93] := by decide
    rw [this]; simp
  exact absurd h93 (by decide)

/-- **C83 (pod).** Data without metadata gets that of a pod when it is loaded as a pod, which is removed again when it is saved. -/
theorem C83_pod_plain {data : List Nat} (h : ¬ PtFile.asc "--[[pod" <+: data) :
    readPod data = PtFile.asc "--[[pod]]" ++ data ∧ writePod (readPod data) = data := by
  have hs : PtFile.starts PtFile.podPrefix data = false := Bool.eq_false_iff.2 fun e => h (List.isPrefixOf_iff_prefix.1 e)
  obtain ⟨h1, h2⟩ := PtFile.starts_plain hs
  have e : readPod data = PtFile.metaPrefix ++ kPod ++ PtFile.metaSuffix ++ data := by
    unfold readPod
    rw [if_pos h1]
    simp only [PtFile.setRawMeta, h2]
  refine ⟨e.trans (by rfl), ?_⟩
  obtain ⟨h3, h4⟩ := PtFile.rawMeta_layout kPod_good data
  rw [e]
  unfold writePod
  rw [if_pos h3]
  simp only [PtFile.setRawMeta, h4]

/-- **C83 (pod).** Data with any other metadata is left as it is. -/
theorem C83_pod_meta {data md : List Nat} (h : PtFile.rawMeta data = some md) (hm : md ≠ kPod) : readPod data = data ∧ writePod (readPod data) = data := by
  have e : readPod data = data := by unfold readPod; rw [if_neg (by rw [h]; simp)]
  refine ⟨e, ?_⟩
  rw [e]
  unfold writePod
  rw [if_neg (by rw [h]; simpa using hm)]

/-- **C83 (pod).** A pod that is saved and loaded again is the same pod, unless its own metadata is just `pod` and is followed by more
metadata or not closed. -/
theorem C83_pod_again {data : List Nat} (h : PtFile.rawMeta data = some kPod → PtFile.asc "--[[pod]]" <+: data ∧
    ¬ PtFile.asc "--[[pod--[[pod" <+: data.take 7 ++ data.drop 9) : readPod (writePod (readPod data)) = readPod data := by
  cases hr : PtFile.rawMeta data with
  | none =>
    have hs : ¬ PtFile.asc "--[[pod" <+: data := by
      intro hp
      have : PtFile.starts PtFile.podPrefix data = true := List.isPrefixOf_iff_prefix.2 hp
      unfold PtFile.rawMeta at hr
      rw [this] at hr
      cases hr
    rw [(C83_pod_plain hs).2]
  | some md =>
    by_cases hm : md = kPod
    · subst hm
      obtain ⟨⟨x, hx⟩, hn⟩ := h hr
      have e : data = PtFile.metaPrefix ++ kPod ++ PtFile.metaSuffix ++ x := hx.symm.trans (by rfl)
      obtain ⟨-, h4⟩ := PtFile.rawMeta_layout kPod_good x
      have hx' : ¬ PtFile.asc "--[[pod" <+: x := by
        rintro ⟨y, hy⟩
        refine hn ?_
        rw [← hx, ← hy]
        exact ⟨y, by rfl⟩
      have e1 : readPod data = data := by unfold readPod; rw [if_neg (by rw [hr]; simp)]
      have e2 : writePod data = x := by
        unfold writePod
        rw [if_pos hr]
        simp only [PtFile.setRawMeta]
        rw [e, h4]
      rw [e1, e2, (C83_pod_plain hx').1, ← hx]
    · rw [(C83_pod_meta hr hm).2]

/-! ### Cases and counterexamples -/

/-- A ROM, an image, code and a cart. -/
example : auto [0x70, 0x36, 0x34, 7, 1, 2, 0, 0, 9] = .rom ∧ auto (Auto.pngHeader ++ [0]) = .image ∧ auto (P64.lit "p64=1") = .raw ∧
    auto (P64.lit "picotron cartridge // x") = .source := by decide

/-- A ROM that meets the hypotheses of `C83_rom`. -/
example : (Ptron.writeRom ⟨7, [(Ptron.mainPath, some [1, 2, 3])]⟩ 2 0 true).map auto = some .rom := by decide +kernel

/-- A pod with other metadata. -/
example : PtFile.rawMeta (PtFile.asc "--[[pod,x=1]]{}") = some (PtFile.asc "pod,x=1") := by decide +kernel

/-- **C83 (ROM)** fails for a tiny ROM that is compressed with PICO-8's compression: it is taken for code, whereas with the format given it
is read back. -/
theorem C83_tiny_counterexample : ((Ptron.writeTiny 7 (List.replicate 40 97)).map fun b => (b.take 4, auto b)) = some ([0, 0x70, 0x78, 0x61], .raw) ∧
    ((Ptron.writeTiny 7 (List.replicate 40 97)).bind fun b => Ptron.readRom 7 true b) =
      some ⟨7, [(Ptron.mainPath, some (List.replicate 40 97))]⟩ := by
  decide +kernel

/-- **C83 (pod)**: a pod whose metadata is just `pod` loses it when it is saved; the file changes, although it is the same pod. -/
theorem C83_pod_counterexample : writePod (readPod (PtFile.asc "--[[pod]]{}")) = PtFile.asc "{}" ∧
    readPod (PtFile.asc "{}") = readPod (PtFile.asc "--[[pod]]{}") := by decide +kernel

/-- **C83 (pod)**: metadata that is not closed is lost. -/
theorem C83_pod_open_counterexample : writePod (readPod (PtFile.asc "--[[pod")) = [] := by decide +kernel

end Verif.AutoTron
