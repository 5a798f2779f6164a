import Verif.Props.AutoDetect
import Verif.Props.P8Layout
/-! C82: that a cart is always saved as text of Unicode characters, so that the assumption of `C82_p8` about the file can be met. -/
namespace Verif.Auto
open Verif.Utf8Spec (Text Scalar)

/-- Unicode text. -/
def Clean (l : List Nat) : Prop := ∀ x ∈ l, Scalar x

theorem clean_small {l : List Nat} (h : ∀ x ∈ l, x < 0x80) : Clean l := fun x hx => ⟨by have := h x hx; omega, by have := h x hx; omega⟩

theorem clean_append {a b : List Nat} (ha : Clean a) (hb : Clean b) : Clean (a ++ b) := by
  intro x hx
  rcases List.mem_append.1 hx with h | h
  · exact ha x h
  · exact hb x h

theorem clean_flatMap {α : Type} {l : List α} {f : α → List Nat} (h : ∀ a ∈ l, Clean (f a)) : Clean (l.flatMap f) := by
  intro x hx
  obtain ⟨a, ha, hx⟩ := List.mem_flatMap.1 hx
  exact h a ha x hx

theorem clean_digit (n : Nat) : Clean [P8Format.digit n] := by
  have h : ∀ k < 32, P8Format.digit k < 0x80 := by decide
  apply clean_small
  intro x hx
  rw [List.mem_singleton] at hx
  subst hx
  by_cases hn : n < 32
  · exact h n hn
  · unfold P8Format.digit
    rw [List.getD_eq_getElem?_getD, List.getElem?_eq_none (by
      have : "0123456789abcdefghijklmnopqrstuv".toList.length = 32 := by decide
      omega)]
    decide

theorem clean_byte (b : Nat) : Clean (P8Format.byte b) := clean_append (a := [_]) (clean_digit _) (clean_digit _)

theorem clean_map_digit {l : List Nat} {f : Nat → Nat} : Clean (l.map fun x => P8Format.digit (f x)) := by
  intro x hx
  obtain ⟨a, -, rfl⟩ := List.mem_map.1 hx
  exact clean_digit _ _ (List.mem_singleton.2 rfl)

theorem clean_sfx (m : Nat → Nat) (y : Nat) : Clean (P8Format.sfxRow m y) := by
  refine clean_append (clean_flatMap fun _ _ => clean_byte _) (clean_flatMap fun _ _ => ?_)
  exact clean_append (clean_byte _) (clean_append (a := [_]) (clean_digit _) (clean_append (a := [_]) (clean_digit _) (clean_digit _)))

theorem clean_music (m : Nat → Nat) (y : Nat) : Clean (P8Format.musicRow m y) := by
  unfold P8Format.musicRow
  exact clean_append (clean_append (clean_append (clean_append (clean_append (clean_byte _) (clean_small (by decide))) (clean_byte _)) (clean_byte _))
    (clean_byte _)) (clean_byte _)

theorem clean_dec {s : List Nat} {n : Nat} (h : StrSpec.Dec s n) : Clean s := by
  induction h with
  | nil => exact clean_small (by simp)
  | snoc _ hd ih =>
    refine clean_append ih (clean_small ?_)
    intro x hx
    rw [List.mem_singleton] at hx
    omega

theorem clean_text {c : Nat} (h : c < 256) (unicaps : Bool) : Clean ((if unicaps then P8scii.caps else P8scii.text) c) := by
  have h1 : ∀ c < 256, ∀ x ∈ P8scii.text c, x < 0x110000 ∧ ¬ (0xd800 ≤ x ∧ x < 0xe000) := by decide +kernel
  have h2 : ∀ c < 256, ∀ x ∈ P8scii.caps c, x < 0x110000 ∧ ¬ (0xd800 ≤ x ∧ x < 0xe000) := by decide +kernel
  cases unicaps
  · exact h1 c h
  · exact h2 c h

theorem clean_part {name : String} (hn : ∀ x ∈ P8Format.chars ("__" ++ name ++ "__"), x < 0x80) (n : Nat) {row : Nat → List Nat} (h : ∀ y, Clean (row y)) :
    ∀ l ∈ P8Format.part name n row, Clean l := by
  intro l hl
  unfold P8Format.part at hl
  split at hl
  · cases hl
  · rcases List.mem_cons.1 hl with rfl | hl
    · exact clean_small hn
    · obtain ⟨y, -, rfl⟩ := List.mem_map.1 hl
      exact h y

theorem lines_append {a b : List (List Nat)} (ha : ∀ l ∈ a, Clean l) (hb : ∀ l ∈ b, Clean l) : ∀ l ∈ a ++ b, Clean l := by
  intro l hl
  rcases List.mem_append.1 hl with h | h
  · exact ha l h
  · exact hb l h

theorem lines_if {p : Prop} [Decidable p] {a : List (List Nat)} (ha : ∀ l ∈ a, Clean l) : ∀ l ∈ (if p then a else []), Clean l := by
  split
  · exact ha
  · simp

/-- The metadata is Unicode text. -/
def MetaClean (c : SCart) : Prop := ∀ m ∈ c.metas, Clean m.1 ∧ ∀ l ∈ m.2, Clean l

/-- **C82 (text).** Every cart that can be saved is saved as Unicode text: a file always exists, and only one. -/
theorem C82_file {c : SCart} (h : SourceOk c) (hm : MetaClean c) (unicaps : Bool) (inc : List Nat → Bool) :
    ∃ text bs, writeSource unicaps inc c = some text ∧ (∀ x ∈ text, Scalar x) ∧ writeText text = some bs ∧ Text text bs := by
  obtain ⟨gfx, map, gff, sfx, music, H⟩ := C13_layout h unicaps inc
  obtain ⟨-, -, -, -, -, version, -, hv, e⟩ := H _ rfl
  have hc : Clean (P8Format.file (
        [P8Format.chars "pico-8 cartridge // http://www.pico-8.com", P8Format.chars "version " ++ version] ++
        (if inc (P8Format.chars "lua") then
          [P8Format.chars "__lua__", c.code.flatMap (if unicaps then P8scii.caps else P8scii.text)] else []) ++
        (if inc (P8Format.chars "gfx") then P8Format.part "gfx" gfx (P8Format.gfxRow fun a => c.rom.getD a 0) else []) ++
        (if inc (P8Format.chars "map") then P8Format.part "map" map (P8Format.mapRow fun a => c.rom.getD a 0) else []) ++
        (if inc (P8Format.chars "gff") then P8Format.part "gff" gff (P8Format.gffRow fun a => c.rom.getD a 0) else []) ++
        (if inc (P8Format.chars "sfx") then P8Format.part "sfx" sfx (P8Format.sfxRow fun a => c.rom.getD a 0) else []) ++
        (if inc (P8Format.chars "music") then P8Format.part "music" music (P8Format.musicRow fun a => c.rom.getD a 0) else []) ++
        (if inc (P8Format.chars "label") ∧ ∃ l, c.label = some l ∧ ∃ b ∈ l, b ≠ 0 then
          P8Format.part "label" 128 (P8Format.labelRow fun a => (c.label.getD []).getD a 0) else []) ++
        (c.metas.filter fun x => inc (P8Format.chars "meta:" ++ x.1)).flatMap fun x =>
          (P8Format.chars "__meta:" ++ x.1 ++ P8Format.chars "__") :: x.2)) := by
    refine clean_flatMap fun l hl => clean_append ?_ (clean_small (by decide))
    revert l
    refine lines_append (lines_append (lines_append (lines_append (lines_append (lines_append (lines_append (lines_append ?_ ?_) ?_) ?_) ?_) ?_) ?_) ?_) ?_
    · intro l hl
      simp only [List.mem_cons, List.not_mem_nil, or_false] at hl
      rcases hl with rfl | rfl
      · exact clean_small (by decide)
      · exact clean_append (clean_small (by decide)) (clean_dec hv)
    · apply lines_if
      intro l hl
      simp only [List.mem_cons, List.not_mem_nil, or_false] at hl
      rcases hl with rfl | rfl
      · exact clean_small (by decide)
      · exact clean_flatMap fun x hx => clean_text (h.chars x hx) unicaps
    · exact lines_if (clean_part (by decide) _ fun _ => clean_map_digit)
    · exact lines_if (clean_part (by decide) _ fun _ => clean_flatMap fun _ _ => clean_byte _)
    · exact lines_if (clean_part (by decide) _ fun _ => clean_flatMap fun _ _ => clean_byte _)
    · exact lines_if (clean_part (by decide) _ fun _ => clean_sfx _ _)
    · exact lines_if (clean_part (by decide) _ fun _ => clean_music _ _)
    · exact lines_if (clean_part (by decide) _ fun _ => clean_map_digit)
    · intro l hl
      obtain ⟨m, hx, hl⟩ := List.mem_flatMap.1 hl
      obtain ⟨h1, h2⟩ := hm m ((List.mem_filter.1 hx).1)
      rcases List.mem_cons.1 hl with rfl | hl
      · exact clean_append (clean_append (clean_small (by decide)) h1) (clean_small (by decide))
      · exact h2 l hl
  obtain ⟨bs, t1, t2, -⟩ := LuaStr.C60_text hc
  exact ⟨_, bs, e, hc, (C82_written (fun x hx => (hc x hx).1) bs).2 t1, t1⟩

/-- A cart with special characters and metadata. -/
example : SourceOk sampleCart ∧ MetaClean sampleCart := by
  refine ⟨sampleCart_ok, ?_⟩
  have h : ∀ m ∈ sampleCart.metas, (∀ x ∈ m.1, x < 0x80) ∧ ∀ l ∈ m.2, ∀ x ∈ l, x < 0x80 := by decide
  exact fun m hm => ⟨clean_small (h m hm).1, fun l hl => clean_small ((h m hm).2 l hl)⟩

end Verif.Auto
