import Verif.Merge
import Verif.Props.Mem
/-! C48: merging sections of another cart. -/
namespace Verif

/-- The bytes of the ROM a section names. -/
def Sect.Holds : Sect → Nat → Prop
  | .gfx, k => k < 0x2000
  | .map, k => 0x2000 ≤ k ∧ k < 0x3000
  | .gff, k => 0x3000 ≤ k ∧ k < 0x3100
  | .music, k => 0x3100 ≤ k ∧ k < 0x3200
  | .sfx, k => 0x3200 ≤ k ∧ k < 0x4300
  | _, _ => False

/-- The sections that can be merged at all. -/
def Sect.Known : Sect → Prop
  | .metaKey _ | .other => False
  | _ => True

theorem copyfrom8_get {d s : List Nat} {a n : Nat} (hd : d.length = 0x4300) (hs : s.length = 0x4300) (h : a + n ≤ 0x4300) :
    (copyfrom8 d a n s).length = 0x4300 ∧ ∀ k, (copyfrom8 d a n s)[k]? = if a ≤ k ∧ k < a + n then s[k]? else d[k]? := by
  have hne : s.isEmpty = false := by cases s with
    | nil => rw [List.length_nil] at hs; omega
    | cons => rfl
  have := C12_copy8 d s a a n (by omega) (by rw [hne]; simp only [Bool.false_eq_true, if_false]; omega)
  unfold copyfrom8
  refine ⟨by rw [this.1, hd], fun k => ?_⟩
  have h2 := this.2 k
  unfold get8 at h2
  rw [h2, hne]
  by_cases hk : a ≤ k ∧ k < a + n
  · rw [if_pos hk, if_pos hk]; simp only [Bool.false_eq_true, if_false]; congr 1; omega
  · rw [if_neg hk, if_neg hk]

theorem mergeOne_spec {d s : MCart} (hd : d.rom.length = 0x4300) (hs : s.rom.length = 0x4300) {x : Sect} {c : MCart}
    (h : mergeOne d s x = some c) : c.rom.length = 0x4300 ∧
    (∀ k, (x.Holds k → c.rom[k]? = s.rom[k]?) ∧ (¬ x.Holds k → c.rom[k]? = d.rom[k]?)) ∧
    (x = .lua → c.code = s.code ∧ c.codeMap = s.codeMap ∧ c.codeRom = s.codeRom) ∧
    (x ≠ .lua → c.code = d.code ∧ c.codeMap = d.codeMap ∧ c.codeRom = d.codeRom) ∧
    (x = .label → c.label = s.label) ∧ (x ≠ .label → c.label = d.label) ∧ c.metaData = d.metaData := by
  cases x <;> simp only [mergeOne, Option.some.injEq, reduceCtorEq] at h <;> subst h
  case lua => exact ⟨hd, fun k => ⟨fun h => h.elim, fun _ => rfl⟩, by simp, by simp, by simp, by simp, rfl⟩
  case label => exact ⟨hd, fun k => ⟨fun h => h.elim, fun _ => rfl⟩, by simp, by simp, by simp, by simp, rfl⟩
  all_goals
    refine ⟨(copyfrom8_get hd hs (by omega)).1, fun k => ?_, by simp, by simp, by simp, by simp, rfl⟩
    rw [(copyfrom8_get hd hs (by omega)).2 k]
    simp only [Sect.Holds]
    constructor <;> intro hk
    · rw [if_pos (by omega)]
    · rw [if_neg (by omega)]

/-- **C48.** Merging any list of the sections `lua`, `gfx`, `map`, `gff`, `music`, `sfx` and `label` succeeds; every byte of the ROM then
comes from the source exactly if a listed section holds it, and is otherwise the destination's; the code with its map and its kept
compressed form is the source's exactly if `lua` is listed, the label exactly if `label` is; the metadata stay. -/
theorem C48_merge {d s : MCart} (hd : d.rom.length = 0x4300) (hs : s.rom.length = 0x4300) {xs : List Sect}
    (hx : ∀ x ∈ xs, x.Known) : ∃ c, mergeCart d s xs = some c ∧ c.rom.length = 0x4300 ∧
    (∀ k, ((∃ x ∈ xs, x.Holds k) → c.rom[k]? = s.rom[k]?) ∧ ((∀ x ∈ xs, ¬ x.Holds k) → c.rom[k]? = d.rom[k]?)) ∧
    (.lua ∈ xs → c.code = s.code ∧ c.codeMap = s.codeMap ∧ c.codeRom = s.codeRom) ∧
    (.lua ∉ xs → c.code = d.code ∧ c.codeMap = d.codeMap ∧ c.codeRom = d.codeRom) ∧
    (.label ∈ xs → c.label = s.label) ∧ (.label ∉ xs → c.label = d.label) ∧ c.metaData = d.metaData := by
  induction xs generalizing d with
  | nil => exact ⟨d, rfl, hd, by simp, by simp, by simp, by simp, by simp, rfl⟩
  | cons x xs ih =>
    have h1 : ∃ c, mergeOne d s x = some c := by
      have := hx x (by simp)
      cases x <;> simp only [Sect.Known] at this <;> exact ⟨_, rfl⟩
    obtain ⟨c, hc⟩ := h1
    obtain ⟨a1, a2, a3, a4, a5, a6, a7⟩ := mergeOne_spec hd hs hc
    obtain ⟨e, b0, b1, b2, b3, b4, b5, b6, b7⟩ := ih a1 (fun x h => hx x (List.mem_cons_of_mem _ h))
    refine ⟨e, by rw [mergeCart, hc]; exact b0, b1, ?_, ?_, ?_, ?_, ?_, by rw [b7, a7]⟩
    · intro k
      constructor
      · rintro ⟨y, hy, hk⟩
        by_cases hr : ∃ x ∈ xs, x.Holds k
        · exact (b2 k).1 hr
        · have hr' : ∀ x ∈ xs, ¬ x.Holds k := fun x hx hh => hr ⟨x, hx, hh⟩
          rw [(b2 k).2 hr']
          rcases List.mem_cons.mp hy with rfl | hy
          · exact (a2 k).1 hk
          · exact absurd hk (hr' y hy)
      · intro hk
        rw [(b2 k).2 fun x hx => hk x (List.mem_cons_of_mem _ hx), (a2 k).2 (hk x (by simp))]
    · intro hm
      by_cases hl : .lua ∈ xs
      · exact b3 hl
      · have : x = .lua := (List.mem_cons.mp hm).elim Eq.symm (fun h => absurd h hl)
        have g := a3 this; have f := b4 hl
        exact ⟨f.1.trans g.1, f.2.1.trans g.2.1, f.2.2.trans g.2.2⟩
    · intro hm
      simp only [List.mem_cons, not_or] at hm
      have g := a4 (Ne.symm hm.1); have f := b4 hm.2
      exact ⟨f.1.trans g.1, f.2.1.trans g.2.1, f.2.2.trans g.2.2⟩
    · intro hm
      by_cases hl : .label ∈ xs
      · exact b5 hl
      · have : x = .label := (List.mem_cons.mp hm).elim Eq.symm (fun h => absurd h hl)
        rw [b6 hl, a5 this]
    · intro hm
      simp only [List.mem_cons, not_or] at hm
      rw [b6 hm.2, a6 (Ne.symm hm.1)]

/-- **C48 (all sections).** Listing all the data sections takes over the whole ROM. -/
theorem C48_all {d s c : MCart} (hd : d.rom.length = 0x4300) (hs : s.rom.length = 0x4300)
    (h : mergeCart d s [.gfx, .map, .gff, .music, .sfx] = some c) : c.rom = s.rom := by
  obtain ⟨c', h0, h1, h2, _⟩ := C48_merge (xs := [.gfx, .map, .gff, .music, .sfx]) hd hs (by simp [Sect.Known])
  rw [h] at h0
  simp only [Option.some.injEq] at h0; subst h0
  apply List.ext_getElem?
  intro k
  by_cases hk : k < 0x4300
  · apply (h2 k).1
    simp only [List.mem_cons, List.not_mem_nil, or_false, exists_eq_or_imp, exists_eq_left, Sect.Holds]
    omega
  · rw [List.getElem?_eq_none (by omega), List.getElem?_eq_none (by omega)]

/-- **C48 (errors).** A section of any other name is an error, whatever stands around it. -/
theorem C48_unknown {d s : MCart} {xs : List Sect} (h : .other ∈ xs) : mergeCart d s xs = none := by
  induction xs generalizing d with
  | nil => simp at h
  | cons x xs ih =>
    rw [mergeCart]
    cases x
    case other => rfl
    case metaKey => rfl
    all_goals
      simp only [mergeOne, Option.bind_some]
      exact ih (by simpa using h)

/-- **C48 fails for metadata**: asking for a metadata section is always an error, although the source cart has it. -/
theorem C48_meta_counterexample {d s : MCart} {xs : List Sect} {name : List Nat} (h : .metaKey name ∈ xs) : mergeCart d s xs = none := by
  induction xs generalizing d with
  | nil => simp at h
  | cons x xs ih =>
    rw [mergeCart]
    cases x
    case other => rfl
    case metaKey => rfl
    all_goals
      simp only [mergeOne, Option.bind_some]
      exact ih (by simpa using h)

/-- Two carts that differ everywhere: merging `music` and `lua` takes exactly these. -/
example : ∃ d s c : MCart, d.rom.length = 0x4300 ∧ s.rom.length = 0x4300 ∧ mergeCart d s [.music, .lua] = some c ∧
    c.rom[0x30ff]? = some 1 ∧ c.rom[0x3100]? = some 2 ∧ c.rom[0x31ff]? = some 2 ∧ c.rom[0x3200]? = some 1 ∧ c.code = [2] ∧ c.label = some [1] := by
  refine ⟨⟨List.replicate 0x4300 1, [1], [], none, some [1], []⟩, ⟨List.replicate 0x4300 2, [2], [], none, none, []⟩, ?_⟩
  have hd : (List.replicate 0x4300 1).length = 0x4300 := List.length_replicate ..
  have hs : (List.replicate 0x4300 2).length = 0x4300 := List.length_replicate ..
  obtain ⟨c, h0, h1, h2, h3, h4, h5, h6, h7⟩ := C48_merge (d := ⟨List.replicate 0x4300 1, [1], [], none, some [1], []⟩)
    (s := ⟨List.replicate 0x4300 2, [2], [], none, none, []⟩) (xs := [.music, .lua]) hd hs (by simp [Sect.Known])
  refine ⟨c, hd, hs, h0, ?_, ?_, ?_, ?_, (h3 (by simp)).1, h6 (by simp)⟩
  · rw [(h2 _).2 (by simp [Sect.Holds])]; exact List.getElem?_replicate_of_lt (by omega)
  · rw [(h2 _).1 ⟨.music, by simp, by simp [Sect.Holds]⟩]; exact List.getElem?_replicate_of_lt (by omega)
  · rw [(h2 _).1 ⟨.music, by simp, by simp [Sect.Holds]⟩]; exact List.getElem?_replicate_of_lt (by omega)
  · rw [(h2 _).2 (by simp [Sect.Holds])]; exact List.getElem?_replicate_of_lt (by omega)

end Verif
