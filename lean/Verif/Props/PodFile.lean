import Verif.PodFileLemmas
/-
C39: editing PICO-8's pod files, and the carts inside a pod export.
-/
namespace Verif.PodFile

open Verif.PodFormat

/-- What a user sees of the file in memory. -/
def items (m : State) : List Shown := m.entries.map fun e => (e.name, e.content)

/-- The file in memory is what its bytes say: reading the bytes again gives the same entries at the same places, and nothing follows the
last entry. -/
def Valid (m : State) : Prop :=
  (∀ b ∈ m.data, b < 256) ∧ readAll m.data = some m ∧ m.data.length = (m.entries.getLast?).elim 76 (·.endPos)

/-- A content that can be stored: bytes, an image with all its pixels, a palette with all its colors. -/
def ContentOk : Content → Prop
  | .file data => ∀ b ∈ data, b < 256
  | .bmp w h bpp pixels => pixels.length = imageSize w h bpp ∧ ∀ b ∈ pixels, b < 256
  | .pal rgb => rgb.length = 768 ∧ ∀ b ∈ rgb, b < 256

/-- Files have names (without NUL), other entries have none. -/
def NameOk (name : Option Name) : Content → Prop
  | .file _ => ∀ n, name = some n → 0 ∉ n ∧ ∀ b ∈ n, b < 256
  | _ => name = none

/-- An index at which a palette is inserted as asked. -/
def IndexOk (i count : Nat) : Content → Prop
  | .pal _ => min i count = min 255 count
  | _ => True

def SameKind : Content → Content → Prop
  | .file _, .file _ | .bmp .., .bmp .. | .bmp .., .pal .. | .pal .., .bmp .. | .pal .., .pal .. => True
  | _, _ => False

/-- A change that makes sense for the entries there are. -/
def EditOk (l : List Shown) : Edit → Prop
  | .insert i name content _ => l.length + 1 < 2 ^ 32 ∧ ContentOk content ∧ NameOk name content ∧ IndexOk i l.length content
  | .delete _ => True
  | .replace i content => ContentOk content ∧ IndexOk i (l.length - 1) content ∧ ∀ x, l[i]? = some x → SameKind x.2 content
  | .rename _ name => 0 ∉ name ∧ ∀ b ∈ name, b < 256

/-- The sizes can be written down. -/
def ContentFits (compress : Bool) : Content → Prop
  | .file data => data.length < 2 ^ 32 ∧ (compress = true → ∀ c, Lz4.compress true data = some c → c.length < 2 ^ 32)
  | .bmp w h bpp data => (bpp = 8 ∨ bpp = 32) ∧ data.length + 20 < 2 ^ 32 ∧ w < 2 ^ 32 ∧ h < 2 ^ 32 ∧
      (compress = true → ∀ c, Lz4.compress true data = some c → c.length < 2 ^ 32)
  | .pal _ => compress = false

def NameFits (name : Option Name) : Content → Prop
  | .file _ => ∃ n, name = some n ∧ n.length ≤ 0x40
  | _ => True

def Fits (l : List Shown) : Edit → Prop
  | .insert _ name content compress => NameFits name content ∧ ContentFits compress content
  | .delete _ => True
  | .replace _ content => ContentFits false content
  | .rename i name => ∀ x, l[i]? = some x → (∃ d, x.2 = .file d) → name.length ≤ 0x40

/-! ### Lemmas -/

theorem valid_iff {m : State} : Valid m ↔ ∃ parts, Tiled m parts := by
  constructor
  · rintro ⟨h1, h2, h3⟩
    have hl : 76 ≤ m.data.length := by
      rw [h3]
      cases he : m.entries.getLast? with
      | none => exact Nat.le_refl _
      | some e =>
        -- the entry was read behind the header
        have hne : m.entries ≠ [] := by rintro h; rw [h] at he; simp at he
        have hlen : 76 ≤ m.data.length := by
          refine Decidable.byContradiction fun hlt => hne ?_
          have hlt : m.data.length < 76 := by omega
          unfold readAll at h2
          rw [Option.bind_eq_some_iff] at h2
          obtain ⟨⟨tag, r1⟩, k1, h2⟩ := h2
          obtain ⟨l1, e1⟩ := readBytes_iff.mp k1
          split at h2
          · simp at h2
          rw [Option.bind_eq_some_iff] at h2
          obtain ⟨⟨a, r2⟩, k2, h2⟩ := h2
          have hd1 : ∀ b ∈ r1, b < 256 := by rw [e1] at h1; exact bytes_right h1
          obtain ⟨-, e2⟩ := (rU32_iff hd1).mp k2
          split at h2
          · simp at h2
          rw [Option.bind_eq_some_iff] at h2
          obtain ⟨⟨b, r3⟩, k3, h2⟩ := h2
          have hd2 : ∀ b ∈ r2, b < 256 := by rw [e2] at hd1; exact bytes_right hd1
          obtain ⟨-, e3⟩ := (rU32_iff hd2).mp k3
          split at h2
          · simp at h2
          rw [Option.bind_eq_some_iff] at h2
          obtain ⟨⟨nm, r4⟩, k4, h2⟩ := h2
          have hd3 : ∀ b ∈ r3, b < 256 := by rw [e3] at hd2; exact bytes_right hd2
          obtain ⟨f, hf, e4⟩ := readZ_iff.mp k4
          try simp only at e4
          rw [Option.bind_eq_some_iff] at h2
          obtain ⟨⟨n, r5⟩, k5, h2⟩ := h2
          have hd4 : ∀ b ∈ r4, b < 256 := by rw [e4] at hd3; exact bytes_right hd3
          obtain ⟨-, e5⟩ := (rU32_iff hd4).mp k5
          try simp only at e5
          rw [Option.map_eq_some_iff] at h2
          obtain ⟨⟨es, tail⟩, k6, h2⟩ := h2
          have l5 : m.data.length = 48 + r5.length := by
            have hf1 := hf.1
            rw [e1, e2, e3, e4, e5]
            simp only [List.length_append, hf1, l1, le4, List.length_cons, List.length_nil]
            omega
          have hnil : r5.drop 28 = [] := List.drop_of_length_le (by omega)
          simp only at k6 h2
          rw [hnil] at k6
          rw [← h2]
          simp only
          cases n with
          | zero => simp only [readEntries, Option.some.injEq, Prod.mk.injEq] at k6; exact k6.1.symm
          | succ n => simp [readEntries, readEntry, readBytes] at k6
        rw [he] at h3
        rw [← h3]; exact hlen
    obtain ⟨-, parts, tail, hp, he⟩ := (readAll_iff h1 hl).mp h2
    refine ⟨parts, h1, ?_, he⟩
    obtain ⟨k1, k2, field, junk, k3, k4, k5⟩ := isPod_iff.mp hp
    have : tail = [] := by
      rw [he, place_last, k5] at h3
      simp only [List.length_append, head_length k3 k4, sizeOf] at h3
      exact List.length_eq_zero_iff.mp (by omega)
    rw [← this]; exact hp
  · rintro ⟨parts, h⟩
    exact ⟨h.1, h.reads, by rw [h.2.2, place_last, h.length]⟩

theorem writeZ_field {k : Nat} {v f : List Nat} (h0 : 0 ∉ v) (h : writeZ v (some k) 1 = some f) :
    Field k v f ∧ ((∀ b ∈ v, b < 256) → ∀ b ∈ f, b < 256) := by
  unfold writeZ at h
  rw [if_neg (by omega)] at h
  simp only [Nat.mul_one, Nat.div_one] at h
  split at h
  · simp at h
  · rename_i hl
    simp only [Option.some.injEq] at h
    subst h
    refine ⟨⟨by simp; omega, h0, _, rfl, ?_⟩, ?_⟩
    · cases k - v.length with
      | zero => exact Or.inl rfl
      | succ n => exact Or.inr rfl
    · intro hv
      exact bytes_append hv (by intro x hx; rw [List.mem_replicate] at hx; omega)

theorem writeZ_some {k : Nat} {v : List Nat} : (writeZ v (some k) 1).isSome ↔ v.length ≤ k := by
  unfold writeZ
  rw [if_neg (by omega)]
  simp only [Nat.mul_one]
  split <;> simp <;> omega

theorem payload_spec {compress : Bool} {data p : List Nat} (hd : ∀ b ∈ data, b < 256) (h : writePayload compress data = some p)
    {size : Nat} (hs : compress = false → data.length = size) : Payload compress size data p ∧ ∀ b ∈ p, b < 256 := by
  unfold writePayload at h
  cases compress with
  | false =>
    simp only [Bool.false_eq_true, if_false, Option.some.injEq] at h
    subst h
    exact ⟨.plain (hs rfl), hd⟩
  | true =>
    simp only [if_true] at h
    obtain ⟨c, h1, h2, h3⟩ := Lz4.C33_writer true hd
    rw [h1, Option.bind_some, wU32_eq] at h
    split at h
    · rename_i hl
      simp only [Option.map_some, Option.some.injEq] at h
      subst h
      exact ⟨.packed size hl ((Lz4.C33_reader h3 data).mp (Lz4.C33_reads_blocks h2 hd)), bytes_append (le4_bytes _) h3⟩
    · simp at h

theorem payload_some {compress : Bool} {data : List Nat} (hd : ∀ b ∈ data, b < 256) :
    (writePayload compress data).isSome ↔ (compress = true → ∀ c, Lz4.compress true data = some c → c.length < 2 ^ 32) := by
  unfold writePayload
  cases compress with
  | false => simp
  | true =>
    obtain ⟨c, h1, -, -⟩ := Lz4.C33_writer true hd
    simp only [if_true, h1, Option.bind_some, wU32_eq, Option.some.injEq, forall_eq', true_implies]
    split <;> simp <;> omega

theorem lit_bytes (s : String) (h : (lit s).all (· < 256) = true) : ∀ b ∈ lit s, b < 256 := by
  simpa [List.all_eq_true] using h

theorem entryBytes_spec {name : Option Name} {content : Content} {compress : Bool} {tag bytes : List Nat} (hc : ContentOk content)
    (hn : NameOk name content) (h : entryBytes name content compress = some (tag, bytes)) :
    IsEntry tag name content bytes ∧ ∀ b ∈ bytes, b < 256 := by
  cases content with
  | file data =>
    unfold entryBytes at h
    simp only [wU32_eq] at h
    rw [if_pos (by omega), Option.bind_some, Option.bind_eq_some_iff] at h
    obtain ⟨n, h1, h⟩ := h
    split at h1
    · rename_i hl
      simp only [Option.some.injEq] at h1
      subst h1
      rw [Option.bind_eq_some_iff] at h
      obtain ⟨nm, rfl, h⟩ := h
      obtain ⟨n0, nb⟩ := hn nm rfl
      rw [Option.bind_eq_some_iff] at h
      obtain ⟨f, h2, h⟩ := h
      rw [Option.map_eq_some_iff] at h
      obtain ⟨p, h3, h⟩ := h
      simp only [Prod.mk.injEq] at h
      obtain ⟨rfl, rfl⟩ := h
      obtain ⟨f1, f2⟩ := writeZ_field n0 h2
      obtain ⟨p1, p2⟩ := payload_spec hc h3 (size := data.length) fun _ => rfl
      refine ⟨.file compress _ hl f1 p1, bytes_append (by cases compress <;> decide) (bytes_append (le4_bytes _)
        (bytes_append (le4_bytes _) (bytes_append (f2 nb) p2)))⟩
    · simp at h1
  | bmp w ht bpp data =>
    obtain ⟨hc1, hc2⟩ := hc
    have hn' : name = none := hn
    subst hn'
    unfold entryBytes at h
    simp only [wU32_eq] at h
    split at h
    · simp at h
    rename_i hb
    simp only [Decidable.not_not] at hb
    rw [Option.bind_eq_some_iff] at h
    obtain ⟨n, h1, h⟩ := h
    split at h1
    · rename_i hl
      simp only [Option.some.injEq] at h1
      subst h1
      rw [Option.bind_eq_some_iff] at h
      obtain ⟨w', h2, h⟩ := h
      split at h2
      · rename_i hw
        simp only [Option.some.injEq] at h2
        subst h2
        rw [Option.bind_eq_some_iff] at h
        obtain ⟨ht', h3, h⟩ := h
        split at h3
        · rename_i hh
          simp only [Option.some.injEq] at h3
          subst h3
          rw [if_pos (by omega), Option.bind_some, if_pos (by omega), Option.bind_some, Option.map_eq_some_iff] at h
          obtain ⟨p, h4, h⟩ := h
          simp only [Prod.mk.injEq] at h
          obtain ⟨rfl, rfl⟩ := h
          obtain ⟨p1, p2⟩ := payload_spec hc2 h4 (size := data.length + 0x14 - 20) fun _ => by omega
          refine ⟨?_, bytes_append (by cases compress <;> decide) (bytes_append (le4_bytes _)
            (bytes_append (le4_bytes _) (bytes_append (le4_bytes _) (bytes_append (le4_bytes _) (bytes_append (le4_bytes _)
              (bytes_append (le4_bytes _) p2))))))⟩
          have := IsEntry.bmp compress _ w ht bpp hl (Or.inr (by omega)) hw hh hb (by omega) p1
          rw [List.take_of_length_le (by omega)] at this
          exact this
        · simp at h3
      · simp at h2
    · simp at h1
  | pal rgb =>
    obtain ⟨hc1, hc2⟩ := hc
    have hn' : name = none := hn
    subst hn'
    unfold entryBytes at h
    simp only [wU32_eq] at h
    split at h
    · simp at h
    rw [if_pos (by omega), Option.map_some, Option.some.injEq, Prod.mk.injEq] at h
    obtain ⟨rfl, rfl⟩ := h
    exact ⟨.pal hc1, bytes_append (by decide) (bytes_append (le4_bytes _) hc2)⟩

theorem entryBytes_some {name : Option Name} {content : Content} {compress : Bool} (hc : ContentOk content) :
    (entryBytes name content compress).isSome ↔ NameFits name content ∧ ContentFits compress content := by
  cases content with
  | file data =>
    unfold entryBytes NameFits ContentFits
    have hp := payload_some (compress := compress) hc
    simp only [wU32_eq]
    rw [if_pos (by omega), Option.bind_some, ← hp]
    by_cases hl : data.length < 2 ^ 32
    · rw [if_pos hl, Option.bind_some]
      cases name with
      | none => simp
      | some n =>
        have hz := writeZ_some (k := 0x40) (v := n)
        simp only [Option.bind_some, Option.some.injEq, exists_eq_left', hl, true_and]
        rw [← hz]
        cases writeZ n (some 0x40) 1 <;> simp
    · rw [if_neg hl]; simp [hl]
  | bmp w ht bpp data =>
    unfold entryBytes NameFits ContentFits
    have hp := payload_some (compress := compress) hc.2
    simp only [wU32_eq, true_and]
    rw [← hp]
    by_cases hb : bpp = 8 ∨ bpp = 32
    · rw [if_neg (fun h => h hb)]
      by_cases hl : data.length + 20 < 2 ^ 32
      · rw [if_pos hl, Option.bind_some]
        by_cases hw : w < 2 ^ 32
        · rw [if_pos hw, Option.bind_some]
          by_cases hh : ht < 2 ^ 32
          · rw [if_pos hh, Option.bind_some, if_pos (by omega), Option.bind_some, if_pos (by omega), Option.bind_some]
            simp [hb, hl, hw, hh]
          · rw [if_neg hh]; simp [hh]
        · rw [if_neg hw]; simp [hw]
      · rw [if_neg hl]
        simp [hl]
    · rw [if_pos hb]; simp [hb]
  | pal rgb =>
    unfold entryBytes NameFits ContentFits
    simp only [wU32_eq, true_and]
    cases compress with
    | true => simp
    | false => simp

theorem items_eq {m : State} {parts : List Part} (h : Tiled m parts) : items m = parts.map fun p => (p.name, p.content) := by
  rw [items, h.2.2, place_items]

theorem parts_at {m : State} {parts : List Part} (h : Tiled m parts) {i : Nat} :
    (i < parts.length → ∃ a p b, parts = a ++ p :: b ∧ a.length = i) ∧ (¬ i < parts.length → m.entries[i]? = none) := by
  constructor
  · intro hi
    exact ⟨parts.take i, parts[i], parts.drop (i + 1), by simp, by simp; omega⟩
  · intro hi
    rw [List.getElem?_eq_none_iff, h.2.2, place_length]; omega

/-- What inserting does, in one piece. -/
theorem insert_spec {m : State} {parts : List Part} (h : Tiled m parts) {i : Nat} {name : Option Name} {content : Content} {compress : Bool}
    (hcount : parts.length + 1 < 2 ^ 32) (hc : ContentOk content) (hn : NameOk name content) (hi : IndexOk i parts.length content) :
    ((insertContent m i name content compress).isSome ↔ NameFits name content ∧ ContentFits compress content) ∧
    ∀ m', insertContent m i name content compress = some m' →
      ∃ p : Part, p.name = name ∧ p.content = content ∧ Tiled m' (parts.take i ++ p :: parts.drop i) := by
  have hlate : min (laterIndex i content) parts.length = min i parts.length := by
    cases content with
    | pal rgb => exact Eq.symm hi
    | _ => rfl
  cases he : entryBytes name content compress with
  | none =>
    have hnone : insertContent m i name content compress = none := by
      unfold insertContent; simp only; rw [he]; rfl
    rw [hnone, ← entryBytes_some hc, he]
    simp
  | some x =>
    obtain ⟨tag, bytes⟩ := x
    obtain ⟨e1, e2⟩ := entryBytes_spec hc hn he
    have hsplit : parts.take i ++ parts.drop i = parts := List.take_append_drop i parts
    obtain ⟨m', k1, k2⟩ := insert_tiled (m := m) (a := parts.take i) (b := parts.drop i) (i := i) (by rw [hsplit]; exact h)
      (by rw [hsplit, List.length_take]) (by rw [hsplit]; exact hcount) (by rw [hsplit]; exact hlate) he e2 e1
    refine ⟨?_, ?_⟩
    · rw [k1, ← entryBytes_some hc, he]; simp
    · intro m'' hm
      rw [k1] at hm
      rw [← Option.some.inj hm]
      exact ⟨_, rfl, rfl, k2⟩

theorem isEntry_name {tag : List Nat} {name : Option Name} {c : Content} {b : List Nat} (h : IsEntry tag name c b) :
    (∀ d, c = .file d → ∃ nm, name = some nm ∧ nm.length ≤ 0x40 ∧ 0 ∉ nm ∧ ∀ x ∈ nm, x ∈ b) ∧ ((∀ d, c ≠ .file d) → name = none) := by
  cases h with
  | @file packed size nm f d bytes h1 h2 h3 =>
    refine ⟨?_, fun hd => absurd rfl (hd d)⟩
    intro d' _
    obtain ⟨k1, k2, rest, k3, -⟩ := h2
    refine ⟨nm, rfl, ?_, k2, ?_⟩
    · rw [k3, List.length_append] at k1; omega
    · intro x hx; rw [k3]; simp [hx]
  | bmp => exact ⟨fun d hd => by simp at hd, fun _ => rfl⟩
  | pal => exact ⟨fun d hd => by simp at hd, fun _ => rfl⟩

theorem part_bytes {m : State} {parts : List Part} (h : Tiled m parts) {p : Part} (hp : p ∈ parts) : ∀ b ∈ p.bytes, b < 256 := by
  obtain ⟨h1, h2, -⟩ := h
  obtain ⟨-, -, field, junk, -, -, e⟩ := isPod_iff.mp h2
  intro b hb
  refine h1 b ?_
  rw [e]
  simp only [List.mem_append, List.mem_flatMap]
  exact Or.inr (Or.inl ⟨p, hp, hb⟩)

theorem replace_spec {m : State} {a b : List Part} {p : Part} (h : Tiled m (a ++ p :: b)) {content : Content} (hc : ContentOk content)
    (hi : IndexOk a.length (a ++ b).length content) (hk : SameKind p.content content) :
    ((replaceContent m a.length content).isSome ↔ ContentFits false content) ∧
    ∀ m', replaceContent m a.length content = some m' →
      ∃ q : Part, q.name = p.name ∧ q.content = content ∧ Tiled m' (a ++ q :: b) := by
  have hentry : IsEntry p.tag p.name p.content p.bytes := by
    obtain ⟨-, h2, -⟩ := h
    exact h2.2.1 p (by simp)
  have hget := get_place a p b
  rw [← h.2.2] at hget
  have hname := isEntry_name hentry
  have hb := part_bytes h (p := p) (by simp)
  have hnameok : NameOk p.name content ∧ NameFits p.name content := by
    cases content with
    | file d =>
      cases hpc : p.content with
      | file d' =>
        obtain ⟨nm, e, l, z, sub⟩ := hname.1 d' hpc
        refine ⟨?_, nm, e, l⟩
        intro n hn
        rw [e] at hn
        obtain rfl := Option.some.inj hn
        exact ⟨z, fun x hx => hb x (sub x hx)⟩
      | bmp => rw [hpc] at hk; exact absurd hk (by simp [SameKind])
      | pal => rw [hpc] at hk; exact absurd hk (by simp [SameKind])
    | bmp =>
      refine ⟨hname.2 fun d hd => ?_, trivial⟩
      rw [hd] at hk; exact absurd hk (by simp [SameKind])
    | pal =>
      refine ⟨hname.2 fun d hd => ?_, trivial⟩
      rw [hd] at hk; exact absurd hk (by simp [SameKind])
  have slow : (((deleteContent m a.length).bind fun m => insertContent m a.length p.name content false).isSome ↔ ContentFits false content) ∧
      ∀ m', ((deleteContent m a.length).bind fun m => insertContent m a.length p.name content false) = some m' →
        ∃ q : Part, q.name = p.name ∧ q.content = content ∧ Tiled m' (a ++ q :: b) := by
    obtain ⟨m1, k1, k2⟩ := delete_tiled h
    rw [k1, Option.bind_some]
    have hcount : (a ++ b).length + 1 < 2 ^ 32 := by
      have := h.2.1.1
      simp only [List.length_append, List.length_cons] at this ⊢
      omega
    obtain ⟨s1, s2⟩ := insert_spec k2 (compress := false) hcount hc hnameok.1 hi
    refine ⟨s1.trans ⟨fun h => h.2, fun h => ⟨hnameok.2, h⟩⟩, fun m' hm' => ?_⟩
    obtain ⟨q, q1, q2, q3⟩ := s2 m' hm'
    rw [List.take_left' rfl, List.drop_left' rfl] at q3
    exact ⟨q, q1, q2, q3⟩
  unfold replaceContent
  rw [hget, Option.bind_some]
  cases content with
  | file new =>
    simp only
    split
    · rename_i hfast
      obtain ⟨ht, hsize⟩ := hfast
      -- the entry is a file that is not compressed, of the same size
      cases hpe : p.content with
      | bmp => rw [hpe] at hsize; simp [fileSize] at hsize
      | pal => rw [hpe] at hsize; simp [fileSize] at hsize
      | file old =>
        rw [hpe] at hsize
        simp only [fileSize, Option.some.injEq] at hsize
        have hform : ∃ nm f, p.name = some nm ∧ old.length < 2 ^ 32 ∧ Field 0x40 nm f ∧
            p.bytes = (lit "CFIL" ++ (le4 0 ++ (le4 old.length ++ f))) ++ (old ++ []) := by
          obtain ⟨pb, pt, pn, pc⟩ := p
          simp only at hentry ht hpe ⊢
          subst hpe ht
          clear hget hname hb hnameok slow h hk
          generalize htag : lit "CFIL" = tag at hentry
          cases hentry with
          | @file packed size nm f d bytes h1 h2 h3 =>
            cases packed with
            | true => exact absurd htag (by decide)
            | false =>
              cases h3 with
              | plain hsz =>
                subst hsz
                exact ⟨nm, f, rfl, h1, h2, by simp⟩
        obtain ⟨nm, f, e1, e2, e3, e4⟩ := hform
        have hl : (lit "CFIL" ++ (le4 0 ++ (le4 old.length ++ f))).length = 0x4c := by
          have := e3.1
          simp only [List.length_append, this]
          rfl
        have hnew : IsEntry p.tag p.name (.file new) ((lit "CFIL" ++ (le4 0 ++ (le4 old.length ++ f))) ++ (new ++ [])) := by
          have := IsEntry.file false old.length e2 e3 (.plain hsize.symm : Payload false old.length new new)
          rw [e1]
          rw [ht]
          simpa using this
        have hfin := overwrite_tiled h _ new [] e4 hsize hc p.name (.file new) hnew
        rw [hl] at hfin
        refine ⟨⟨fun _ => ⟨by omega, by simp⟩, fun _ => rfl⟩, ?_⟩
        intro m' hm'
        rw [← Option.some.inj hm']
        exact ⟨⟨_, p.tag, p.name, .file new⟩, rfl, rfl, hfin⟩
    · exact slow
  | bmp w ht bpp px => exact slow
  | pal rgb => exact slow

theorem rename_spec {m : State} {a b : List Part} {p : Part} (h : Tiled m (a ++ p :: b)) {name : Name} (hn : 0 ∉ name ∧ ∀ b ∈ name, b < 256) :
    ((renameContent m a.length name).isSome ↔ ((∃ d, p.content = .file d) → name.length ≤ 0x40)) ∧
    ∀ m', renameContent m a.length name = some m' →
      ∃ q : Part, (q.name, q.content) = renamed name (p.name, p.content) ∧ Tiled m' (a ++ q :: b) := by
  have hentry : IsEntry p.tag p.name p.content p.bytes := by
    obtain ⟨-, h2, -⟩ := h
    exact h2.2.1 p (by simp)
  have hget := get_place a p b
  rw [← h.2.2] at hget
  unfold renameContent
  rw [hget, Option.bind_some]
  simp only
  cases hpe : p.content with
  | bmp w ht bpp px =>
    simp only [fileSize, reduceCtorEq, exists_false, false_implies, Option.isSome_some, true_and, Option.some.injEq]
    rintro m' rfl
    exact ⟨p, by rw [hpe]; rfl, h⟩
  | pal rgb =>
    simp only [fileSize, reduceCtorEq, exists_false, false_implies, Option.isSome_some, true_and, Option.some.injEq]
    rintro m' rfl
    exact ⟨p, by rw [hpe]; rfl, h⟩
  | file data =>
    simp only [fileSize, Content.file.injEq, exists_eq', forall_const, Option.isSome_map]
    refine ⟨writeZ_some, ?_⟩
    intro m' hm'
    rw [Option.map_eq_some_iff] at hm'
    obtain ⟨f', h1, rfl⟩ := hm'
    obtain ⟨hf1, hf2⟩ := writeZ_field hn.1 h1
    have hform : ∃ hd old suf, p.bytes = hd ++ (old ++ suf) ∧ hd.length = 0xc ∧ old.length = 0x40 ∧
        ∀ nm f, Field 0x40 nm f → IsEntry p.tag (some nm) p.content (hd ++ (f ++ suf)) := by
      obtain ⟨pb, pt, pn, pc⟩ := p
      simp only at hentry hpe ⊢
      clear hget h
      cases hentry with
      | @file packed size nm f d bytes h1 h2 h3 =>
        refine ⟨lit (if packed then "cFIL" else "CFIL") ++ (le4 0 ++ le4 size), f, bytes, by simp, by cases packed <;> rfl, h2.1, ?_⟩
        intro nm' f' hf'
        have := IsEntry.file packed size h1 hf' h3
        simpa using this
      | bmp => simp at hpe
      | pal => simp at hpe
    obtain ⟨hd, old, suf, e1, e2, e3, e4⟩ := hform
    have hnew := e4 name f' hf1
    have hfin := overwrite_tiled h hd f' suf e1 (by rw [e3, hf1.1]) (hf2 hn.2) (some name) p.content hnew
    rw [e2, hpe] at hfin
    exact ⟨_, rfl, hfin⟩

/-! ### The theorems -/

/-- **C39.** Reading accepts exactly the pod files: the bytes consist of a header, the given number of entries, and possibly more
bytes; each entry in memory has the name and content that the format gives to its bytes, and is located there. -/
theorem C39_reader {data : List Nat} (hd : ∀ b ∈ data, b < 256) (hl : 76 ≤ data.length) {m : State} :
    readAll data = some m ↔ m.data = data ∧ ∃ parts tail, IsPod m.name parts tail data ∧ m.entries = place 76 parts :=
  readAll_iff hd hl

/-- **C39.** A change to a file that is what its bytes say is accepted exactly if it makes sense for the list of the entries and the sizes
can be written down; then the list is the changed list, and the file is again what its bytes say: reading them gives that list. -/
theorem C39_edit {m : State} (h : Valid m) {e : Edit} (he : EditOk (items m) e) :
    ((edit m e).isSome ↔ (apply (items m) e).isSome ∧ Fits (items m) e) ∧
    ∀ m', edit m e = some m' → Valid m' ∧ apply (items m) e = some (items m') := by
  obtain ⟨parts, ht⟩ := valid_iff.mp h
  have hit := items_eq ht
  have hlen : (items m).length = parts.length := by rw [hit, List.length_map]
  have hgetp : ∀ (a : List Part) (p : Part) (b : List Part), (List.map (fun p : Part => (p.name, p.content)) (a ++ p :: b))[a.length]? = some (p.name, p.content) := by
    intro a p b; simp
  cases e with
  | insert i name content compress =>
    obtain ⟨h1, h2, h3, h4⟩ := he
    rw [hlen] at h1 h4
    obtain ⟨s1, s2⟩ := insert_spec ht (compress := compress) h1 h2 h3 h4
    simp only [edit, apply, Option.isSome_some, true_and, Fits]
    refine ⟨s1, fun m' hm' => ?_⟩
    obtain ⟨p, p1, p2, p3⟩ := s2 m' hm'
    refine ⟨valid_iff.mpr ⟨_, p3⟩, ?_⟩
    rw [items_eq p3, hit]
    simp [p1, p2, List.map_take, List.map_drop]
  | delete i =>
    simp only [edit, apply, Fits, and_true]
    by_cases hi : i < parts.length
    · obtain ⟨a, p, b, rfl, rfl⟩ := (parts_at ht).1 hi
      obtain ⟨m', k1, k2⟩ := delete_tiled ht
      rw [if_pos (by rw [hlen]; exact hi), k1]
      refine ⟨by simp, fun m'' hm => ?_⟩
      rw [← Option.some.inj hm]
      refine ⟨valid_iff.mpr ⟨_, k2⟩, ?_⟩
      rw [items_eq k2, hit]
      congr 1
      rw [List.map_append, List.map_cons, List.take_left' (by simp), ← List.drop_drop, List.drop_left' (by simp)]
      simp
    · have := (parts_at ht).2 hi
      rw [if_neg (by rw [hlen]; exact hi)]
      unfold deleteContent
      rw [this]; simp
  | replace i content =>
    obtain ⟨h1, h2, h3⟩ := he
    simp only [edit, apply, Fits]
    by_cases hi : i < parts.length
    · obtain ⟨a, p, b, rfl, rfl⟩ := (parts_at ht).1 hi
      rw [hlen] at h2
      have hx := hgetp a p b
      rw [← hit] at hx
      obtain ⟨s1, s2⟩ := replace_spec ht h1 (by simpa using h2) (h3 _ hx)
      rw [hx]
      refine ⟨by rw [s1]; simp, fun m' hm' => ?_⟩
      obtain ⟨q, q1, q2, q3⟩ := s2 m' hm'
      refine ⟨valid_iff.mpr ⟨_, q3⟩, ?_⟩
      rw [items_eq q3, hit, Option.map_some]
      congr 1
      rw [List.map_append, List.map_cons, List.take_left' (by simp), ← List.drop_drop, List.drop_left' (by simp)]
      simp [q1, q2]
    · have := (parts_at ht).2 hi
      unfold replaceContent
      rw [this, List.getElem?_eq_none (by rw [hlen]; omega)]; simp
  | rename i name =>
    simp only [edit, apply, Fits]
    by_cases hi : i < parts.length
    · obtain ⟨a, p, b, rfl, rfl⟩ := (parts_at ht).1 hi
      have hx := hgetp a p b
      rw [← hit] at hx
      obtain ⟨s1, s2⟩ := rename_spec ht (name := name) he
      rw [hx]
      refine ⟨by rw [s1]; simp, fun m' hm' => ?_⟩
      obtain ⟨q, q1, q3⟩ := s2 m' hm'
      refine ⟨valid_iff.mpr ⟨_, q3⟩, ?_⟩
      rw [items_eq q3, hit, Option.map_some]
      congr 1
      rw [List.map_append, List.map_cons, List.take_left' (by simp), ← List.drop_drop, List.drop_left' (by simp)]
      simp [q1]
    · have := (parts_at ht).2 hi
      unfold renameContent
      rw [this, List.getElem?_eq_none (by rw [hlen]; omega)]; simp

/-- A history of changes to the list, each of which makes sense for the list it meets, with the result. -/
inductive History : List Shown → List Edit → List Shown → Prop
  | nil (l : List Shown) : History l [] l
  | cons {l l' l'' : List Shown} {e : Edit} {es : List Edit} (h1 : EditOk l e) (h2 : Fits l e) (h3 : apply l e = some l')
      (h4 : History l' es l'') : History l (e :: es) l''

/-- The history of the file. -/
def editAll (m : State) : List Edit → Option State
  | [] => some m
  | e :: es => (edit m e).bind fun m' => editAll m' es

/-- **C39.** After any history of changes the bytes read back as the list that results from the same changes to the list of entries. -/
theorem C39_history {m : State} (h : Valid m) {es : List Edit} {l : List Shown} (hh : History (items m) es l) :
    ∃ m', editAll m es = some m' ∧ Valid m' ∧ items m' = l ∧ readAll m'.data = some m' := by
  generalize hl : items m = l0 at hh
  induction hh generalizing m with
  | nil l => exact ⟨m, rfl, h, hl, h.2.1⟩
  | @cons l l' l'' e es h1 h2 h3 h4 ih =>
    subst hl
    obtain ⟨k1, k2⟩ := C39_edit h h1
    obtain ⟨m1, hm1⟩ := Option.isSome_iff_exists.mp (k1.mpr ⟨by rw [h3]; rfl, h2⟩)
    obtain ⟨v, e1⟩ := k2 m1 hm1
    obtain ⟨m', a, b, c, d⟩ := ih v (Option.some.inj (e1.symm.trans h3))
    exact ⟨m', by rw [editAll, hm1]; exact a, b, c, d⟩

/-- **C39.** A new file is what its bytes say, and empty. -/
theorem C39_create {name : Name} (h0 : 0 ∉ name) (hb : ∀ b ∈ name, b < 256) :
    ((create name).isSome ↔ name.length ≤ 0x20) ∧ ∀ m, create name = some m → Valid m ∧ items m = [] ∧ m.name = name := by
  have hz := writeZ_some (k := 0x20) (v := name)
  unfold create
  simp only [wU32_eq]
  rw [if_pos (by omega), Option.bind_some, if_pos (by omega), Option.bind_some]
  cases hw : writeZ name (some 0x20) 1 with
  | none => rw [hw] at hz; simp at hz; simp; omega
  | some f =>
    obtain ⟨f1, f2⟩ := writeZ_field h0 hw
    rw [Option.bind_some, if_pos (by omega), Option.bind_some]
    have hj : writeZ [] (some 0x1c) 1 = some (List.replicate 0x1c 0) := by decide
    rw [hj, Option.bind_some]
    have hdata : lit "CPOD" ++ (le4 0x44 ++ (le4 1 ++ (f ++ (le4 0 ++ List.replicate 0x1c 0)))) = head f 0 (List.replicate 0x1c 0) := rfl
    rw [hdata]
    have ht : Tiled ⟨head f 0 (List.replicate 0x1c 0), name, []⟩ [] := by
      refine ⟨?_, isPod_iff.mpr ⟨by decide, by simp, f, List.replicate 0x1c 0, f1, List.length_replicate, (List.append_nil _).symm⟩, rfl⟩
      exact bytes_append (by decide) (bytes_append (le4_bytes _) (bytes_append (le4_bytes _) (bytes_append (f2 hb)
        (bytes_append (le4_bytes _) (by intro x hx; rw [List.mem_replicate] at hx; omega)))))
    have hr := ht.reads
    simp only at hr
    rw [hr]
    rw [hw] at hz
    refine ⟨by simpa using hz, ?_⟩
    intro m hm
    rw [← Option.some.inj hm]
    exact ⟨valid_iff.mpr ⟨_, ht⟩, rfl, rfl⟩

/-! ### Examples and counterexamples -/

/-- A file with a name, an image and another file; the changes move and rewrite them. -/
example : (do
    let m ← create (lit "p")
    let m ← insertContent m 0 (some (lit "a")) (.file [1, 2, 3]) false
    let m ← insertContent m 0 none (.bmp 2 1 8 [7, 9]) true
    let m ← insertContent m 1 (some (lit "b")) (.file [4]) true
    let m ← replaceContent m 2 (.file [5, 6])
    let m ← renameContent m 1 (lit "c")
    let m ← deleteContent m 0
    let m' ← readAll m.data
    return (items m, decide (m' = m))) =
    some ([(some (lit "c"), .file [4]), (some (lit "a"), .file [5, 6])], true) := by decide +kernel

/-- The conditions of the theorems are met by it. -/
example : ∃ m, (create (lit "p")).bind (fun m => insertContent m 0 (some (lit "a")) (.file [1, 2, 3]) false) = some m ∧ Valid m ∧
    EditOk (items m) (.insert 0 none (.bmp 2 1 8 [7, 9]) false) ∧ Fits (items m) (.insert 0 none (.bmp 2 1 8 [7, 9]) false) ∧
    EditOk (items m) (.replace 0 (.file [4])) ∧ Fits (items m) (.replace 0 (.file [4])) := by
  obtain ⟨-, h⟩ := C39_create (name := lit "p") (by decide) (by decide)
  obtain ⟨m, hm⟩ := Option.isSome_iff_exists.mp ((C39_create (name := lit "p") (by decide) (by decide)).1.mpr (by decide))
  obtain ⟨v, hi, -⟩ := h m hm
  have ok : EditOk (items m) (.insert 0 (some (lit "a")) (.file [1, 2, 3]) false) := by
    rw [hi]
    refine ⟨by decide, by unfold ContentOk; decide, ?_, trivial⟩
    intro n hn
    obtain rfl := Option.some.inj hn
    decide
  obtain ⟨k1, k2⟩ := C39_edit v ok
  obtain ⟨m', hm'⟩ := Option.isSome_iff_exists.mp (k1.mpr ⟨by rw [hi]; rfl, ⟨_, rfl, by decide⟩, by decide, by simp⟩)
  obtain ⟨v', e⟩ := k2 m' hm'
  have hi' : items m' = [(some (lit "a"), .file [1, 2, 3])] := by
    rw [hi] at e; exact (Option.some.inj e).symm
  refine ⟨m', by rw [hm, Option.bind_some]; simpa only [edit] using hm', v', ?_⟩
  rw [hi']
  refine ⟨⟨by decide, ⟨rfl, by decide⟩, rfl, trivial⟩, ⟨trivial, ?_⟩, ⟨by unfold ContentOk; decide, trivial, ?_⟩, ⟨by decide, by simp⟩⟩
  · exact ⟨Or.inl rfl, by decide, by decide, by decide, by simp⟩
  · intro x hx
    obtain rfl := Option.some.inj hx
    trivial

def black : Content := .pal (List.replicate 768 0)

def oneFile : Option State := (create []).bind fun m => insertContent m 0 (some (lit "a")) (.file [1]) false

/-- **C39 (a limit).** Inserting a palette before other entries goes wrong: the loop over its colors overwrites the index, so that the
entry is put last in memory although its bytes come first.  The change after that hits the wrong bytes: the file can no longer be read. -/
theorem C39_palette_counterexample :
    oneFile.bind (fun m => (insertContent m 0 none black false).map items) = some [(some (lit "a"), .file [1]), (none, black)] ∧
    oneFile.bind (fun m => (insertContent m 0 none black false).bind fun m => (readAll m.data).map items) =
      some [(none, black), (some (lit "a"), .file [1])] ∧
    (oneFile.bind fun m => (insertContent m 0 none black false).bind fun m => renameContent m 0 (lit "b")).isSome = true ∧
    (oneFile.bind fun m => (insertContent m 0 none black false).bind fun m => (deleteContent m 0).bind fun m => readAll m.data) = none := by
  refine ⟨?_, ?_, ?_, ?_⟩ <;> decide +kernel

/-- **C39 (a limit).** A file with bytes after the last entry can be read, but an entry that is appended to it lands behind those bytes,
where it is not found. -/
theorem C39_tail_counterexample :
    oneFile.bind (fun m => (readAll (m.data ++ [0])).map items) = some [(some (lit "a"), .file [1])] ∧
    (oneFile.bind fun m => readAll (m.data ++ [0])).isSome = true ∧
    (oneFile.bind fun m => (readAll (m.data ++ [0])).bind fun m => insertContent m 1 (some (lit "b")) (.file [2]) false).isSome = true ∧
    (oneFile.bind fun m => (readAll (m.data ++ [0])).bind fun m => (insertContent m 1 (some (lit "b")) (.file [2]) false).bind fun m =>
      readAll m.data) = none := by
  refine ⟨?_, ?_, ?_, ?_⟩ <;> decide +kernel

/-- **C39 (a limit).** An image can be given a name when it is inserted; the name is kept in memory but not in the bytes.  A file without a
name is refused only after the entry it should replace is gone. -/
theorem C39_name_counterexample :
    oneFile.bind (fun m => (insertContent m 1 (some (lit "b")) (.bmp 1 1 8 [7]) false).map items) =
      some [(some (lit "a"), .file [1]), (some (lit "b"), .bmp 1 1 8 [7])] ∧
    oneFile.bind (fun m => (insertContent m 1 (some (lit "b")) (.bmp 1 1 8 [7]) false).bind fun m => (readAll m.data).map items) =
      some [(some (lit "a"), .file [1]), (none, .bmp 1 1 8 [7])] ∧
    oneFile.bind (fun m => (insertContent m 0 none (.bmp 1 1 8 [7]) false).bind fun m => replaceContent m 0 (.file [1])) = none := by
  refine ⟨?_, ?_, ?_⟩ <;> decide +kernel

end Verif.PodFile
