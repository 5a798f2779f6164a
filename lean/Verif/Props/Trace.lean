import Verif.Trace
import Verif.Spec.Csv
import Verif.Spec.Cover
import Verif.PxaLemmas
import Verif.TextLemmas
/-!
C94: the trace of the compression.
-/
namespace Verif.Trace
open Csv

theorem scan_append (s : State) (a b : List Nat) : scan s (a ++ b) = scan (scan s a) b := by simp [scan]

theorem scan_plain {t : List Nat} (ht : ∀ c ∈ t, c ≠ 34 ∧ c ≠ 44 ∧ c ≠ 10) (R : List (List (List Nat))) (r : List (List Nat)) (x : List Nat) :
    scan ⟨R, r, x, .plain⟩ t = ⟨R, r, x ++ t, .plain⟩ := by
  induction t generalizing x with
  | nil => simp [scan]
  | cons c t ih =>
    obtain ⟨h1, h2, h3⟩ := ht c (by simp)
    have : scan ⟨R, r, x, .plain⟩ (c :: t) = scan ⟨R, r, x ++ [c], .plain⟩ t := by simp [scan, step, h1, h2, h3]
    rw [this, ih fun c hc => ht c (by simp [hc])]
    simp

theorem scan_quoted (t : List Nat) (R : List (List (List Nat))) (r : List (List Nat)) (x : List Nat) :
    scan ⟨R, r, x, .quoted⟩ (t.flatMap fun c => if c = 34 then [34, 34] else [c]) = ⟨R, r, x ++ t, .quoted⟩ := by
  induction t generalizing x with
  | nil => simp [scan]
  | cons c t ih =>
    rw [List.flatMap_cons, scan_append]
    have : scan ⟨R, r, x, .quoted⟩ (if c = 34 then [34, 34] else [c]) = ⟨R, r, x ++ [c], .quoted⟩ := by
      by_cases h : c = 34
      · subst h; simp [scan, step]
      · simp [scan, step, h]
    rw [this, ih]
    simp

theorem scan_escape (s : List Nat) (R : List (List (List Nat))) (r : List (List Nat)) :
    scan ⟨R, r, [], .plain⟩ (escape s) = ⟨R, r, fromP8str false s, .closing⟩ := by
  unfold escape
  rw [scan_append, scan_append]
  have : scan ⟨R, r, [], .plain⟩ [34] = ⟨R, r, [], .quoted⟩ := by simp [scan, step]
  rw [this, scan_quoted]
  simp [scan, step]

theorem digits_plain (n : Nat) : ∀ c ∈ natDigits n, c ≠ 34 ∧ c ≠ 44 ∧ c ≠ 10 := by
  intro c hc
  have := natDigits_digit n c hc
  omega

theorem intText_plain (v : Int) : ∀ c ∈ intText v, c ≠ 34 ∧ c ≠ 44 ∧ c ≠ 10 := by
  unfold intText
  intro c hc
  split at hc
  · rcases List.mem_cons.mp hc with h | h
    · omega
    · exact digits_plain _ c h
  · exact digits_plain _ c hc

/-- The third cell: offset and count of a copy. -/
def copyCell : Item → List (List Nat)
  | .mat o c => [natDigits o ++ [58] ++ natDigits c]
  | .str _ => []

/-- The rows that the trace should have: how much was written for the item, the text it stands for, and where it is copied from. -/
def rows (code : List Nat) : Nat → Int → List (Item × Int) → List (List (List Nat))
  | _, _, [] => []
  | i, prev, (it, pos) :: rest =>
    ([intText (pos - prev), fromP8str false ((code.drop i).take it.length)] ++ copyCell it) ::
      rows code (i + it.length) pos rest

theorem traceAll_rows {code : List Nat} {ps : List (Item × Int)} : ∀ {i : Nat} {prev : Int} {file : List Nat} {R : List (List (List Nat))},
    Covers code i (ps.map (·.1)) → (∀ x ∈ ps, 0 < x.1.length) → scan ⟨[], [], [], .plain⟩ file = ⟨R, [], [], .plain⟩ →
    ∃ t, traceAll ⟨code.take i, prev, file⟩ ps = some t ∧ t.code = code ∧ scan ⟨[], [], [], .plain⟩ t.file = ⟨R ++ rows code i prev ps, [], [], .plain⟩ := by
  induction ps with
  | nil =>
    intro i prev file R hc _ hf
    have hi : i = code.length := hc
    exact ⟨_, rfl, by simp [hi], by simpa [rows] using hf⟩
  | cons x ps ih =>
    intro i prev file R hc hpos hf
    obtain ⟨it, pos⟩ := x
    obtain ⟨hat, hc⟩ := hc
    have hp : 0 < it.length := hpos _ List.mem_cons_self
    have hpos' : ∀ x ∈ ps, 0 < x.1.length := fun x hx => hpos x (List.mem_cons_of_mem _ hx)
    cases it with
    | str s =>
      obtain ⟨hi, hpre⟩ := hat
      have hchunk : (code.drop i).take s.length = s := (List.prefix_iff_eq_take.mp hpre).symm
      have hcode : code.take i ++ s = code.take (i + s.length) := by rw [List.take_add, hchunk]
      obtain ⟨t, h1, h2, h3⟩ := ih (i := i + s.length) (prev := pos) (file := file ++ (intText (pos - prev) ++ [44] ++ escape s ++ [10]))
        (R := R ++ [[intText (pos - prev), fromP8str false s]]) hc hpos' (by
          rw [scan_append, hf, scan_append, scan_append, scan_append, scan_plain (intText_plain _)]
          have : scan ⟨R, [], [] ++ intText (pos - prev), .plain⟩ [44] = ⟨R, [intText (pos - prev)], [], .plain⟩ := by simp [scan, step]
          rw [this, scan_escape]
          simp [scan, step])
      refine ⟨t, ?_, h2, ?_⟩
      · rw [traceAll]
        simp only [update, Option.bind_some, hcode]
        exact h1
      · rw [h3]
        simp [rows, copyCell, Item.length, hchunk]
    | mat o c =>
      obtain ⟨h1o, hoi, hlen, hcopy⟩ := hat
      have hcl := copyLoop_spec code o h1o i hoi c hlen hcopy
      have hchunk : lastOf (code.take (i + c)) c = (code.drop i).take c := by
        unfold lastOf
        have hc0 : c ≠ 0 := by simp only [Item.length] at hp; omega
        have hl : (code.take (i + c)).length - c = i := by simp; omega
        rw [if_neg hc0, hl, List.drop_take]
        congr 1; omega
      obtain ⟨t, h1, h2, h3⟩ := ih (i := i + c) (prev := pos)
        (file := file ++ (intText (pos - prev) ++ [44] ++ escape ((code.drop i).take c) ++ [44] ++ natDigits o ++ [58] ++ natDigits c ++ [10]))
        (R := R ++ [[intText (pos - prev), fromP8str false ((code.drop i).take c), natDigits o ++ [58] ++ natDigits c]]) hc hpos' (by
          have e : intText (pos - prev) ++ [44] ++ escape ((code.drop i).take c) ++ [44] ++ natDigits o ++ [58] ++ natDigits c ++ [10] =
            intText (pos - prev) ++ ([44] ++ (escape ((code.drop i).take c) ++ ([44] ++ ((natDigits o ++ [58] ++ natDigits c) ++ [10])))) := by simp
          rw [e, scan_append, hf, scan_append, scan_append, scan_append, scan_append, scan_append, scan_plain (intText_plain _)]
          have k1 : scan ⟨R, [], [] ++ intText (pos - prev), .plain⟩ [44] = ⟨R, [intText (pos - prev)], [], .plain⟩ := by simp [scan, step]
          rw [k1, scan_escape]
          have k2 : ∀ y : List Nat, scan ⟨R, [intText (pos - prev)], y, .closing⟩ [44] = ⟨R, [intText (pos - prev), y], [], .plain⟩ := by
            intro y; simp [scan, step]
          rw [k2, scan_plain (by
            intro z hz
            simp only [List.mem_append, List.mem_singleton] at hz
            rcases hz with (hz | hz) | hz
            · exact digits_plain _ z hz
            · omega
            · exact digits_plain _ z hz)]
          simp [scan, step])
      refine ⟨t, ?_, h2, ?_⟩
      · rw [traceAll]
        simp only [update, hcl, Option.map_some, Option.bind_some, hchunk]
        exact h1
      · rw [h3]
        simp [rows, copyCell, Item.length]

theorem rows_text (code : List Nat) : ∀ {ps : List (Item × Int)} {i : Nat} {prev : Int}, Covers code i (ps.map (·.1)) →
    ((rows code i prev ps).map fun r => r.getD 1 []).flatten = fromP8str false (code.drop i) := by
  intro ps
  induction ps with
  | nil =>
    intro i prev hc
    have hi : i = code.length := hc
    subst hi
    simp [rows, fromP8str]
  | cons x ps ih =>
    intro i prev hc
    obtain ⟨it, pos⟩ := x
    rw [rows, List.map_cons, List.flatten_cons, ih hc.2, ← List.drop_drop]
    have : ∀ l : List (List Nat), ([intText (pos - prev), fromP8str false ((code.drop i).take it.length)] ++ l).getD 1 [] =
        fromP8str false ((code.drop i).take it.length) := fun _ => rfl
    rw [this]
    unfold fromP8str
    rw [← List.flatMap_append, List.take_append_drop]

/-- **C94.** Whatever the items that describe the code, the trace is a CSV file with one row for each, whose second cells together are the code, and whose
third cells say where the item is copied from, if it is. -/
theorem C94_rows {code : List Nat} {ps : List (Item × Int)} (start : Int) (hc : Covers code 0 (ps.map (·.1))) (hpos : ∀ x ∈ ps, 0 < x.1.length) :
    ∃ t R, traceAll ⟨[], start, []⟩ ps = some t ∧ t.code = code ∧ Csv.read t.file = some R ∧ R = rows code 0 start ps ∧
      (R.map fun r => r.getD 1 []).flatten = fromP8str false code := by
  obtain ⟨t, h1, h2, h3⟩ := traceAll_rows (i := 0) (prev := start) (file := []) (R := []) hc hpos rfl
  refine ⟨t, rows code 0 start ps, h1, h2, ?_, rfl, rows_text code hc⟩
  unfold Csv.read
  rw [h3]
  simp

theorem positions_items {start : Nat} {items : List Item} : ∀ {w : BitWriter} {mtf : List Nat} {ps : List (Item × Int)},
    positions start w mtf items = some ps → ps.map (·.1) = items := by
  induction items with
  | nil => intro w mtf ps h; simp only [positions, Option.some.injEq] at h; subst h; rfl
  | cons it its ih =>
    intro w mtf ps h
    rw [positions] at h
    cases hw : writeItem w mtf it with
    | none => rw [hw] at h; simp at h
    | some x =>
      rw [hw] at h
      simp only [Option.bind_some, Option.map_eq_some_iff] at h
      obtain ⟨r, hr, rfl⟩ := h
      rw [List.map_cons, ih hr]

theorem positions_some {start : Nat} {items : List Item} : ∀ {w w' : BitWriter} {mtf : List Nat}, writeItems w mtf items = some w' →
    ∃ ps, positions start w mtf items = some ps ∧ (ps.map (·.2)).getLast?.getD (bitPosition start w) = bitPosition start w' := by
  induction items with
  | nil => intro w w' mtf h; simp only [writeItems, Option.some.injEq] at h; subst h; exact ⟨[], rfl, rfl⟩
  | cons it its ih =>
    intro w w' mtf h
    rw [writeItems] at h
    cases hw : writeItem w mtf it with
    | none => rw [hw] at h; simp at h
    | some x =>
      rw [hw] at h
      obtain ⟨ps, h1, h2⟩ := ih h
      refine ⟨(it, bitPosition start x.1) :: ps, ?_, ?_⟩
      · rw [positions, hw]; simp [h1]
      · rw [← h2]
        cases ps with
        | nil => rfl
        | cons y ps => simp [List.getLast?_cons]

/-- **C94.** Compressing any code that can be compressed writes a trace, which is a CSV file whose second cells together are the code. -/
theorem C94_trace {code : List Nat} {items : List Item} {w : BitWriter} (start : Nat) (hc : Covers code 0 items) (hok : ∀ it ∈ items, 0 < it.length)
    (hw : writeItems BitWriter.init initMtf items = some w) :
    ∃ file R, trace start items = some file ∧ Csv.read file = some R ∧ R.length = items.length ∧
      (R.map fun r => r.getD 1 []).flatten = fromP8str false code := by
  obtain ⟨ps, hps, _⟩ := positions_some (start := start) hw
  have hi := positions_items hps
  obtain ⟨t, R, h1, _, h3, h4, h5⟩ := C94_rows (bitPosition start BitWriter.init) (hi ▸ hc) (fun x hx => hok _ (by rw [← hi]; exact List.mem_map_of_mem hx))
  refine ⟨t.file, R, ?_, h3, ?_, h5⟩
  · unfold trace; rw [hps]; simp [h1]
  · rw [h4, ← hi, List.length_map]
    have : ∀ (ps : List (Item × Int)) (i : Nat) (prev : Int), (rows code i prev ps).length = ps.length := by
      intro ps
      induction ps with
      | nil => intros; rfl
      | cons x ps ih => intro i prev; obtain ⟨it, pos⟩ := x; rw [rows, List.length_cons, ih, List.length_cons]
    exact this ps 0 _

/-- The sizes in the first cells. -/
def sizesOf : Int → List (Item × Int) → List Int
  | _, [] => []
  | prev, (_, pos) :: rest => (pos - prev) :: sizesOf pos rest

theorem sum_sizes : ∀ (ps : List (Item × Int)) (prev : Int), (sizesOf prev ps).sum = (ps.map (·.2)).getLast?.getD prev - prev := by
  intro ps
  induction ps with
  | nil => intro prev; simp [sizesOf]
  | cons x ps ih =>
    intro prev
    obtain ⟨it, pos⟩ := x
    rw [sizesOf, List.sum_cons, ih]
    cases ps with
    | nil => simp
    | cons y ps => simp [List.getLast?_cons]; omega

/-- **C94** (sizes).  The first cells are the differences of the positions, and for compressing they add up to the number of bits written, less twice the
bits that are in no whole byte yet. -/
theorem C94_sizes_partial {items : List Item} {w : BitWriter} (start : Nat) (hw : writeItems BitWriter.init initMtf items = some w) :
    ∃ ps, positions start BitWriter.init initMtf items = some ps ∧
      (∀ code i prev, (rows code i prev ps).map (fun r => r.getD 0 []) = (sizesOf prev ps).map intText) ∧
      (sizesOf (bitPosition start BitWriter.init) ps).sum = (w.out.length * 8 + w.nbits : Nat) - 2 * (w.nbits : Int) := by
  obtain ⟨ps, hps, hl⟩ := positions_some (start := start) hw
  refine ⟨ps, hps, ?_, ?_⟩
  · intro code
    clear hl hps
    induction ps with
    | nil => intros; rfl
    | cons x ps ih => intro i prev; obtain ⟨it, pos⟩ := x; rw [rows, sizesOf, List.map_cons, List.map_cons, ih]; rfl
  · rw [sum_sizes, hl]
    simp only [bitPosition, BitWriter.init, List.length_nil]
    omega

/-- **C94.** When code is uncompressed, the position advances by just the bits that are read. -/
theorem C94_read {r r' : BitReader} {n v : Nat} (total : Nat) (h : r.readBits n = some (v, r')) : readPosition total r' - readPosition total r = n := by
  have := BitReader.readBits_avail h
  unfold BitReader.avail at this
  unfold readPosition
  omega

/-- The sizes are not the numbers of bits: a line end is written in six bits, and the trace says -6; for the next one, which takes six
bits too, it says 10. -/
theorem C94_size_counterexample : trace 8 [.str [10], .str [10]] = some ([45, 54, 44, 34, 10, 34, 10] ++ [49, 48, 44, 34, 10, 34, 10]) ∧
    (writeItem BitWriter.init initMtf (.str [10])).map (fun x => x.1.out.length * 8 + x.1.nbits) = some 6 := by decide +kernel

/-! Cases meeting the hypotheses: the code `"a"a"a` as three characters and a copy of three. -/
example : Covers [34, 97, 34, 97, 34, 97] 0 [.str [34], .str [97], .mat 2 4] := by
  refine ⟨by simp [ItemAt], by simp [ItemAt, Item.length], ⟨by omega, by simp [Item.length], by simp [Item.length], ?_⟩, rfl⟩
  intro k hk
  match k, hk with
  | 0, _ | 1, _ | 2, _ | 3, _ => rfl
example : (writeItems BitWriter.init initMtf [.str [34], .str [97], .mat 2 4]).isSome = true := by decide +kernel
example : Csv.read [53, 44, 34, 34, 34, 34, 10, 54, 44, 34, 97, 34, 44, 50, 58, 52, 10] = some [[[53], [34]], [[54], [97], [50, 58, 52]]] := by decide +kernel

end Verif.Trace
