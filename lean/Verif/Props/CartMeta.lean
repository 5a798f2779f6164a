import Verif.CartMetaLemmas
/-
C79: removing metadata from the files of a Picotron cart.
-/
namespace Verif.Stored
open Verif.PodText
open Verif.Pxu (UD)
open Verif.CartDir (Files Entry)

variable {F : Type} [DecidableEq F] {fl : Floats F} {isDig : Nat → Bool} {depth : Nat} {keep wanted : List Nat → Bool}

/-- A file with metadata `t`, as Picotron writes it: `pod_format="raw"` comes first if it is there, and what follows does not look like metadata again. -/
structure HasMeta (fl : Floats F) (depth : Nat) (data : List Nat) (t : Items F) : Prop where
  read : fileMeta fl depth data = some (some t)
  fits : MetaFits fl t
  texts : ∀ k ∈ t.keys, ∃ s, k = .str s
  raw : PtFile.isRaw data = true ↔ (.str (txt "pod_format"), .str (txt "raw")) ∈ entries t
  payload : PtFile.isRaw data = true → ¬ PtFile.asc "--[[pod" <+: PtFile.rawPayload data

/-- Writing metadata. -/
theorem putMeta_spec (hd : AsciiDig isDig) (ha : AsciiFloats fl) {n : Items F} (hn : MetaFits fl n) (data : List Nat) :
    ∃ data' t', putMeta fl isDig data (some n) = some data' ∧ PtFile.rawPayload data' = PtFile.rawPayload data ∧ fileMeta fl depth data' = some (some t') ∧
      (entries t').Perm (entries n) ∧ (PtFile.isRaw data' = true ↔ (.str (txt "pod_format"), .str (txt "raw")) ∈ entries n) := by
  obtain ⟨bytes, t', h1, -, h2, h3, h4, -, h5⟩ := C67_metadata hd ha hn
  obtain ⟨r1, r2, r3⟩ := PtFile.C49_read h2 (PtFile.rawPayload data)
  refine ⟨PtFile.metaPrefix ++ bytes ++ PtFile.metaSuffix ++ PtFile.rawPayload data, t', by rw [putMeta, h1]; rfl, r2, ?_, h4, r3.trans h5⟩
  unfold fileMeta
  rw [show PtFile.rawMeta (PtFile.metaPrefix ++ bytes ++ PtFile.metaSuffix ++ PtFile.rawPayload data) = some bytes from r1]
  simp only [h3 depth]

/-- Removing metadata from a file keeps its payload and whether it is raw, and leaves exactly the metadata that is to be kept.  The file itself goes only if it is
an `.info.pod` of which nothing is to be kept. -/
theorem C79_file (hd : AsciiDig isDig) (ha : AsciiFloats fl) {data : List Nat} {t : Items F} (h : HasMeta fl depth data t) (path : List Nat) :
    (CartDir.basename path = txt ".info.pod" ∧ ¬ AnyKept keep (entries t) → stripFile fl isDig depth keep path data = some none) ∧
    (¬ (CartDir.basename path = txt ".info.pod" ∧ ¬ AnyKept keep (entries t)) → ∃ data', stripFile fl isDig depth keep path data = some (some data') ∧
      PtFile.rawPayload data' = PtFile.rawPayload data ∧ PtFile.isRaw data' = PtFile.isRaw data ∧
      (AnyKept keep (entries t) → ∃ t', fileMeta fl depth data' = some (some t') ∧ ∀ k v, (k, v) ∈ entries t' ↔ Kept keep (entries t) k v) ∧
      (¬ AnyKept keep (entries t) → fileMeta fl depth data' = some (if PtFile.isRaw data then none else some .nil))) := by
  obtain ⟨s1, s2⟩ := keepMeta_spec (keep := keep) (PtFile.isRaw data) h.texts h.fits
  unfold stripFile
  rw [h.read]
  simp only [Option.bind_some, newMeta]
  by_cases hk : AnyKept keep (entries t)
  · refine ⟨fun h' => absurd hk h'.2, fun _ => ?_⟩
    obtain ⟨n, e1, e2, e3, e4⟩ := s1 hk
    obtain ⟨data', t', p1, p2, p3, p4, p5⟩ := putMeta_spec (depth := depth) hd ha e2 data
    rw [e1]
    simp only [Option.bind_some, Option.elim_some, e3, Bool.false_and, Bool.false_eq_true, if_false, p1, Option.map_some]
    refine ⟨data', rfl, p2, ?_, fun _ => ⟨t', p3, fun k v => by rw [p4.mem_iff, e4]⟩, fun h' => absurd hk h'⟩
    rw [Bool.eq_iff_iff, p5, h.raw, e4]
    unfold Kept
    constructor
    · exact fun h => h.1
    · exact fun h => ⟨h, _, rfl, .inr ⟨hk, .inl rfl⟩⟩
  · rw [s2 hk]
    have he : ((if PtFile.isRaw data then none else some (.nil : Items F)).elim true Items.empty) = true := by split <;> rfl
    simp only [Option.bind_some, he, Bool.true_and, decide_eq_true_eq]
    refine ⟨fun h' => by rw [if_pos h'.1], fun h' => ?_⟩
    rw [if_neg fun h1 => h' ⟨h1, hk⟩]
    cases hr : PtFile.isRaw data with
    | true =>
      obtain ⟨q1, q2, q3⟩ := PtFile.C49_read_plain (h.payload hr)
      refine ⟨PtFile.rawPayload data, by simp [putMeta], q2, q3, fun h1 => absurd h1 hk, fun _ => ?_⟩
      unfold fileMeta
      rw [q1]; rfl
    | false =>
      obtain ⟨data', t', p1, p2, p3, p4, p5⟩ := putMeta_spec (n := .nil) (depth := depth) hd ha ⟨trivial, trivial⟩ data
      refine ⟨data', by simp [p1], p2, ?_, fun h1 => absurd h1 hk, fun _ => ?_⟩
      · rw [Bool.eq_false_iff]
        intro h1
        have := p5.1 h1
        simp [entries] at this
      · have : t' = .nil := by
          cases t' with
          | nil => rfl
          | cons k v r => simp [entries] at p4
        rw [p3, this]; rfl

/-- A file without metadata stays as it is, unless it is an `.info.pod`. -/
theorem C79_plain {data : List Nat} (h : ¬ PtFile.asc "--[[pod" <+: data) (path : List Nat) :
    stripFile fl isDig depth keep path data = some (if CartDir.basename path = txt ".info.pod" then none else some data) := by
  obtain ⟨q1, q2, q3⟩ := PtFile.C49_read_plain h
  have : fileMeta fl depth data = some none := by unfold fileMeta; rw [q1]
  unfold stripFile
  rw [this]
  simp only [Option.bind_some, newMeta, Option.elim_none, Bool.true_and, decide_eq_true_eq, putMeta, q2, Option.map_some]
  split <;> rfl

/-- A whole cart: directories and the files that are not wanted stay, the others are as in C79_file and C79_plain, and no file is added. -/
theorem C79_cart (hd : AsciiDig isDig) (ha : AsciiFloats fl) : ∀ {files : Files}, (files.map (·.1)).Nodup →
    (∀ k d, (k, .file d) ∈ files → wanted k = true → (¬ PtFile.asc "--[[pod" <+: d) ∨ ∃ t, HasMeta fl depth d t) →
    ∃ files', stripMeta fl isDig depth wanted keep files = some files' ∧ (files'.map (·.1)).Sublist (files.map (·.1)) ∧
      (∀ k, (files.lookup k = some .dir ↔ files'.lookup k = some .dir)) ∧
      (∀ k d, files.lookup k = some (.file d) → wanted k = false → files'.lookup k = some (.file d)) ∧
      (∀ k d, files.lookup k = some (.file d) → wanted k = true → ∃ r, stripFile fl isDig depth keep k d = some r ∧ files'.lookup k = r.map .file)
  | [], _, _ => ⟨[], rfl, by simp, by simp, by simp, by simp⟩
  | (path, e) :: files, hu, hf => by
    simp only [List.map_cons, List.nodup_cons] at hu
    obtain ⟨files', i1, i2, i3, i4, i5⟩ := C79_cart hd ha hu.2 (fun k d h => hf k d (by simp [h]))
    have hnot : files'.lookup path = none := by
      cases h : files'.lookup path with
      | none => rfl
      | some e' => exact absurd (i2.subset (List.mem_map.2 ⟨_, CartDir.lookup_mem h, rfl⟩)) hu.1
    have hentry : ∃ r, stripEntry fl isDig depth wanted keep path e = some r ∧ (e = .dir ↔ r = some .dir) ∧
        (∀ d, e = .file d → wanted path = false → r = some (.file d)) ∧
        (∀ d, e = .file d → wanted path = true → ∃ r', stripFile fl isDig depth keep path d = some r' ∧ r = r'.map .file) := by
      cases e with
      | dir => exact ⟨some .dir, rfl, by simp, by simp, by simp⟩
      | file d =>
        by_cases hw : wanted path = true
        · have : ∃ r, stripFile fl isDig depth keep path d = some r := by
            rcases hf path d (by simp) hw with h | ⟨t, h⟩
            · exact ⟨_, C79_plain h path⟩
            · obtain ⟨c1, c2⟩ := C79_file (keep := keep) hd ha h path
              by_cases hc : CartDir.basename path = txt ".info.pod" ∧ ¬ AnyKept keep (entries t)
              · exact ⟨_, c1 hc⟩
              · obtain ⟨d', h', -⟩ := c2 hc
                exact ⟨_, h'⟩
          obtain ⟨r, hr⟩ := this
          refine ⟨r.map .file, by rw [stripEntry, if_pos hw, hr]; rfl, ?_, ?_, ?_⟩
          · cases r <;> simp
          · intro d' _ h; rw [hw] at h; cases h
          · intro d' he _; cases he; exact ⟨r, hr, rfl⟩
        · refine ⟨some (.file d), by rw [stripEntry, if_neg hw], by simp, ?_, fun d' _ h => absurd h hw⟩
          intro d' he _; rw [he]
    obtain ⟨r, e1, e2, e3, e4⟩ := hentry
    refine ⟨(r.map fun e => (path, e)).toList ++ files', by rw [stripMeta, e1, Option.bind_some, i1]; rfl, ?_, ?_, ?_, ?_⟩
    · cases r with
      | none => exact i2.cons _
      | some e' => exact i2.cons_cons _
    all_goals
      have hsame : ∀ k, k ≠ path → List.lookup k ((r.map fun e => (path, e)).toList ++ files') = files'.lookup k := by
        intro k hk
        cases r with
        | none => rfl
        | some e' => simp only [Option.map_some, Option.toList_some, List.singleton_append, List.lookup_cons, show (k == path) = false by simpa using hk]
      have hsame' : ∀ k, k ≠ path → List.lookup k ((path, e) :: files) = files.lookup k := by
        intro k hk
        simp only [List.lookup_cons, show (k == path) = false by simpa using hk]
      have hat : List.lookup path ((r.map fun e => (path, e)).toList ++ files') = r := by
        cases r with
        | none => simpa using hnot
        | some e' => simp
      have hat' : List.lookup path ((path, e) :: files) = some e := by simp
    · intro k
      by_cases hk : k = path
      · subst hk; rw [hat, hat', ← e2, Option.some.injEq]
      · rw [hsame k hk, hsame' k hk]; exact i3 k
    · intro k d h hw
      by_cases hk : k = path
      · subst hk; rw [hat'] at h; rw [hat]; exact e3 d (Option.some.inj h) hw
      · rw [hsame' k hk] at h; rw [hsame k hk]; exact i4 k d h hw
    · intro k d h hw
      by_cases hk : k = path
      · subst hk; rw [hat'] at h; rw [hat]; exact e4 d (Option.some.inj h) hw
      · rw [hsame' k hk] at h; rw [hsame k hk]; exact i5 k d h hw

theorem lookup_entry {key : List Nat} {v : Val F} : ∀ {t : Items F}, lookupItem key t = some v → (.str key, v) ∈ entries t
  | .nil, h => by cases h
  | .cons k w r, h => by
    rw [lookupItem] at h
    split at h
    · rename_i hk
      cases h; rw [hk, entries]; exact List.mem_cons_self
    · exact List.mem_cons_of_mem _ (lookup_entry h)

/-- What is shown of a cart is the same after its metadata was removed. -/
theorem C79_shown (hd : AsciiDig isDig) (ha : AsciiFloats fl) (str : Val F → List Nat) {c c' : Cart F} (hu : (c.files.map (·.1)).Nodup)
    (hf : ∀ k d, (k, .file d) ∈ c.files → wanted k = true → (¬ PtFile.asc "--[[pod" <+: d) ∨ ∃ t, HasMeta fl depth d t)
    (h : c.deleteMeta fl isDig depth str wanted keep = some c') :
    c'.title fl depth str = c.title fl depth str ∧ c'.icon fl depth = c.icon fl depth ∧ c'.home fl depth = c.home fl depth ∧
      c'.runtime fl depth (.int (2 ^ 63 - 1)) = c.runtime fl depth (.int (2 ^ 63 - 1)) := by
  unfold Cart.deleteMeta at h
  simp only [Option.bind_eq_bind, Option.bind_eq_some_iff, Option.some.injEq] at h
  obtain ⟨title, h1, icon, h2, home, h3, runtime, h4, files, h5, rfl⟩ := h
  refine ⟨by rw [h1]; rfl, ?_, by rw [h3]; rfl, by rw [h4]; rfl⟩
  rw [h2]
  cases icon with
  | some u => rfl
  | none =>
    -- no icon: none is found in what is left
    obtain ⟨files', f1, f2, f3, f4, f5⟩ := C79_cart (wanted := wanted) (keep := keep) hd ha hu hf
    rw [f1] at h5
    obtain rfl := Option.some.inj h5
    have hr : c.rawIcon = none := by
      unfold Cart.icon at h2
      cases hr : c.rawIcon with
      | none => rfl
      | some u => rw [hr] at h2; cases h2
    unfold Cart.icon at h2 ⊢
    rw [hr] at h2
    simp only [Option.map_eq_some_iff] at h2 ⊢
    obtain ⟨md, m1, m2⟩ := h2
    unfold Cart.metadata at m1 ⊢
    simp only
    cases hl : c.files.lookup (txt ".info.pod") with
    | none =>
      have : files'.lookup (txt ".info.pod") = none := by
        cases h' : files'.lookup (txt ".info.pod") with
        | none => rfl
        | some e =>
          exfalso
          obtain ⟨y, hy, he⟩ := List.mem_map.1 (f2.subset (List.mem_map.2 ⟨_, CartDir.lookup_mem h', rfl⟩))
          rw [CartDir.lookup_of hu (k := txt ".info.pod") (e := y.2) (by rw [← show y.1 = txt ".info.pod" from he]; exact hy)] at hl
          cases hl
      rw [this]
      exact ⟨none, rfl, rfl⟩
    | some e =>
      cases e with
      | dir =>
        rw [(f3 _).1 hl]
        exact ⟨none, rfl, rfl⟩
      | file d =>
        rw [hl] at m1
        simp only at m1
        by_cases hw : wanted (txt ".info.pod") = true
        · obtain ⟨r, r1, r2⟩ := f5 _ d hl hw
          rw [r2]
          cases r with
          | none => exact ⟨none, rfl, rfl⟩
          | some d' =>
            simp only [Option.map_some]
            rcases hf _ d (CartDir.lookup_mem hl) hw with hp | ⟨t, ht⟩
            · rw [C79_plain hp] at r1
              simp only [Option.some.injEq] at r1
              split at r1
              · cases r1
              · cases r1
                exact ⟨md, m1, m2⟩
            · obtain ⟨c1, c2⟩ := C79_file (keep := keep) hd ha ht (txt ".info.pod")
              by_cases hc : CartDir.basename (txt ".info.pod") = txt ".info.pod" ∧ ¬ AnyKept keep (entries t)
              · rw [c1 hc] at r1; cases r1
              · obtain ⟨d'', g1, g2, g3, g4, g5⟩ := c2 hc
                rw [g1] at r1
                obtain rfl := Option.some.inj (Option.some.inj r1)
                rw [ht.read] at m1
                obtain rfl := Option.some.inj m1
                by_cases hk : AnyKept keep (entries t)
                · obtain ⟨t', k1, k2⟩ := g4 hk
                  refine ⟨some t', k1, ?_⟩
                  cases hi : metaGet "icon" (some t') with
                  | none => rfl
                  | some v =>
                    have hv : lookupItem (txt "icon") t = some v := (lookup_iff ht.fits.1).2 ((k2 _ _).1 (lookup_entry hi)).1
                    have : metaGet "icon" (some t) = some v := hv
                    rw [this] at m2
                    exact m2
                · refine ⟨_, g5 hk, ?_⟩
                  cases PtFile.isRaw d <;> rfl
        · rw [f4 _ d hl (by simpa using hw)]
          exact ⟨md, m1, m2⟩

/-! ### Examples -/

def demoItems : Items Int := .cons (.str (txt "pod_format")) (.str (txt "raw")) (.cons (.str (txt "title")) (.str (txt "x"))
  (.cons (.str (txt "runtime")) (.int 3) .nil))

def demoData : List Nat := PtFile.asc "--[[pod_format=\"raw\",title=\"x\",runtime=3]]print(1)"

/-- As by default, only the version is kept. -/
def keepRuntime (k : List Nat) : Bool := decide (k = txt "runtime")

-- what is assumed holds for it
example : HasMeta halves 1 demoData demoItems where
  read := by unfold demoItems; decide +kernel
  fits := by
    unfold demoItems
    refine ⟨?_, ?_⟩
    · simp only [Items.Ok, Val.Ok, Key.Ok, Val.isNil, Items.keys, IntOk]
      exact ⟨trivial, trivial, trivial, by decide, trivial, trivial, trivial, by decide, trivial, trivial, by decide, by simp, trivial⟩
    · simp only [ItemsBytes, ValBytes, KeyBytes]
      exact ⟨from_ascii (by decide), from_ascii (by decide), from_ascii (by decide), from_ascii (by decide), from_ascii (by decide), trivial, trivial⟩
  texts := by
    intro k h
    simp only [demoItems, Items.keys, List.mem_cons, List.not_mem_nil, or_false] at h
    rcases h with rfl | rfl | rfl <;> exact ⟨_, rfl⟩
  raw := by
    refine ⟨fun _ => ?_, fun _ => by decide +kernel⟩
    simp only [demoItems, entries]; exact List.mem_cons_self
  payload := fun _ => by decide +kernel

example : stripFile halves isDigit 1 keepRuntime (txt "main.lua") demoData = some (some (PtFile.asc "--[[pod_format=\"raw\",runtime=3]]print(1)")) := by
  decide +kernel
example : stripFile halves isDigit 1 (fun _ => false) (txt "main.lua") demoData = some (some (PtFile.asc "print(1)")) := by decide +kernel
example : stripFile halves isDigit 1 (fun _ => false) (txt "gfx/.info.pod") (PtFile.asc "--[[pod,title=\"x\"]]") = some none := by decide +kernel

/-! ### Counterexamples -/

/-- A pod whose metadata mentions the raw format, but not first, becomes a raw file. -/
theorem C79_raw_counterexample :
    let data := PtFile.asc "--[[pod,runtime=3,pod_format=\"raw\"]]{1}"
    PtFile.isRaw data = false ∧ ∃ data', stripFile halves isDigit 1 keepRuntime (txt "a.pod") data = some (some data') ∧ PtFile.isRaw data' = true :=
  ⟨by decide +kernel, PtFile.asc "--[[pod_format=\"raw\",runtime=3]]{1}", by decide +kernel, by decide +kernel⟩

/-- A raw file whose contents look like metadata changes its contents. -/
theorem C79_payload_counterexample :
    let data := PtFile.asc "--[[pod_format=\"raw\"]]--[[pod]]1"
    PtFile.rawPayload data = PtFile.asc "--[[pod]]1" ∧ ∃ data', stripFile halves isDigit 1 (fun _ => false) (txt "a.txt") data = some (some data') ∧
      PtFile.rawPayload data' = PtFile.asc "1" :=
  ⟨by decide +kernel, PtFile.asc "--[[pod]]1", by decide +kernel, by decide +kernel⟩

/-- Metadata with an entry that has no name stops the program. -/
theorem C79_number_counterexample :
    stripFile halves isDigit 1 keepRuntime (txt "a.pod") (PtFile.asc "--[[pod,5,runtime=3]]{1}") = none ∧
      fileMeta halves 1 (PtFile.asc "--[[pod,5,runtime=3]]{1}") = some (some (.cons (.int 1) (.int 5) (.cons (.str (txt "runtime")) (.int 3) .nil))) := by
  constructor <;> decide +kernel

/-- A cart without a version shows one (the largest number) after its metadata was removed, where another default is asked for (picotron_cart.py 751). -/
theorem C79_version_counterexample :
    let c : Cart Int := { files := [] }
    c.runtime halves 1 (.int (-1)) = some (.int (-1)) ∧
      (c.deleteMeta halves isDigit 1 (fun _ => []) (fun _ => true) keepRuntime).bind (·.runtime halves 1 (.int (-1))) = some (.int (2 ^ 63 - 1)) :=
  ⟨rfl, rfl⟩

end Verif.Stored
