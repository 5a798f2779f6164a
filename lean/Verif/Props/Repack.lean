import Verif.Repack
import Verif.Spec.Repack
import Verif.Props.CartMeta
import Verif.CartDirWrite
/-
C89: storing the pods of a Picotron cart anew, and taking its label out of its files.
-/
namespace Verif.Stored
open Verif.PodText Verif.RepackSpec
open Verif.CartDir (Files Entry)

variable {F : Type} [DecidableEq F] {fl : Floats F} {isDig : Nat → Bool} {depth : Nat} {o : Opts}

/-- A file that can be stored anew: it is raw, or its metadata ends and its pod can be read and stored with the options. -/
def Packable (fl : Floats F) (depth : Nat) (o : Opts) (d : List Nat) : Prop :=
  PtFile.isRaw d = true ∨ (PtFile.asc "]]" <:+: d ∧ ∃ v, readPod fl depth (PtFile.rawPayload d) = some v ∧ Fits fl o v)

theorem pod_starts {d : List Nat} (h : PtFile.isRaw d = false) : PtFile.asc "--[[pod" <+: d := by
  unfold PtFile.isRaw at h
  simp only [Bool.or_eq_false_iff, Bool.not_eq_false'] at h
  exact List.isPrefixOf_iff_prefix.1 h.1

/-- **C89 (one file).** A file whose pod is stored anew has the same metadata and the same pod; a raw file is not touched. -/
theorem C89_file (hd : AsciiDig isDig) (ha : AsciiFloats fl) {d d' : List Nat} (hp : Packable fl (depth + 1) o d)
    (h : repackFile fl isDig (depth + 1) o d = some d') : SameFile fl (depth + 1) d d' := by
  unfold repackFile at h
  cases hr : PtFile.isRaw d with
  | true =>
    rw [hr, if_pos rfl] at h
    cases h
    exact ⟨rfl, fun _ => rfl, fun k => by rw [hr] at k; cases k⟩
  | false =>
    rcases hp with k | ⟨hend, v, hv, hf⟩
    · rw [hr] at k; cases k
    · rw [hr, if_neg Bool.false_ne_true, hv, Option.bind_some, Option.map_eq_some_iff] at h
      obtain ⟨b, hb, h⟩ := h
      have hc : PtFile.CanSet d b := ⟨fun k => absurd (pod_starts hr) k, fun _ k => absurd hend k⟩
      obtain ⟨l1, l2, l3⟩ := PtFile.set_payload_layout hc (⟨d, none, none⟩ : PtFile.File Unit Unit) rfl
      rw [h] at l1 l2 l3
      refine ⟨l3, (fun k => by rw [hr] at k; cases k), fun _ => ⟨l1, ?_, by rw [hv]; rfl⟩⟩
      rw [l2, hv]
      exact (C67_roundtrip hd ha hf hb depth).2

/-- **C89 (it succeeds).** Only LZ4 and sizes beyond 32 bits can make it fail. -/
theorem C89_succeeds (hd : AsciiDig isDig) (ha : AsciiFloats fl) {d : List Nat} (hp : Packable fl depth o d)
    (h : repackFile fl isDig depth o d = none) : o.compress = true ∧ ∃ v raw, writePod fl isDig { o with compress := false, useBase64 := false } v = some raw ∧
      (2 ^ 32 ≤ raw.length ∨ ∃ c, Lz4.compress false raw = some c ∧ 2 ^ 32 ≤ c.length) := by
  unfold repackFile at h
  cases hr : PtFile.isRaw d with
  | true => rw [hr, if_pos rfl] at h; cases h
  | false =>
    rcases hp with k | ⟨-, v, hv, hf⟩
    · rw [hr] at k; cases k
    · rw [hr, if_neg Bool.false_ne_true, hv, Option.bind_some, Option.map_eq_none_iff] at h
      obtain ⟨raw, h1, h2⟩ := C67_written hd ha hf
      obtain ⟨h3, h4⟩ := h2 h
      exact ⟨h3, v, raw, h1, h4⟩

/-- **C89 (again).** Storing a file anew a second time, with the same options, changes nothing. -/
theorem C89_again (hd : AsciiDig isDig) (ha : AsciiFloats fl) {d d' : List Nat} (hp : Packable fl (depth + 1) o d)
    (h : repackFile fl isDig (depth + 1) o d = some d') : repackFile fl isDig (depth + 1) o d' = some d' := by
  obtain ⟨s1, s2, s3⟩ := C89_file hd ha hp h
  cases hr : PtFile.isRaw d with
  | true =>
    rw [hr] at s1
    unfold repackFile
    rw [s1, if_pos rfl]
  | false =>
    obtain ⟨t1, t2, t3⟩ := s3 hr
    rw [hr] at s1
    unfold repackFile at h ⊢
    rw [hr, if_neg Bool.false_ne_true] at h
    rw [s1, if_neg Bool.false_ne_true, t2]
    obtain ⟨v, hv⟩ := Option.isSome_iff_exists.1 t3
    rw [hv, Option.bind_some, Option.map_eq_some_iff] at h ⊢
    obtain ⟨b, hb, h⟩ := h
    refine ⟨b, hb, ?_⟩
    rw [← h]
    unfold PtFile.setRawPayload at h ⊢
    rw [← h] at t1
    simp only at t1 ⊢
    rw [t1]

theorem mapM_get {A B : Type} {f : A → Option B} : ∀ {l : List A} {r : List B}, l.mapM f = some r → l.map f = r.map some
  | [], r, h => by cases h; rfl
  | x :: l, r, h => by
    rw [List.mapM_cons] at h
    simp only [Option.bind_eq_bind, Option.bind_eq_some_iff] at h
    obtain ⟨y, hy, ys, hys, h⟩ := h
    cases h
    rw [List.map_cons, List.map_cons, hy, mapM_get hys]

/-- **C89 (the cart).** A cart whose pods are stored anew has the same paths in the same order, and all its files and directories are the same to a program. -/
theorem C89_cart (hd : AsciiDig isDig) (ha : AsciiFloats fl) {files files' : Files} (hp : ∀ k d, (k, .file d) ∈ files → Packable fl (depth + 1) o d)
    (h : repack fl isDig (depth + 1) o files = some files') :
    files'.map (·.1) = files.map (·.1) ∧ ∀ x ∈ files.zip files', SameEntry fl (depth + 1) x.1.2 x.2.2 := by
  unfold repack at h
  have e := mapM_get h
  clear h
  induction files generalizing files' with
  | nil =>
    cases files' with
    | nil => exact ⟨rfl, fun x hx => by cases hx⟩
    | cons => cases e
  | cons f files ih =>
    cases files' with
    | nil => cases e
    | cons f' files' =>
      rw [List.map_cons, List.map_cons] at e
      injection e with e1 e2
      obtain ⟨i1, i2⟩ := ih (fun k d hm => hp k d (List.mem_cons_of_mem _ hm)) e2
      obtain ⟨k, en⟩ := f
      have hone : f'.1 = k ∧ SameEntry fl (depth + 1) en f'.2 := by
        unfold repackEntry at e1
        cases en with
        | dir => cases e1; exact ⟨rfl, trivial⟩
        | file d =>
          simp only [Option.map_eq_some_iff] at e1
          obtain ⟨d', hd', e1⟩ := e1
          cases e1
          exact ⟨rfl, C89_file hd ha (hp k d List.mem_cons_self) hd'⟩
      refine ⟨by rw [List.map_cons, List.map_cons, i1, hone.1], ?_⟩
      intro x hx
      rw [List.zip_cons_cons] at hx
      rcases List.mem_cons.1 hx with rfl | hx
      · exact hone.2
      · exact i2 x hx

/-- **C89 (metadata).** What a cart shows of its metadata is the same. -/
theorem C89_metadata (hd : AsciiDig isDig) (ha : AsciiFloats fl) {d d' : List Nat} (hp : Packable fl (depth + 1) o d)
    (h : repackFile fl isDig (depth + 1) o d = some d') (n : Nat) : fileMeta fl n d' = fileMeta fl n d := by
  obtain ⟨s1, s2, s3⟩ := C89_file hd ha hp h
  cases hr : PtFile.isRaw d with
  | true => rw [s2 hr]
  | false =>
    unfold fileMeta
    rw [(s3 hr).1]

/-! ### The label -/

theorem mem_popLabels {files : Files} {x : List Nat × Entry} : x ∈ popLabels files ↔ x ∈ files ∧ x.1 ≠ txt "label.qoi" ∧ x.1 ≠ txt "label.png" := by
  simp only [popLabels, labelFiles, List.foldl_cons, List.foldl_nil, List.mem_filter, bne_iff_ne, ne_eq, and_assoc]

/-- **C89 (label).** Taking the label out of the files keeps it as the label of the cart, and keeps exactly the other files, in their order. -/
theorem C89_label (files : Files) (raw : Option (Option (List Nat × Entry))) :
    labelOf (deleteLabel files raw).1 (deleteLabel files raw).2 = labelOf files raw ∧ (deleteLabel files raw).1.Sublist files ∧
    ∀ x, x ∈ (deleteLabel files raw).1 ↔ x ∈ files ∧ x.1 ≠ txt "label.qoi" ∧ x.1 ≠ txt "label.png" := by
  refine ⟨rfl, ?_, fun x => mem_popLabels⟩
  simp only [deleteLabel, popLabels, labelFiles, List.foldl_cons, List.foldl_nil]
  exact List.filter_sublist.trans List.filter_sublist

/-- **C89 (which label).** The label of a cart that was just read is its `label.qoi`, or else its `label.png`. -/
theorem C89_which {files : Files} (hu : (files.map (·.1)).Nodup) (k : List Nat) (e : Entry) :
    labelOf files none = some (k, e) ↔ (k, e) ∈ files ∧ (k = txt "label.qoi" ∨ k = txt "label.png" ∧ txt "label.qoi" ∉ files.map (·.1)) := by
  have hl : ∀ p, files.lookup p = none ↔ p ∉ files.map (·.1) := by
    intro p
    constructor
    · intro h hm
      obtain ⟨x, hx, rfl⟩ := List.mem_map.1 hm
      rw [CartDir.lookup_of hu (k := x.1) (e := x.2) hx] at h
      cases h
    · intro h
      cases hx : files.lookup p with
      | none => rfl
      | some e => exact absurd (List.mem_map.2 ⟨_, CartDir.lookup_mem hx, rfl⟩) h
  unfold labelOf labelFiles
  simp only [List.findSome?_cons, List.findSome?_nil]
  cases h1 : files.lookup (txt "label.qoi") with
  | some e1 =>
    simp only [Option.map_some, Option.some.injEq, Prod.mk.injEq]
    constructor
    · rintro ⟨rfl, rfl⟩
      exact ⟨CartDir.lookup_mem h1, .inl rfl⟩
    · rintro ⟨hm, rfl | ⟨rfl, hn⟩⟩
      · rw [CartDir.lookup_of hu hm] at h1
        cases h1
        exact ⟨rfl, rfl⟩
      · rw [(hl _).2 hn] at h1; cases h1
  | none =>
    have hn := (hl _).1 h1
    simp only [Option.map_none]
    cases h2 : files.lookup (txt "label.png") with
    | none =>
      simp only [Option.map_none, reduceCtorEq, false_iff]
      rintro ⟨hm, rfl | ⟨rfl, _⟩⟩
      · exact hn (List.mem_map.2 ⟨_, hm, rfl⟩)
      · exact (hl _).1 h2 (List.mem_map.2 ⟨_, hm, rfl⟩)
    | some e2 =>
      simp only [Option.map_some, Option.some.injEq, Prod.mk.injEq]
      constructor
      · rintro ⟨rfl, rfl⟩
        exact ⟨CartDir.lookup_mem h2, .inr ⟨rfl, hn⟩⟩
      · rintro ⟨hm, rfl | ⟨rfl, _⟩⟩
        · exact absurd (List.mem_map.2 ⟨_, hm, rfl⟩) hn
        · rw [CartDir.lookup_of hu hm] at h2
          cases h2
          exact ⟨rfl, rfl⟩

/-! ### Options -/

/-- **C89 (options).** Pods are only compressed for source files, never when uncompressed pods are asked for; base64 is used only if asked for. -/
theorem C89_options (uncompress base64 need : Bool) (runtime : Nat) :
    ((repackOpts uncompress base64 need runtime).compress = true ↔ need = true ∧ uncompress = false) ∧
    ((repackOpts uncompress base64 need runtime).usePxu = true ↔ uncompress = false) ∧
    (repackOpts uncompress base64 need runtime).useBase64 = base64 ∧ (repackOpts uncompress base64 need runtime).runtime = runtime := by
  cases uncompress <;> cases need <;> simp [repackOpts]

/-- **C89 (all of it).** -/
theorem C89_preproc (hd : AsciiDig isDig) (ha : AsciiFloats fl) {dropLabel keep uncompress base64 need : Bool} {runtime : Nat} {files files' : Files}
    {raw raw' : Option (Option (List Nat × Entry))}
    (hp : ∀ k d, (k, .file d) ∈ files → Packable fl (depth + 1) (repackOpts uncompress base64 need runtime) d)
    (h : preprocRest fl isDig (depth + 1) dropLabel keep uncompress base64 need runtime files raw = some (files', raw')) :
    (dropLabel = true → labelOf files' raw' = labelOf files raw) ∧
    ∃ kept : Files, kept.Sublist files ∧ (∀ x, x ∈ kept ↔ x ∈ files ∧ (dropLabel = true → x.1 ≠ txt "label.qoi" ∧ x.1 ≠ txt "label.png")) ∧
      files'.map (·.1) = kept.map (·.1) ∧ (keep = true → files' = kept) ∧ (keep = false → ∀ x ∈ kept.zip files', SameEntry fl (depth + 1) x.1.2 x.2.2) := by
  unfold preprocRest at h
  simp only at h
  have hk : ∃ kept : Files, kept.Sublist files ∧ (∀ x, x ∈ kept ↔ x ∈ files ∧ (dropLabel = true → x.1 ≠ txt "label.qoi" ∧ x.1 ≠ txt "label.png")) ∧
      (if dropLabel = true then deleteLabel files raw else (files, raw)).1 = kept ∧
      (dropLabel = true → (if dropLabel = true then deleteLabel files raw else (files, raw)).2 = some (labelOf files raw)) := by
    cases dropLabel with
    | true =>
      obtain ⟨_, l2, l3⟩ := C89_label files raw
      exact ⟨_, l2, fun x => by rw [l3]; simp, rfl, fun _ => rfl⟩
    | false => exact ⟨files, List.Sublist.refl _, fun x => by simp, rfl, fun k => by cases k⟩
  obtain ⟨kept, k1, k2, k3, k4⟩ := hk
  generalize (if dropLabel = true then deleteLabel files raw else (files, raw)) = r at *
  cases hkeep : keep with
  | true =>
    rw [hkeep, if_pos rfl] at h
    cases h
    refine ⟨fun k => ?_, kept, k1, k2, by rw [← k3], fun _ => k3, fun k => by cases k⟩
    have := k4 k
    simp only at this
    rw [this]; rfl
  | false =>
    rw [hkeep, if_neg Bool.false_ne_true, k3, Option.map_eq_some_iff] at h
    obtain ⟨fs, hf, h⟩ := h
    cases h
    obtain ⟨c1, c2⟩ := C89_cart hd ha (fun k d hm => hp k d ((k2 _).1 hm).1) hf
    refine ⟨fun k => ?_, kept, k1, k2, c1, (fun k => by cases k), fun _ => c2⟩
    rw [k4 k]; rfl

/-! ### Examples -/

/-- A pod in base64 with metadata. -/
def podFile : List Nat := PtFile.asc "--[[pod,title=\"x\"]]b64:ezEsMn0="

example : Packable halves 1 (repackOpts false false false 99) podFile := by
  refine .inr ⟨by decide +kernel, .table (.cons (.int 1) (.int 1) (.cons (.int 2) (.int 2) .nil)), by decide +kernel, ?_, ?_⟩
  · simp only [Val.Ok, Items.Ok, Key.Ok, Val.isNil, Items.keys, IntOk]
    refine ⟨by decide, trivial, by decide, by decide, by decide, trivial, by decide, by simp, trivial⟩
  · simp only [ValBytes, ItemsBytes, KeyBytes]
    exact ⟨trivial, trivial, trivial, trivial, trivial⟩

example : repackFile halves isDigit 1 (repackOpts false false false 99) podFile = some (PtFile.asc "--[[pod,title=\"x\"]]{1,2}") := by decide +kernel
example : repackFile halves isDigit 1 (repackOpts false true false 99) podFile = some podFile := by decide +kernel

example : preprocRest halves isDigit 1 true false false false false 99
    [(txt "main.lua", .file (PtFile.asc "x=1")), (txt "label.png", .file [1]), (txt "gfx/", .dir), (txt "gfx/0.pod", .file podFile), (txt "label.qoi", .file [2])] none =
    some ([(txt "main.lua", .file (PtFile.asc "x=1")), (txt "gfx/", .dir), (txt "gfx/0.pod", .file (PtFile.asc "--[[pod,title=\"x\"]]{1,2}"))],
      some (some (txt "label.qoi", .file [2]))) := by decide +kernel

/-! ### Counterexamples -/

/-- **C89 (finding).** A pod with something that the reader does not know (here: a comparison) makes the whole cart fail, although it would not have to be changed. -/
theorem C89_unread_counterexample : repack halves isDigit 1 (repackOpts false false false 99) [(txt "a.pod", .file (PtFile.asc "--[[pod]]1<2"))] = none := by decide +kernel

/-- **C89 (finding).** Metadata that is not ended, with a `]` at the end, is another one after the file was stored anew. -/
theorem C89_open_counterexample :
    let d := PtFile.asc "--[[pod,a={[1]"
    ∃ d', repackFile halves isDigit 1 (repackOpts false false false 99) d = some d' ∧ PtFile.rawMeta d' ≠ PtFile.rawMeta d := by
  exact ⟨PtFile.asc "--[[pod,a={[1]]]nil", by decide +kernel, by decide +kernel⟩

end Verif.Stored
