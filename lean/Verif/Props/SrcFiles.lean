import Verif.SrcFiles
import Verif.Spec.SrcFiles
import Verif.Props.PtFile
import Verif.Props.Topo
import Verif.Props.LuaStr
import Verif.Props.P64
/-! C87: which files of a Picotron cart are changed when it is processed. -/
namespace Verif.SrcFiles
open Verif.PtFile Verif.SrcSpec

variable {fits : List Nat → Path → Bool}

theorem isSource_iff {patterns : List (List Nat)} {path : Path} {data : Option (List Nat)} :
    isSource fits patterns path data = true ↔ ∃ d, data = some d ∧ isRaw d = true ∧ Code fits patterns path := by
  cases data with
  | none => simp [isSource]
  | some d =>
    have hc : (if patterns.isEmpty then isLua path else globMatches fits patterns path) = true ↔ Code fits patterns path := by
      cases patterns with
      | nil =>
        simp only [List.isEmpty_nil, if_true, Code, ne_eq, not_true_eq_false, false_and, or_false, true_and, isLua, List.isSuffixOf_iff_suffix]
        constructor
        · rintro ⟨p, e⟩; exact ⟨p, e.symm⟩
        · rintro ⟨p, e⟩; exact ⟨p, e.symm⟩
      | cons q qs =>
        simp only [List.isEmpty_cons, Bool.false_eq_true, if_false, Code, reduceCtorEq, false_and, false_or, ne_eq, not_false_eq_true, true_and]
        exact C47_glob fits (q :: qs) path
    simp only [isSource, Bool.and_eq_true, hc, Option.some.injEq, exists_eq_left']

/-- **C87 (filter).** Filtering a cart keeps exactly the selected files, in their order. -/
theorem C87_filter (patterns : List (List Nat)) (files : Files) :
    (filterCart fits patterns files).Sublist files ∧ ∀ x, x ∈ filterCart fits patterns files ↔ x ∈ files ∧ Selected fits patterns x.1 := by
  have key : ∀ (del : List Path) (fs : Files), del.foldl (fun fs p => fs.filter fun x => x.1 != p) fs = fs.filter fun x => !del.contains x.1 := by
    intro del
    induction del with
    | nil => intro fs; simp
    | cons p del ih =>
      intro fs
      rw [List.foldl_cons, ih, List.filter_filter]
      congr 1
      funext x
      by_cases h : x.1 = p <;> simp [h]
  unfold filterCart
  rw [key]
  refine ⟨List.filter_sublist, fun x => ?_⟩
  rw [List.mem_filter]
  refine and_congr_right fun hx => ?_
  rw [← show globMatches fits patterns x.1 = true ↔ Selected fits patterns x.1 from C47_glob fits patterns x.1]
  have : x.1 ∈ files.map (·.1) := List.mem_map.2 ⟨x, hx, rfl⟩
  simp only [List.contains_eq_mem, List.mem_filter, this, true_and, Bool.not_eq_eq_eq_not, Bool.not_true, decide_eq_false_iff_not,
    Bool.not_eq_false]

/-- **C87 (sources).** The code that is worked on is that of the files that hold text and are selected, without their metadata. -/
theorem C87_sources (patterns : List (List Nat)) (files : Files) (path : Path) (text : List Nat) :
    (path, text) ∈ codes fits patterns files ↔
      ∃ d, (path, some d) ∈ files ∧ isRaw d = true ∧ Code fits patterns path ∧ text = LuaStr.decode (rawPayload d) := by
  unfold codes
  simp only [List.mem_map, List.mem_filter, isSource_iff, Prod.mk.injEq]
  constructor
  · rintro ⟨⟨p, d⟩, ⟨h1, d', rfl, h2, h3⟩, rfl, rfl⟩
    exact ⟨d', h1, h2, h3, rfl⟩
  · rintro ⟨d, h1, h2, h3, rfl⟩
    exact ⟨(path, some d), ⟨h1, d, rfl, h2, h3⟩, rfl, rfl⟩

theorem mapM_get {α β : Type} {f : α → Option β} {l : List α} {r : List β} (h : l.mapM f = some r) :
    r.length = l.length ∧ ∀ (k : Nat) x, l[k]? = some x → ∃ y, r[k]? = some y ∧ f x = some y := by
  induction l generalizing r with
  | nil => simp at h; subst h; simp
  | cons a l ih =>
    rw [List.mapM_cons] at h
    simp only [bind, pure, Option.bind_eq_some_iff, Option.some.injEq] at h
    obtain ⟨y, h1, ys, h2, rfl⟩ := h
    obtain ⟨i1, i2⟩ := ih h2
    refine ⟨by simp [i1], fun k x hk => ?_⟩
    cases k with
    | zero => cases hk; exact ⟨y, rfl, h1⟩
    | succ k => exact i2 k x (by simpa using hk)

/-- **C87 (processed).** Processing a cart keeps all its files and their order.  Files that are not selected, that hold no text and directories are not changed
at all; those that are selected have the new code, and the metadata they had. -/
theorem C87_processed {patterns : List (List Nat)} {run : List (Path × List Nat) → Option (Path → List Nat)} {files files' : Files}
    (h : processCart fits patterns run files = some files') :
    ∃ out, run (codes fits patterns files) = some out ∧ files'.map (·.1) = files.map (·.1) ∧
      ∀ (k : Nat) path data, files[k]? = some (path, data) →
        (¬ (∃ d, data = some d ∧ isRaw d = true ∧ Code fits patterns path) → files'[k]? = some (path, data)) ∧
        ∀ d, data = some d → isRaw d = true → Code fits patterns path → ∃ b d', LuaStr.encode (out path) = some b ∧ files'[k]? = some (path, some d') ∧
          (CanSet d b → rawPayload d' = b ∧ rawMeta d' = rawMeta d ∧ isRaw d' = true) := by
  unfold processCart at h
  rw [Option.bind_eq_some_iff] at h
  obtain ⟨out, ho, h⟩ := h
  obtain ⟨hl, hg⟩ := mapM_get h
  refine ⟨out, ho, ?_, ?_⟩
  · apply List.ext_getElem?
    intro k
    rw [List.getElem?_map, List.getElem?_map]
    cases hk : files[k]? with
    | none => rw [List.getElem?_eq_none (by rw [hl]; exact List.getElem?_eq_none_iff.1 hk)]
    | some x =>
      obtain ⟨y, h1, h2⟩ := hg k x hk
      rw [h1]
      unfold setText at h2
      split at h2
      · rw [Option.map_eq_some_iff] at h2
        obtain ⟨b, -, rfl⟩ := h2
        rfl
      · cases h2; rfl
  · intro k path data hk
    obtain ⟨y, h1, h2⟩ := hg k _ hk
    unfold setText at h2
    constructor
    · intro hn
      rw [if_neg (fun hs => hn (isSource_iff.1 hs))] at h2
      cases h2
      exact h1
    · rintro d rfl hr hc
      rw [if_pos (isSource_iff.2 ⟨d, rfl, hr, hc⟩), Option.map_eq_some_iff] at h2
      obtain ⟨b, e, rfl⟩ := h2
      refine ⟨b, _, e, h1, fun hcan => ?_⟩
      have hcan' : CanSet (⟨d, none, none⟩ : File Unit Unit).data b := hcan
      obtain ⟨c1, c2⟩ := C49_set_raw_payload (⟨d, none, none⟩ : File Unit Unit) b hcan'
      exact ⟨c1, c2, (set_payload_layout hcan (⟨d, none, none⟩ : File Unit Unit) rfl).2.2.trans hr⟩

theorem setText_codes {patterns : List (List Nat)} {out : Path → List Nat} {x y : Path × Option (List Nat)} (hs : ∀ c ∈ out x.1, Utf8Spec.Scalar c)
    (hc : ∀ d b, x.2 = some d → LuaStr.encode (out x.1) = some b → CanSet d b) (h : setText fits patterns out x = some y) :
    codes fits patterns [y] = (codes fits patterns [x]).map fun z => (z.1, out z.1) := by
  obtain ⟨path, data⟩ := x
  unfold setText at h
  by_cases hsrc : isSource fits patterns path data = true
  · obtain ⟨d, rfl, hr, hcode⟩ := isSource_iff.1 hsrc
    rw [if_pos hsrc, Option.map_eq_some_iff] at h
    obtain ⟨b, e, rfl⟩ := h
    have hcan := hc d b rfl e
    obtain ⟨-, l2, l3⟩ := set_payload_layout hcan (⟨d, none, none⟩ : File Unit Unit) rfl
    have hs' : isSource fits patterns path (some (putPayload d b)) = true := isSource_iff.2 ⟨_, rfl, l3.trans hr, hcode⟩
    obtain ⟨b', -, e', hd⟩ := LuaStr.C60_text hs
    have eb : b' = b := by rw [e] at e'; exact (Option.some.inj e').symm
    subst eb
    simp only [codes, List.filter_cons, List.filter_nil, Option.getD_some, hs', hsrc, if_true, List.map_cons, List.map_nil]
    rw [show rawPayload (putPayload d b') = b' from l2, hd]
  · rw [if_neg hsrc] at h
    cases h
    simp [codes, hsrc]

theorem codes_cons (patterns : List (List Nat)) (x : Path × Option (List Nat)) (files : Files) :
    codes fits patterns (x :: files) = codes fits patterns [x] ++ codes fits patterns files := by
  simp only [codes, List.filter_cons, List.filter_nil]
  split <;> simp

/-- **C87 (new code).** The processed cart has the same source files, in the same order, and the code of each is the new one. -/
theorem C87_code {patterns : List (List Nat)} {run : List (Path × List Nat) → Option (Path → List Nat)} {files files' : Files} {out : Path → List Nat}
    (ho : run (codes fits patterns files) = some out) (h : processCart fits patterns run files = some files')
    (hs : ∀ x ∈ files, ∀ c ∈ out x.1, Utf8Spec.Scalar c) (hc : ∀ x ∈ files, ∀ d b, x.2 = some d → LuaStr.encode (out x.1) = some b → CanSet d b) :
    codes fits patterns files' = (codes fits patterns files).map fun z => (z.1, out z.1) := by
  unfold processCart at h
  rw [ho, Option.bind_some] at h
  clear ho
  induction files generalizing files' with
  | nil => simp at h; subst h; rfl
  | cons x files ih =>
    rw [List.mapM_cons] at h
    simp only [bind, pure, Option.bind_eq_some_iff, Option.some.injEq] at h
    obtain ⟨y, h1, ys, h2, rfl⟩ := h
    rw [codes_cons, codes_cons _ x, List.map_append, ih h2 (fun z hz => hs z (by simp [hz])) (fun z hz => hc z (by simp [hz])),
      setText_codes (hs x (by simp)) (hc x (by simp)) h1]

/-- **C87 (succeeds).** Processing a cart fails only if the code has errors, or if the new code is no text. -/
theorem C87_succeeds {patterns : List (List Nat)} {run : List (Path × List Nat) → Option (Path → List Nat)} {files : Files} {out : Path → List Nat}
    (ho : run (codes fits patterns files) = some out) (hs : ∀ x ∈ files, ∀ c ∈ out x.1, Utf8Spec.Scalar c) : ∃ files', processCart fits patterns run files = some files' := by
  unfold processCart
  rw [ho, Option.bind_some]
  clear ho
  induction files with
  | nil => exact ⟨[], rfl⟩
  | cons x files ih =>
    obtain ⟨ys, h⟩ := ih fun z hz => hs z (by simp [hz])
    have : ∃ y, setText fits patterns out x = some y := by
      unfold setText
      split
      · obtain ⟨b, -, e, -⟩ := LuaStr.C60_text (hs x (by simp))
        exact ⟨_, by rw [e]; rfl⟩
      · exact ⟨x, rfl⟩
    obtain ⟨y, hy⟩ := this
    exact ⟨y :: ys, by rw [List.mapM_cons, hy, h]; rfl⟩

/-- **C87 (saved).** The processed cart is saved as `.p64` text and loaded again with all its files (under the assumptions of C42 about their contents). -/
theorem C87_saved {patterns : List (List Nat)} {run : List (Path × List Nat) → Option (Path → List Nat)} {files files' : Files}
    (h : processCart fits patterns run files = some files') (hn : (files.map (·.1)).Nodup) {av : Bool} (hok : ∀ f ∈ files', P64.FileOk av f) (version defVersion : Nat) :
    ∃ back, P64.read defVersion (P64.write av ⟨version, files'⟩) false = some ⟨version, back⟩ ∧ back.Perm files' := by
  obtain ⟨-, -, e, -⟩ := C87_processed h
  exact P64.C42_roundtrip_partial (cart := ⟨version, files'⟩) hok (by rw [e]; exact hn) defVersion

/-- A cart with a program that has metadata, a program that does not, a pod, a text and a directory. -/
def demo : Files :=
  [(asc "d/", none), (asc "d/a.lua", some (asc "--[[pod_format=\"raw\"]]x=1")), (asc "main.lua", some (asc "y = 2")), (asc "m.pod", some (asc "--[[pod]]1")),
    (asc "p.lua", some (asc "--[[pod]]1")), (asc "t.txt", some (asc "y = 2"))]

/-- Only the two programs are changed. -/
example : processCart (fun _ _ => false) [] (fun l => if l = [(asc "d/a.lua", asc "x=1"), (asc "main.lua", asc "y = 2")] then some fun p =>
    if p = asc "main.lua" then asc "y=2" else asc "z" else none) demo =
    some [(asc "d/", none), (asc "d/a.lua", some (asc "--[[pod_format=\"raw\"]]z")), (asc "main.lua", some (asc "y=2")), (asc "m.pod", some (asc "--[[pod]]1")),
      (asc "p.lua", some (asc "--[[pod]]1")), (asc "t.txt", some (asc "y = 2"))] := by decide +kernel

/-- With patterns: all files in `d` (here a pattern fits what begins with it) but one. -/
example : filterCart (fun p s => p.isPrefixOf s) [asc "d/", asc "m", asc "!m.p"] demo =
    [(asc "d/", none), (asc "d/a.lua", some (asc "--[[pod_format=\"raw\"]]x=1")), (asc "main.lua", some (asc "y = 2"))] := by decide +kernel

/-- The assumptions about the new code. -/
example : (∀ x ∈ demo, ∀ d b, x.2 = some d → LuaStr.encode (asc "y=2") = some b → CanSet d b) ∧ (∀ c ∈ asc "y=2", Utf8Spec.Scalar c) := by
  have e : LuaStr.encode (asc "y=2") = some (asc "y=2") := by decide
  refine ⟨?_, by unfold Utf8Spec.Scalar; decide⟩
  intro x hx d b hd hb
  rw [e] at hb
  cases hb
  have h1 : ∀ x ∈ demo, x.2.all (fun d => (asc "--[[pod").isPrefixOf d → (findSub (asc "]]") d).isSome) = true := by decide
  refine ⟨fun _ => by decide, fun hp hn => ?_⟩
  have := h1 x hx
  rw [hd] at this
  simp only [Option.all_some, decide_eq_true_eq] at this
  have h2 := this (List.isPrefixOf_iff_prefix.2 hp)
  cases hf : findSub (asc "]]") d with
  | none => rw [hf] at h2; cases h2
  | some i => exact absurd ((findSub_some hf).1.isInfix.trans (List.drop_suffix i d).isInfix) hn

/-- Code that begins like metadata becomes metadata: the code of a file without metadata must not begin with `--[[pod`. -/
theorem C87_meta_counterexample :
    (processCart (fun _ _ => false) [] (fun _ => some fun _ => asc "--[[pod_a]]x=1") [(asc "main.lua", some (asc "y"))]).map
      (fun f => (codes (fun _ _ => false) [] f)) = some [] := by decide +kernel

end Verif.SrcFiles
