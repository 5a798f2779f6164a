import Verif.P64Lemmas
/-
C42: Picotron cartridges as text.
-/
namespace Verif.P64

open Verif.Ptron (Files Cart setFile endsSlash)

/-! ### What is asked of a cart -/

/-- A path that one line can name: not empty, not the end mark, on one line and without white space around it. -/
def PathOk (p : List Nat) : Prop :=
  p ≠ [] ∧ p ≠ [0x5b, 0x65, 0x6f, 0x63, 0x5d] ∧ 10 ∉ p ∧ 13 ∉ p ∧
    (∀ c, p.head? = some c → ¬ (9 ≤ c ∧ c ≤ 13 ∨ c = 32)) ∧ ∀ c, p.getLast? = some c → ¬ (9 ≤ c ∧ c ≤ 13 ∨ c = 32)

/-- Contents that are not plain text and are encoded: a control character other than tab, line feed and carriage return,
or a byte above ASCII (with `avoidBase64`, only NUL), or a line that begins with `:: `. -/
def Encoded (avoidBase64 : Bool) (d : List Nat) : Prop :=
  (∃ c ∈ d, if avoidBase64 then c = 0 else c < 32 ∧ c ≠ 9 ∧ c ≠ 10 ∧ c ≠ 13 ∨ 127 ≤ c ∧ c < 256) ∨
    [0x3a, 0x3a, 0x20] <+: d ∨ [10, 0x3a, 0x3a, 0x20] <:+: d

/-- Contents that survive: encoded, or without carriage returns and not looking encoded. -/
def DataOk (avoidBase64 : Bool) (d : List Nat) : Prop :=
  (∀ c ∈ d, c < 256) ∧ (Encoded avoidBase64 d ∨ 13 ∉ d ∧ ¬ [0x62, 0x36, 0x34, 0x24] <+: d)

/-- A file or (with a path that ends in a slash) a directory that survives. -/
def FileOk (avoidBase64 : Bool) (f : List Nat × Option (List Nat)) : Prop :=
  PathOk f.1 ∧ (f.2 = none ↔ ∃ p, f.1 = p ++ [0x2f]) ∧ ∀ d, f.2 = some d → DataOk avoidBase64 d

/-! ### Lemmas -/

theorem splitNl_cons_ne {c : Nat} (h : c ≠ 10) (s : List Nat) : ∃ l ls, splitNl s = l :: ls ∧ splitNl (c :: s) = (c :: l) :: ls := by
  cases e : splitNl s with
  | nil => exact absurd e (splitNl_ne_nil s)
  | cons l ls => exact ⟨l, ls, rfl, by rw [splitNl, if_neg h, e]⟩

theorem prefix_line {p s : List Nat} (hp : 10 ∉ p) {l : List Nat} {ls : List (List Nat)} (e : splitNl s = l :: ls) :
    p <+: l ↔ p <+: s := by
  induction p generalizing s l ls with
  | nil => simp
  | cons a p ih =>
    have ha : a ≠ 10 := by rintro rfl; exact hp (by simp)
    cases s with
    | nil => rw [splitNl] at e; injection e with e1 e2; rw [← e1]
    | cons c s =>
      by_cases hc : c = 10
      · subst hc
        rw [splitNl, if_pos rfl] at e
        injection e with e1 e2
        rw [← e1]
        constructor
        · intro h; simp at h
        · rintro ⟨t, ht⟩; simp at ht; exact absurd ht.1 ha
      · obtain ⟨l', ls', e1, e2⟩ := splitNl_cons_ne hc s
        rw [e2] at e
        simp at e
        rw [← e.1, List.cons_prefix_cons, List.cons_prefix_cons, ih (fun h => hp (by simp [h])) e1]

theorem any_tail {p s : List Nat} (hp : 10 ∉ p) {l : List Nat} {ls : List (List Nat)} (e : splitNl s = l :: ls) :
    ls.any p.isPrefixOf = true ↔ (10 :: p) <:+: s := by
  induction s generalizing l ls with
  | nil => rw [splitNl] at e; simp at e; rw [e.2]; simp
  | cons c s ih =>
    cases e' : splitNl s with
    | nil => exact absurd e' (splitNl_ne_nil s)
    | cons l' ls' =>
      by_cases hc : c = 10
      · subst hc
        rw [splitNl, if_pos rfl, e'] at e
        injection e with e1 e2
        rw [← e2, List.any_cons, Bool.or_eq_true, List.isPrefixOf_iff_prefix, ih e', prefix_line hp e',
          List.infix_cons_iff, List.cons_prefix_cons]
        simp
      · rw [splitNl, if_neg hc, e'] at e
        injection e with e1 e2
        rw [← e2, ih e', List.infix_cons_iff, List.cons_prefix_cons]
        simp [Ne.symm hc]

theorem any_line {p s : List Nat} (hp : 10 ∉ p) :
    (splitNl s).any p.isPrefixOf = true ↔ p <+: s ∨ (10 :: p) <:+: s := by
  cases e : splitNl s with
  | nil => exact absurd e (splitNl_ne_nil s)
  | cons l ls =>
    rw [List.any_cons, Bool.or_eq_true, List.isPrefixOf_iff_prefix, prefix_line hp e, any_tail hp e]

theorem isBad_iff {av : Bool} {d : List Nat} (h : ∀ c ∈ d, c < 256) : isBad av d = true ↔ Encoded av d := by
  unfold isBad Encoded
  rw [Bool.or_eq_true, any_line (by decide), List.any_eq_true]
  have : (∃ x, x ∈ d ∧ badChar av x = true) ↔
      ∃ c ∈ d, if av then c = 0 else c < 32 ∧ c ≠ 9 ∧ c ≠ 10 ∧ c ≠ 13 ∨ 127 ≤ c ∧ c < 256 := by
    refine exists_congr fun c => and_congr_right fun hc => ?_
    have := h c hc
    cases av with
    | true => simp [badChar]
    | false => simp [badChar]; omega
  rw [this]; rfl

/-- The lines a file adds after splitting. -/
def contentLines (av : Bool) (data : Option (List Nat)) : List (List Nat) := (dataLines av data).flatMap splitNl

theorem chunk_mem {size : Nat} (h : 0 < size) {s l : List Nat} (hl : l ∈ chunk size s) : ∀ c ∈ l, c ∈ s := by
  intro c hc
  rw [← chunk_flatten h s]
  exact List.mem_flatten.mpr ⟨l, hl, hc⟩

theorem encoded_chars {d : List Nat} (h : ∀ c ∈ d, c < 256) :
    ∀ c ∈ b64Prefix ++ b64Encode d, 36 ≤ c ∧ c ≤ 122 ∧ c ≠ 0x3a := by
  intro c hc
  rcases List.mem_append.mp hc with hc | hc
  · simp [b64Prefix] at hc; omega
  · have := (alpha_plain (b64Encode_alpha h c hc)).2; omega

/-- Encoded contents: the lines hold no line feed and do not look like the start of a file, and are decoded. -/
theorem content_encoded {av : Bool} {d : List Nat} (h : ∀ c ∈ d, c < 256) (hb : isBad av d = true) :
    (∀ l ∈ contentLines av (some d), filePrefix.isPrefixOf l = false) ∧
      (∀ l ∈ dataLines av (some d), 13 ∉ l) ∧
      b64Prefix.isPrefixOf (joinNl (contentLines av (some d))) = true ∧
      b64DecodeLenient ((joinNl (contentLines av (some d))).drop 4) = some d := by
  have hmem : ∀ l ∈ chunk 76 (b64Prefix ++ b64Encode d), ∀ c ∈ l, 36 ≤ c ∧ c ≤ 122 ∧ c ≠ 0x3a :=
    fun l hl c hc => encoded_chars h c (chunk_mem (by omega) hl c hc)
  have hs : ∀ l ∈ chunk 76 (b64Prefix ++ b64Encode d), splitNl l = [l] := fun l hl =>
    splitNl_plain fun hc => by have := hmem l hl 10 hc; omega
  have e : contentLines av (some d) = chunk 76 (b64Prefix ++ b64Encode d) := by
    unfold contentLines
    rw [show dataLines av (some d) = chunk 76 (b64Prefix ++ b64Encode d) from if_pos hb]
    generalize chunk 76 (b64Prefix ++ b64Encode d) = ls at hs
    clear hmem
    induction ls with
    | nil => rfl
    | cons l ls ih => rw [List.flatMap_cons, hs l (by simp), ih (fun l' hl' => hs l' (by simp [hl']))]; rfl
  have e2 : dataLines av (some d) = chunk 76 (b64Prefix ++ b64Encode d) := by
    exact if_pos hb
  rw [e, e2]
  refine ⟨fun l hl => ?_, fun l hl hc => by have := hmem l hl 13 hc; omega, ?_⟩
  · cases l with
    | nil => rfl
    | cons c l => have := hmem _ hl c (by simp); show (58 == c && _) = false; simp; omega
  · have hc := chunk_cons (size := 76) (by omega) (s := b64Prefix ++ b64Encode d) (by simp [b64Prefix])
    have hf := chunk_flatten (size := 76) (by omega) (b64Prefix ++ b64Encode d)
    have ht : (b64Prefix ++ b64Encode d).take 76 = b64Prefix ++ (b64Encode d).take 72 := by
      rw [List.take_append]; rfl
    rw [ht] at hc
    rw [hc, List.flatten_cons, List.append_assoc, List.append_cancel_left_eq] at hf
    rw [hc, joinNl_flatMap, List.append_assoc]
    refine ⟨by rw [List.isPrefixOf_iff_prefix]; exact List.prefix_append _ _, ?_⟩
    rw [List.drop_append_of_le_length (by decide), show List.drop 4 b64Prefix = [] from rfl, List.nil_append]
    exact lenient_lines h hf

/-- Plain contents. -/
theorem content_plain {av : Bool} {d : List Nat} (hb : isBad av d = false) :
    (∀ l ∈ contentLines av (some d), filePrefix.isPrefixOf l = false) ∧ joinNl (contentLines av (some d)) = d := by
  have e : contentLines av (some d) = splitNl d := by
    unfold contentLines
    rw [show dataLines av (some d) = [d] from if_neg (by simp [hb])]
    simp
  rw [e]
  refine ⟨fun l hl => ?_, joinNl_splitNl d⟩
  unfold isBad at hb
  rw [Bool.or_eq_false_iff, List.any_eq_false] at hb
  have := hb.2
  rw [List.any_eq_false] at this
  exact Bool.eq_false_iff.mpr (this l hl)

theorem flush_file {av : Bool} {f : List Nat × Option (List Nat)} (h : FileOk av f) (cart : Cart) :
    flush ⟨cart, some f.1, contentLines av f.2⟩ = some ⟨cart.version, setFile cart.files f.1 f.2⟩ := by
  obtain ⟨⟨hne, -⟩, hdir, hdata⟩ := h
  obtain ⟨p, data⟩ := f
  simp only at hne hdir hdata ⊢
  rw [flush]
  simp only [hne, if_false]
  rw [← Ptron.endsSlash_iff] at hdir
  cases data with
  | none => rw [if_pos (hdir.mp rfl)]
  | some d =>
    have hns : endsSlash p ≠ true := fun e => by simp [e] at hdir
    obtain ⟨h256, hd⟩ := hdata d rfl
    rw [if_neg hns]
    cases hb : isBad av d with
    | true =>
      obtain ⟨-, -, e1, e2⟩ := content_encoded h256 hb
      rw [if_pos e1, e2]; rfl
    | false =>
      obtain ⟨-, e1⟩ := content_plain hb
      have : ¬ Encoded av d := by rw [← isBad_iff h256, hb]; simp
      have h2 := (hd.resolve_left this).2
      rw [e1, if_neg (by rw [List.isPrefixOf_iff_prefix]; exact h2)]

theorem content_no_start {av : Bool} {f : List Nat × Option (List Nat)} (h : FileOk av f) :
    ∀ l ∈ contentLines av f.2, filePrefix.isPrefixOf l = false := by
  obtain ⟨p, data⟩ := f
  cases data with
  | none => simp [contentLines, dataLines]
  | some d =>
    cases hb : isBad av d with
    | true => exact (content_encoded (h.2.2 d rfl).1 hb).1
    | false => exact (content_plain hb).1

theorem fileLines_no_cr {av : Bool} {f : List Nat × Option (List Nat)} (h : FileOk av f) :
    ∀ l ∈ fileLines av f, 13 ∉ l := by
  obtain ⟨p, data⟩ := f
  intro l hl
  rw [fileLines, List.mem_cons] at hl
  rcases hl with rfl | hl
  · have := h.1.2.2.2.1; simp [filePrefix] at this ⊢; exact this
  · cases data with
    | none => simp [dataLines] at hl
    | some d =>
      obtain ⟨h256, hd⟩ := h.2.2 d rfl
      cases hb : isBad av d with
      | true => exact (content_encoded h256 hb).2.1 l hl
      | false =>
        have : ¬ Encoded av d := by rw [← isBad_iff h256, hb]; simp
        simp only [dataLines, hb, Bool.false_eq_true, if_false, List.mem_singleton] at hl
        rw [hl]; exact (hd.resolve_left this).1

theorem step_file {path : List Nat} (h : PathOk path) {s : State} {cart : Cart} (hf : flush s = some cart) :
    step false s (filePrefix ++ path) = some ⟨cart, some path, []⟩ := by
  obtain ⟨h1, h2, -, -, h5, h6⟩ := h
  have hs : byteStrip path = path := by
    apply byteStrip_tight
    · intro a ha; have := h5 a ha; simp [byteSpace]; omega
    · intro a ha; have := h6 a ha; simp [byteSpace]; omega
  rw [step, if_pos (by simp [filePrefix]), hf]
  simp only [Option.map_some, show List.drop 3 (filePrefix ++ path) = path from rfl, hs]
  rw [if_neg (show ¬ path = endFile from h2)]

theorem steps_files {av : Bool} {files : Files} (h : ∀ f ∈ files, FileOk av f) {s : State} {cart : Cart}
    (hf : flush s = some cart) (hn : (files.map (·.1)).Nodup) (hd : ∀ f ∈ files, ∀ g ∈ cart.files, f.1 ≠ g.1) :
    ∃ s', steps false s ((files.flatMap (fileLines av)).flatMap splitNl) = some s' ∧
      flush s' = some ⟨cart.version, cart.files ++ files⟩ := by
  induction files generalizing s cart with
  | nil => exact ⟨s, rfl, by simpa using hf⟩
  | cons f fs ih =>
    have hof := h f (by simp)
    have hset : setFile cart.files f.1 f.2 = cart.files ++ [f] := by
      unfold setFile
      rw [if_neg]
      rw [Bool.not_eq_true, List.any_eq_false]
      intro g hg
      simpa using (hd f (by simp) g hg).symm
    have hfl := flush_file hof cart
    rw [hset] at hfl
    rw [List.map_cons, List.nodup_cons] at hn
    obtain ⟨s', e1, e2⟩ := ih (fun g hg => h g (by simp [hg])) hfl hn.2 (by
      intro g hg g' hg'
      rcases List.mem_append.mp hg' with hg' | hg'
      · exact hd g (by simp [hg]) g' hg'
      · rw [List.mem_singleton] at hg'
        subst hg'
        intro e; exact hn.1 (by rw [← e]; exact List.mem_map.mpr ⟨g, hg, rfl⟩))
    refine ⟨s', ?_, by rw [e2]; simp⟩
    have hsp : splitNl (filePrefix ++ f.1) = [filePrefix ++ f.1] := splitNl_plain (by
      have := hof.1.2.2.1; simp [filePrefix] at this ⊢; exact this)
    rw [List.flatMap_cons, List.flatMap_append, fileLines, List.flatMap_cons, hsp]
    simp only [List.cons_append, List.nil_append]
    rw [steps, step_file hof.1 hf, Option.bind_some, steps_append]
    rw [show List.flatMap splitNl (dataLines av f.2) = contentLines av f.2 from rfl,
      steps_data false (Or.inr (content_no_start hof)), Option.bind_some, List.nil_append]
    exact e1

theorem secondWord_version (n : Nat) : secondWord (lit "version " ++ natDigits n) = natDigits n := by
  have hd : ∀ c ∈ natDigits n, byteSpace c = false := by
    intro c hc; have := natDigits_digit n c hc; simp [byteSpace]; omega
  have hne := natDigits_ne_nil n
  generalize natDigits n = d at hd hne
  unfold secondWord
  rw [show lit "version " = [118, 101, 114, 115, 105, 111, 110, 32] from rfl]
  show ((d.dropWhile byteSpace).takeWhile fun c => !byteSpace c) = d
  cases d with
  | nil => exact absurd rfl hne
  | cons c d =>
    rw [dropWhile_cons_of_neg' (hd c (by simp))]
    have key : ∀ l : List Nat, (∀ x ∈ l, byteSpace x = false) → (l.takeWhile fun c => !byteSpace c) = l := by
      intro l
      induction l with
      | nil => intro _; rfl
      | cons x l ih =>
        intro h
        rw [List.takeWhile_cons, if_pos (by rw [h x (by simp)]; rfl), ih fun y hy => h y (by simp [hy])]
    exact key _ hd

theorem last_line {s : List Nat} (h : (splitNl s).getLast? = some []) : s = [] ∨ ∃ t, s = t ++ [10] := by
  induction s with
  | nil => exact Or.inl rfl
  | cons c s ih =>
    right
    by_cases hc : c = 10
    · subst hc
      rw [splitNl, if_pos rfl, List.getLast?_cons_of_ne_nil (splitNl_ne_nil s)] at h
      rcases ih h with rfl | ⟨t, rfl⟩
      · exact ⟨[], rfl⟩
      · exact ⟨10 :: t, rfl⟩
    · obtain ⟨l, ls, e1, e2⟩ := splitNl_cons_ne hc s
      rw [e2] at h
      cases ls with
      | nil => simp at h
      | cons l' ls =>
        rw [e1] at ih
        rcases ih (by simpa [List.getLast?_cons] using h) with rfl | ⟨t, rfl⟩
        · simp [splitNl] at e1
        · exact ⟨c :: t, rfl⟩

/-! ### The theorems -/

/-- **C42 (partial).** Full claim: writing a cart as `.p64` text and reading it restores all paths and contents.  Proved:
for every set of files with distinct paths whose paths fit on a line and whose contents either are encoded in base64 or
hold no carriage return and do not begin with `b64$`, in both modes of the writer; the version comes back too.  Missing: the other
files, for which it is false (`C42_cr_counterexample` and the following). -/
theorem C42_roundtrip_partial {av : Bool} {cart : Cart} (h : ∀ f ∈ cart.files, FileOk av f)
    (hn : (cart.files.map (·.1)).Nodup) (defVersion : Nat) :
    ∃ files, read defVersion (write av cart) false = some ⟨cart.version, files⟩ ∧ files.Perm cart.files := by
  have hp := sortFiles_perm cart.files
  have hok : ∀ f ∈ sortFiles cart.files, FileOk av f := fun f hf => h f (hp.subset hf)
  refine ⟨sortFiles cart.files, ?_, hp⟩
  have hraw : isRaw (write av cart) false = false := by
    unfold isRaw write sourceLines
    rw [List.append_assoc, List.cons_append, joinNl_flatMap, List.append_assoc, List.append_assoc]
    rw [show p64Prefix.isPrefixOf (p64Prefix ++ _) = true from by rw [List.isPrefixOf_iff_prefix]; exact List.prefix_append _ _]
    rfl
  have hlines : splitLines (write av cart) = [p64Prefix ++ lit " // www.picotron.net", lit "version " ++ natDigits cart.version, []] ++
      ((sortFiles cart.files).flatMap (fileLines av)).flatMap splitNl ++ [filePrefix ++ endFile] := by
    have hv : ∀ c ∈ lit "version " ++ natDigits cart.version, c ≠ 10 ∧ c ≠ 13 := by
      intro c hc
      rcases List.mem_append.mp hc with hc | hc
      · have : ∀ c ∈ lit "version ", c ≠ 10 ∧ c ≠ 13 := by decide
        exact this c hc
      · have := natDigits_digit _ c hc; omega
    unfold write
    rw [splitLines_join (by simp [sourceLines])]
    · unfold sourceLines
      rw [List.flatMap_append, List.flatMap_append]
      congr 2
      rw [List.flatMap_cons, List.flatMap_cons, splitNl_plain (fun hc => (hv 10 hc).1 rfl)]
      rfl
    · intro l hl
      unfold sourceLines at hl
      simp only [List.mem_append, List.mem_cons, List.not_mem_nil, or_false, List.mem_flatMap] at hl
      rcases hl with ((rfl | rfl | rfl) | ⟨f, hf, hl⟩) | rfl
      · decide
      · exact fun hc => (hv 13 hc).2 rfl
      · simp
      · exact fileLines_no_cr (hok f hf) l hl
      · decide
  unfold read
  rw [hraw, hlines]
  have e0 : steps false ⟨⟨defVersion, []⟩, none, []⟩
      [p64Prefix ++ lit " // www.picotron.net", lit "version " ++ natDigits cart.version, []] =
      some ⟨⟨cart.version, []⟩, none, [p64Prefix ++ lit " // www.picotron.net", []]⟩ := by
    rw [steps, show step false ⟨⟨defVersion, []⟩, none, []⟩ (p64Prefix ++ lit " // www.picotron.net") =
      some ⟨⟨defVersion, []⟩, none, [p64Prefix ++ lit " // www.picotron.net"]⟩ from by
        rw [step, if_neg (by decide), if_neg (fun h => absurd h.2 (by decide))]; rfl]
    rw [Option.bind_some, steps, step, if_neg (by
      rw [show lit "version " = [118, 101, 114, 115, 105, 111, 110, 32] from rfl]; simp [filePrefix]), if_pos ⟨rfl, by
      rw [List.isPrefixOf_iff_prefix]; exact List.prefix_append _ _⟩, secondWord_version, parseNat_natDigits]
    rfl
  obtain ⟨s', e1, e2⟩ := steps_files hok (s := ⟨⟨cart.version, []⟩, none, [p64Prefix ++ lit " // www.picotron.net", []]⟩)
    (cart := ⟨cart.version, []⟩) rfl ((hp.map _).nodup_iff.mpr hn) (by simp)
  rw [List.append_assoc, steps_append]
  simp only [Bool.false_eq_true, if_false]
  rw [e0, Option.bind_some, steps_append, e1, Option.bind_some, steps, step, if_pos (by rfl), e2]
  rfl

/-- A cart with a directory, a program with a line feed at the end, a binary file, a file with a line that begins like the start of a
file (and a carriage return), and an empty file. -/
def exampleCart : Cart :=
  ⟨8, [(lit "a", some []), (lit "b/", none), (lit "b/c d", some [0, 255, 13]), (lit "x", some (lit "p\r\n:: q")),
    (mainPath, some (lit "x=1\n"))]⟩

example : write false exampleCart = lit ("picotron cartridge // www.picotron.net\nversion 8\n\n:: main.lua\nx=1\n\n" ++
    ":: a\n\n:: x\nb64$cA0KOjogcQ==\n:: b/\n:: b/c d\nb64$AP8N\n:: [eoc]\n") := by
  simp [write, sourceLines, exampleCart, natDigits]
  decide +kernel

/-- It meets the hypotheses of `C42_roundtrip_partial` in both modes. -/
example (av : Bool) : (∀ f ∈ exampleCart.files, FileOk av f) ∧ (exampleCart.files.map (·.1)).Nodup := by
  refine ⟨?_, by decide⟩
  have key : ∀ p : List Nat, (p ≠ [] ∧ p ≠ [0x5b, 0x65, 0x6f, 0x63, 0x5d] ∧ 10 ∉ p ∧ 13 ∉ p ∧
      p.head?.all (fun c => !byteSpace c) ∧ p.getLast?.all (fun c => !byteSpace c)) → PathOk p := by
    rintro p ⟨h1, h2, h3, h4, h5, h6⟩
    refine ⟨h1, h2, h3, h4, fun c hc => ?_, fun c hc => ?_⟩
    · rw [hc] at h5; simp [byteSpace] at h5; omega
    · rw [hc] at h6; simp [byteSpace] at h6; omega
  have data : ∀ d : List Nat, ((∀ c ∈ d, c < 256) ∧ (isBad av d = true ∨ 13 ∉ d ∧ b64Prefix.isPrefixOf d = false)) → DataOk av d := by
    rintro d ⟨h1, h2⟩
    refine ⟨h1, h2.imp (isBad_iff h1).mp fun h => ⟨h.1, fun h' => ?_⟩⟩
    rw [show b64Prefix.isPrefixOf d = true from List.isPrefixOf_iff_prefix.mpr h'] at h
    simp at h
  have dir : ∀ (f : List Nat × Option (List Nat)), ((f.2 = none) ↔ endsSlash f.1 = true) → (f.2 = none ↔ ∃ p, f.1 = p ++ [0x2f]) := by
    intro f h; rw [h, Ptron.endsSlash_iff]
  intro f hf
  simp only [exampleCart, List.mem_cons, List.not_mem_nil, or_false] at hf
  rcases hf with rfl | rfl | rfl | rfl | rfl <;>
    refine ⟨key _ (by decide), dir _ (by decide), fun d hd => ?_⟩ <;>
    (first | (cases hd; apply data; cases av <;> decide) | simp at hd)

/-- **C42 (text).** The default form is plain text: apart from the paths, only printable ASCII, tab, line feed and carriage
return appear in it, whatever the contents of the files. -/
theorem C42_text {cart : Cart} (hp : ∀ f ∈ cart.files, ∀ c ∈ f.1, 32 ≤ c ∧ c < 127)
    (hd : ∀ f ∈ cart.files, ∀ d, f.2 = some d → ∀ c ∈ d, c < 256) :
    ∀ c ∈ write false cart, 32 ≤ c ∧ c < 127 ∨ c = 9 ∨ c = 10 ∨ c = 13 := by
  have join : ∀ ls : List (List Nat), (∀ l ∈ ls, ∀ c ∈ l, 32 ≤ c ∧ c < 127 ∨ c = 9 ∨ c = 10 ∨ c = 13) →
      ∀ c ∈ joinNl ls, 32 ≤ c ∧ c < 127 ∨ c = 9 ∨ c = 10 ∨ c = 13 := by
    intro ls hl c hc
    cases ls with
    | nil => simp [joinNl] at hc
    | cons l ls =>
      rw [joinNl_flatMap] at hc
      simp only [List.mem_append, List.mem_flatMap, List.mem_cons] at hc
      rcases hc with hc | ⟨l', hl', rfl | hc⟩
      · exact hl l (by simp) c hc
      · omega
      · exact hl l' (by simp [hl']) c hc
  intro c hc
  rcases List.mem_append.mp hc with hc | hc
  · refine join _ ?_ c hc
    intro l hl c hc
    unfold sourceLines at hl
    simp only [List.mem_append, List.mem_cons, List.not_mem_nil, or_false, List.mem_flatMap] at hl
    rcases hl with ((rfl | rfl | rfl) | ⟨f, hf, hl⟩) | rfl
    · have : ∀ c ∈ p64Prefix ++ lit " // www.picotron.net", 32 ≤ c ∧ c < 127 := by decide
      exact Or.inl (this c hc)
    · rcases List.mem_append.mp hc with hc | hc
      · have : ∀ c ∈ lit "version ", 32 ≤ c ∧ c < 127 := by decide
        exact Or.inl (this c hc)
      · have := natDigits_digit _ c hc; omega
    · simp at hc
    · have hf' := (sortFiles_perm cart.files).subset hf
      rw [fileLines, List.mem_cons] at hl
      rcases hl with rfl | hl
      · rcases List.mem_append.mp hc with hc | hc
        · simp [filePrefix] at hc; omega
        · exact Or.inl (hp f hf' c hc)
      · cases hfd : f.2 with
        | none => rw [hfd] at hl; simp [dataLines] at hl
        | some d =>
          have h256 := hd f hf' d hfd
          rw [hfd] at hl
          cases hb : isBad false d with
          | true =>
            rw [show dataLines false (some d) = chunk 76 (b64Prefix ++ b64Encode d) from if_pos hb] at hl
            have := encoded_chars h256 c (chunk_mem (by omega) hl c hc)
            omega
          | false =>
            rw [show dataLines false (some d) = [d] from if_neg (by simp [hb]), List.mem_singleton] at hl
            subst hl
            unfold isBad at hb
            rw [Bool.or_eq_false_iff, List.any_eq_false] at hb
            have h1 := hb.1 c hc
            have h2 := h256 c hc
            simp [badChar] at h1
            omega
    · have : ∀ c ∈ filePrefix ++ endFile, 32 ≤ c ∧ c < 127 := by decide
      exact Or.inl (this c hc)
  · simp at hc; omega

/-- **C42 (program text).** A text without carriage returns that does not look like the `.p64` form (or anything, if the form is forced)
nor like encoded contents is read as the program, without a line feed at the end; so that a program that does not end in a
line feed comes back from being written as `.lua`, and one that ends in a line feed loses it. -/
theorem C42_raw {data : List Nat} (hc : 13 ∉ data) (hb : ¬ [0x62, 0x36, 0x34, 0x24] <+: data) {raw : Bool}
    (hr : raw = true ∨ ¬ lit "picotron cartridge" <+: data ∧ ¬ [0x3a, 0x3a, 0x20] <+: data) (defVersion : Nat) :
    (∀ t, data = t ++ [10] → read defVersion data raw = some ⟨defVersion, [(lit "main.lua", some t)]⟩) ∧
      ((¬ ∃ t, data = t ++ [10]) → read defVersion data raw = some ⟨defVersion, [(lit "main.lua", some data)]⟩) := by
  have hraw : isRaw data raw = true := by
    unfold isRaw
    rcases hr with hr | ⟨h1, h2⟩
    · rw [hr]; rfl
    · rw [show p64Prefix.isPrefixOf data = false from Bool.eq_false_iff.mpr fun h => h1 (List.isPrefixOf_iff_prefix.mp h),
        show filePrefix.isPrefixOf data = false from Bool.eq_false_iff.mpr fun h => h2 (List.isPrefixOf_iff_prefix.mp h)]
      simp
  have main : ∀ t : List Nat, joinNl (splitLines data) = t → ¬ [0x62, 0x36, 0x34, 0x24] <+: t →
      read defVersion data raw = some ⟨defVersion, [(lit "main.lua", some t)]⟩ := by
    intro t ht hbt
    unfold read
    rw [hraw]
    simp only [if_true]
    rw [steps_data true (Or.inl rfl), Option.bind_some, List.nil_append]
    rw [finish, if_pos rfl, flush]
    simp only [ht]
    rw [if_neg (by decide), if_neg (by decide), if_neg (show ¬ b64Prefix.isPrefixOf t = true from fun h => hbt (List.isPrefixOf_iff_prefix.mp h))]
    rfl
  constructor
  · rintro t rfl
    refine main t ?_ fun h => hb (h.trans (List.prefix_append _ _))
    have := splitLines_join (ls := [t]) (by simp) (by
      intro l hl; rw [List.mem_singleton] at hl; subst hl; exact fun h => hc (by simp [h]))
    rw [joinNl] at this
    rw [this]; simp [joinNl_splitNl]
  · intro hn
    refine main data ?_ hb
    unfold splitLines
    rw [pieces_eq hc]
    by_cases h0 : data = []
    · rw [h0]; rfl
    · rw [if_neg fun h => ?_]
      · exact joinNl_splitNl data
      · rcases last_line h with h | h
        · exact h0 h
        · exact hn h

/-- **C42** fails for carriage returns, which the text form stores as they are and the reader takes for line ends: CR LF
becomes LF. -/
theorem C42_cr_counterexample :
    read 0 (write false ⟨1, [(lit "a", some (lit "x\r\ny"))]⟩) false = some ⟨1, [(lit "a", some (lit "x\ny"))]⟩ := by
  decide +kernel

/-- **C42** fails for a line that begins like the start of a file after a carriage return: another file appears. -/
theorem C42_cr_file_counterexample :
    read 0 (write false ⟨1, [(lit "a", some (lit "x\r:: y"))]⟩) false =
      some ⟨1, [(lit "a", some (lit "x")), (lit "y", some [])]⟩ := by decide +kernel

/-- **C42** fails for text that begins with `b64$`: it is decoded when read. -/
theorem C42_b64_counterexample :
    read 0 (write false ⟨1, [(lit "a", some (lit "b64$AAAA"))]⟩) false = some ⟨1, [(lit "a", some [0, 0, 0])]⟩ := by
  decide +kernel

/-- **C42** fails for paths with white space around them, and for a file named like the end mark, which is lost. -/
theorem C42_path_counterexample :
    read 0 (write false ⟨1, [(lit " a", some (lit "x"))]⟩) false = some ⟨1, [(lit "a", some (lit "x"))]⟩ ∧
      read 0 (write false ⟨1, [(lit "[eoc]", some (lit "x"))]⟩) false = some ⟨1, []⟩ := by decide +kernel

end Verif.P64
