import Verif.AutoDetectLemmas
import Verif.Props.P8Layout
import Verif.Props.Url
/-! C82: files are recognised as what they were written as. -/
namespace Verif.Auto

open Utf8Spec

/-- **C82 (text files).** Text is written as its UTF-8 bytes, and not at all if it has no such bytes. -/
theorem C82_written {t : List Nat} (ht : ∀ c ∈ t, c < 0x110000) (bs : List Nat) : writeText t = some bs ↔ Text t bs := by
  unfold writeText
  constructor
  · intro h
    split at h
    · cases h
    · next hn =>
      have hs : ∀ c ∈ t, Scalar c := by
        intro c hc
        refine ⟨ht c hc, fun hb => hn ?_⟩
        rw [List.any_eq_true]
        exact ⟨c, hc, by simpa using hb⟩
      obtain ⟨bs', h1, h2, -⟩ := LuaStr.C60_text hs
      rw [h2] at h
      exact Option.some.inj h ▸ h1
  · intro h
    rw [if_neg, (LuaStr.C60_utf8 h).2]
    intro ha
    rw [List.any_eq_true] at ha
    obtain ⟨c, hc, hb⟩ := ha
    exact (text_scalar h c hc).2 (by simpa using hb)

/-- **C82 (images).** A file that begins like a PNG image is read as one, as with the format given; text never is. -/
theorem C82_png {bs : List Nat} : (pngHeader <+: bs → auto bs = ⟨.image, bs⟩ ∧ explicit .png bs = some (auto bs)) ∧
    ((auto bs).reader = .image → pngHeader <+: bs) ∧ (∀ t, Text t bs → (auto bs).reader ≠ .image) := by
  have h1 : pngHeader <+: bs → auto bs = ⟨.image, bs⟩ := by
    intro h
    unfold auto
    rw [if_pos (List.isPrefixOf_iff_prefix.2 h)]
  have h2 : (auto bs).reader = .image → pngHeader <+: bs := by
    intro h
    unfold auto at h
    by_cases hp : pngHeader.isPrefixOf bs = true
    · exact List.isPrefixOf_iff_prefix.1 hp
    · rw [if_neg hp] at h
      simp only at h
      split at h
      · cases h
      · split at h
        · cases h
        · split at h <;> cases h
  refine ⟨fun h => ⟨h1 h, by rw [h1 h]; rfl⟩, h2, fun t ht h => ?_⟩
  have := List.isPrefixOf_iff_prefix.2 (h2 h)
  rw [text_not_png ht] at this
  cases this

theorem writeSource_prefix {unicaps : Bool} {inc : List Nat → Bool} {c : SCart} {text : List Nat} (h : writeSource unicaps inc c = some text) :
    sP8Prefix.isPrefixOf text = true := by
  unfold writeSource at h
  cases hl : sourceLines unicaps inc c with
  | none => rw [hl] at h; cases h
  | some lines =>
    rw [hl] at h
    unfold sourceLines at hl
    simp only at hl
    split at hl
    · simp only [Option.some.injEq] at hl
      rw [List.isPrefixOf_iff_prefix]
      rw [← hl] at h
      simp only [List.cons_append, List.nil_append, Option.map_some, Option.some.injEq] at h
      rw [joinNl, List.append_assoc, List.append_assoc] at h
      exact ⟨_, h⟩
    · cases hl

/-- **C82 (.p8).** A saved `.p8` file is recognised as one, and loading it without naming the format gives the cart that was
saved. -/
theorem C82_p8 {c : SCart} (h : SourceOk c) (unicaps : Bool) (inc : List Nat → Bool) {text bs : List Nat}
    (hw : writeSource unicaps inc c = some text) (hf : Text text bs) (defVersion : Nat) :
    auto bs = ⟨.source, text⟩ ∧ ∃ c', runSource defVersion (auto bs) = some c' ∧ Restored inc defVersion c c' := by
  have e : auto bs = ⟨.source, text⟩ := by
    rw [auto_text hf, autoText, writeSource_prefix hw]
    rfl
  obtain ⟨text', c', h1, h2, h3⟩ := C13_sections_roundtrip h unicaps inc defVersion
  rw [hw] at h1
  cases h1
  refine ⟨e, c', ?_, h3⟩
  rw [e]
  exact h2

theorem crlf_of_no_cr {t : List Nat} (h : 13 ∉ t) : Crlf t := fun a b e => absurd (by rw [e]; simp) h

/-- **C82 (line ends).** A cart or code file whose carriage returns are all followed by line feeds is read the same whether the format is
given or recognised. -/
theorem C82_crlf {t bs : List Nat} (hf : Text t bs) (hc : Crlf t) (version : Nat) :
    ((auto bs).reader = .source → (explicit .p8 bs).bind (runSource version) = runSource version (auto bs) ∧
      (explicit .code bs).bind (runSource version) = runSource version (auto bs)) ∧
    ((auto bs).reader = .raw → (explicit .lua bs).bind (runSource version) = runSource version (auto bs)) := by
  have e := (LuaStr.C60_utf8 hf).1
  rw [auto_text hf]
  unfold autoText
  by_cases h1 : (sP8Prefix.isPrefixOf t || (headerLine sLua).isPrefixOf t) = true
  · rw [if_pos h1]
    refine ⟨fun _ => ?_, fun h => by cases h⟩
    simp only [explicit, readMaybeText, e, Option.bind_some, runSource, readSource_univ hc, and_self]
  · rw [if_neg h1]
    by_cases h2 : clipPrefix.isPrefixOf t = true
    · rw [if_pos h2]; exact ⟨fun h => by (cases h), fun h => by (cases h)⟩
    · rw [if_neg h2]
      by_cases h3 : urlPrefix.isPrefixOf t = true
      · rw [if_pos h3]; exact ⟨fun h => by (cases h), fun h => by (cases h)⟩
      · rw [if_neg h3]
        refine ⟨fun h => by (cases h), fun _ => ?_⟩
        simp only [explicit, readMaybeText, e, Option.bind_some, runSource, readSource_univ hc]

theorem fromP8_last {u : Bool} {code : List Nat} (hb : ∀ x ∈ code, x < 256) {a : Nat} (ha : a = 10 ∨ a = 13)
    (h : (fromP8str u code).getLast? = some a) : code.getLast? = some a := by
  rcases List.eq_nil_or_concat code with rfl | ⟨i, x, rfl⟩
  · simp [fromP8str] at h
  · rw [List.concat_eq_append] at h hb ⊢
    have hx := entry_special (u := u) (hb x (by simp))
    rw [fromP8_append, fromP8_cons, List.getLast?_append] at h
    simp only [fromP8str, List.flatMap_nil, List.append_nil] at h
    cases hl : (entry u x).getLast? with
    | none => exact absurd (List.getLast?_eq_none_iff.1 hl) hx.1
    | some b =>
      rw [hl] at h
      simp at h
      subst h
      have := hx.2 b (List.mem_of_getLast? hl) (by rcases ha with rfl | rfl <;> decide)
      simp [this.2.1]

theorem fromP8_nil {u : Bool} {code : List Nat} (hb : ∀ x ∈ code, x < 256) (h : fromP8str u code = []) : code = [] := by
  cases code with
  | nil => rfl
  | cons x s =>
    rw [fromP8_cons] at h
    exact absurd (List.append_eq_nil_iff.1 h).1 (entry_special (hb x (by simp))).1

/-- **C82 (code with header).** Code that is saved with the `__lua__` line is recognised as a cart and read back, provided that it does
not end with a line end. -/
theorem C82_code {code : List Nat} (hb : ∀ x ∈ code, x < 256) (hc : CodeOk code) (hne : code ≠ []) (hl : code.getLast? ≠ some 10)
    (unicaps : Bool) {bs : List Nat} (hf : Text (writeRaw true unicaps code) bs) (version : Nat) :
    auto bs = ⟨.source, writeRaw true unicaps code⟩ ∧ ∃ c, runSource version (auto bs) = some c ∧ c.code = code ∧ c.codeLine = 1 := by
  have e : auto bs = ⟨.source, writeRaw true unicaps code⟩ := by
    rw [auto_text hf, autoText, if_pos]
    have : (headerLine sLua).isPrefixOf (writeRaw true unicaps code) = true := by
      rw [List.isPrefixOf_iff_prefix]; exact ⟨_, rfl⟩
    rw [this, Bool.or_true]
  refine ⟨e, ?_⟩
  obtain ⟨c, h1, h2, h3, -⟩ := C14_lua_only hb hc unicaps version
  refine ⟨c, ?_, h2, h3⟩
  rw [e]
  show readSource version false (writeRaw true unicaps code) = some c
  rw [← h1]
  have ef : P8Format.file [P8Format.chars "__lua__", fromP8str unicaps code] = writeRaw true unicaps code ++ [10] := by
    have : P8Format.chars "__lua__" = headerLine sLua := by decide
    rw [this]
    simp [P8Format.file, writeRaw]
  rw [ef]
  have hcode : fromP8str unicaps code ≠ [] := fun h => hne (fromP8_nil hb h)
  have hlast : (writeRaw true unicaps code).getLast? = (fromP8str unicaps code).getLast? := by
    cases hq : fromP8str unicaps code with
    | nil => exact absurd hq hcode
    | cons x s =>
      simp only [writeRaw, if_true, hq]
      rw [List.getLast?_append, List.getLast?_cons_cons, List.getLast?_eq_some_getLast (by simp), Option.some_or]
  have h13 : code.getLast? ≠ some 13 := by
    intro h13
    have hj := joinNl_splitNl code
    obtain ⟨init, last, hs⟩ : ∃ init last, splitNl code = init ++ [last] := by
      rcases List.eq_nil_or_concat (splitNl code) with h | ⟨i, l, h⟩
      · exact absurd h (splitNl_ne_nil code)
      · exact ⟨i, l, by simpa using h⟩
    have hcr := (hc last (by simp [hs])).2
    have : ∀ init : List (List Nat), (joinNl (init ++ [last])).getLast? = some 13 → last.getLast? = some 13 := by
      intro init
      induction init with
      | nil => exact fun h => h
      | cons a init ih =>
        intro h
        rw [List.cons_append, joinNl_cons (by simp), List.getLast?_append, List.getLast?_cons] at h
        cases hq : (joinNl (init ++ [last])).getLast? with
        | none => rw [hq] at h; simp at h
        | some y => rw [hq] at h; simp at h; exact ih (by rw [hq, h])
    exact hcr (this init (by rw [← hs, hj]; exact h13))
  have hsplit : p8SplitLines (writeRaw true unicaps code ++ [10]) = p8SplitLines (writeRaw true unicaps code) :=
    p8Split_final (by simp [writeRaw, headerLine]) (by rw [hlast]; exact fun h => hl (fromP8_last hb (.inl rfl) h))
      (by rw [hlast]; exact fun h => h13 (fromP8_last hb (.inr rfl) h))
  unfold readSource
  rw [hsplit]
  have t16 : ((writeRaw true unicaps code ++ [10]).take 7 == headerLine sLua) = true := by
    rw [show (7 : Nat) = (headerLine sLua).length from rfl, isPrefixOf_take, List.isPrefixOf_iff_prefix]
    exact ⟨_, by simp [writeRaw]; rfl⟩
  have t17 : ((writeRaw true unicaps code).take 7 == headerLine sLua) = true := by
    rw [show (7 : Nat) = (headerLine sLua).length from rfl, isPrefixOf_take, List.isPrefixOf_iff_prefix]
    exact ⟨_, rfl⟩
  rw [t16, t17]
  simp

/-- **C82 (plain code).** Any other text is code: it is recognised as that unless it begins like a cart, clipboard text or a URL. -/
theorem C82_lua {t bs : List Nat} (hf : Text t bs) : auto bs = ⟨.raw, t⟩ ↔
    ¬ P8Format.chars "pico-8 cartridge" <+: t ∧ ¬ P8Format.chars "__lua__" <+: t ∧ ¬ P8Format.chars "[cart]" <+: t ∧
      ¬ P8Format.chars "https://www.pico-8-edu.com" <+: t := by
  have e1 : P8Format.chars "pico-8 cartridge" = sP8Prefix := by decide
  have e2 : P8Format.chars "__lua__" = headerLine sLua := by decide
  have e3 : P8Format.chars "[cart]" = clipPrefix := by decide
  have e4 : P8Format.chars "https://www.pico-8-edu.com" = urlPrefix := by decide
  rw [e1, e2, e3, e4, auto_text hf, autoText]
  simp only [← List.isPrefixOf_iff_prefix]
  cases sP8Prefix.isPrefixOf t <;> cases (headerLine sLua).isPrefixOf t <;> cases clipPrefix.isPrefixOf t <;> cases urlPrefix.isPrefixOf t <;> simp

/-- Its lines are the code. -/
theorem C82_lua_code {t bs : List Nat} (h : auto bs = ⟨.raw, t⟩) {ls ps : List (List Nat)} (he : t = P8Format.file ls)
    (hls : ∀ l ∈ ls, 10 ∉ l ∧ l.getLast? ≠ some 13) (hps : ls.mapM toP8str = some ps) (version : Nat) :
    ∃ c, runSource version (auto bs) = some c ∧ c.code = joinNl ps ∧ c.codeLine = 0 := by
  obtain ⟨c, h1, h2, h3, -⟩ := C14_raw hls hps true (.inl rfl) version
  exact ⟨c, by rw [h, he]; exact h1, h2, h3⟩

theorem hexDigit_ascii (n : Nat) (h : n < 16) : pyIsSpace (hexDigit n) = false := (hexDigit_plain h).1

/-- **C82 (clipboard).** Clipboard text, also with white space after it, is recognised and gives the image that was written. -/
theorem C82_clip {data ws bs : List Nat} (hd : ∀ b ∈ data, b < 256) (hw : ∀ c ∈ ws, pyIsSpace c = true)
    (hf : Text (writeClip data ++ ws) bs) :
    auto bs = ⟨.clip, writeClip data⟩ ∧ readClip (auto bs).data = some data ∧ (13 ∉ ws → explicit .clip bs = some (auto bs)) := by
  have hlast : ∀ c, (writeClip data).getLast? = some c → pyIsSpace c = false := by
    intro c hc
    have : (writeClip data).getLast? = some 93 := by
      unfold writeClip
      rw [List.getLast?_append]
      rfl
    rw [this] at hc
    cases hc
    decide
  have hn : 13 ∉ writeClip data := by
    unfold writeClip hexText
    intro h
    simp only [List.mem_append, List.mem_flatMap] at h
    rcases h with (h | ⟨b, hb, h⟩) | h
    · exact absurd h (by decide)
    · have h1 := hexDigit_ascii (b / 16) (by have := hd b hb; omega)
      have h2 := hexDigit_ascii (b % 16) (by omega)
      simp only [List.mem_cons, List.not_mem_nil, or_false] at h
      rcases h with h | h
      · rw [← h] at h1; exact absurd h1 (by decide)
      · rw [← h] at h2; exact absurd h2 (by decide)
    · exact absurd h (by decide)
  have e : auto bs = ⟨.clip, writeClip data⟩ := by
    rw [auto_text hf, autoText]
    have p0 : ∀ p : List Nat, p.head? ≠ some 91 → p ≠ [] → p.isPrefixOf (writeClip data ++ ws) = false := by
      intro p hp hne
      cases p with
      | nil => exact absurd rfl hne
      | cons a p =>
        have : (a == 91) = false := by simpa using hp
        simp [writeClip, clipPrefix, List.isPrefixOf, this]
    rw [p0 sP8Prefix (by decide) (by decide), p0 (headerLine sLua) (by decide) (by decide)]
    have : clipPrefix.isPrefixOf (writeClip data ++ ws) = true := by
      rw [List.isPrefixOf_iff_prefix]; exact ⟨hexText data ++ clipSuffix ++ ws, by simp [writeClip]⟩
    rw [this, rstrip_append hlast hw]
    rfl
  refine ⟨e, by rw [e]; exact C37_roundtrip hd, fun hcr => ?_⟩
  rw [e]
  unfold explicit
  simp only
  rw [readText_text hf, univNl_id (by simp [hn, hcr])]
  simp only [Option.map_some]
  rw [rstrip_append hlast hw]

theorem b64Char_plain (n : Nat) : pyIsSpace (b64Char n) = false := by
  unfold b64Char pyIsSpace
  split
  · simp; omega
  · split
    · simp; omega
    · split
      · simp; omega
      · split <;> decide

theorem b64Encode_plain (l : List Nat) : ∀ c ∈ b64Encode l, pyIsSpace c = false := by
  induction l using b64Encode.induct with
  | case1 a b c r ih =>
    intro x hx
    rw [b64Encode] at hx
    simp only [List.mem_cons] at hx
    rcases hx with rfl | rfl | rfl | rfl | hx
    · exact b64Char_plain _
    · exact b64Char_plain _
    · exact b64Char_plain _
    · exact b64Char_plain _
    · exact ih x hx
  | case2 a b =>
    intro x hx
    simp only [b64Encode, List.mem_cons, List.not_mem_nil, or_false] at hx
    rcases hx with rfl | rfl | rfl | rfl
    · exact b64Char_plain _
    · exact b64Char_plain _
    · exact b64Char_plain _
    · decide
  | case3 a =>
    intro x hx
    simp only [b64Encode, List.mem_cons, List.not_mem_nil, or_false] at hx
    rcases hx with rfl | rfl | rfl | rfl
    · exact b64Char_plain _
    · exact b64Char_plain _
    · decide
    · decide
  | case4 => simp [b64Encode]

theorem emitRun_plain (color total : Nat) : ∀ c ∈ emitRun color total, pyIsSpace c = false := by
  induction total using emitRun.induct with
  | case1 => simp [emitRun]
  | case2 total h count ih =>
    intro x hx
    rw [emitRun, dif_neg h] at hx
    simp only [List.mem_cons, List.mem_append] at hx
    rcases hx with rfl | hx | hx
    · exact b64Char_plain _
    · split at hx
      · simp at hx; subst hx; exact b64Char_plain _
      · cases hx
    · exact ih x hx

theorem urlGfx_plain (l : List Nat) : ∀ c ∈ urlGfx l, pyIsSpace c = false := by
  induction l using urlGfx.induct with
  | case1 => simp [urlGfx]
  | case2 cs n h =>
    intro x hx
    rw [urlGfx] at hx
    simp only at hx
    rw [if_pos h, if_pos trivial] at hx
    cases hx
  | case3 c cs n h hc =>
    intro x hx
    rw [urlGfx] at hx
    rw [if_pos h, if_neg hc] at hx
    exact emitRun_plain _ _ x hx
  | case4 c cs n h ih =>
    intro x hx
    rw [urlGfx] at hx
    rw [if_neg h, List.mem_append] at hx
    rcases hx with hx | hx
    · exact emitRun_plain _ _ x hx
    · exact ih x hx

theorem urlText_plain {pre raw gfx : List Nat} (hp : ∀ c ∈ pre, pyIsSpace c = false) (hg : ∀ c ∈ gfx, pyIsSpace c = false) :
    ∀ c ∈ urlText pre raw gfx, pyIsSpace c = false := by
  intro c hc
  unfold urlText at hc
  simp only [List.mem_append] at hc
  rcases hc with ((hc | hc) | hc) | hc
  · exact hp c hc
  · simp only [List.mem_cons, List.not_mem_nil, or_false] at hc
    rcases hc with rfl | rfl | rfl | rfl <;> decide
  · exact b64Encode_plain _ c hc
  · split at hc
    · cases hc
    · rw [List.mem_append] at hc
      rcases hc with hc | hc
      · simp only [List.mem_cons, List.not_mem_nil, or_false] at hc
        rcases hc with rfl | rfl | rfl <;> decide
      · exact hg c hc

/-- **C82 (URL).** The URL of a cart, also with white space after it, is recognised, and the reader of URLs gets it without the white
space. -/
theorem C82_url {raw rom url ws bs : List Nat} {maxLen : Nat} (h : writeUrl urlPrefix raw rom maxLen = some url)
    (hw : ∀ c ∈ ws, pyIsSpace c = true) (hf : Text (url ++ ws) bs) :
    auto bs = ⟨.url, url⟩ ∧ (13 ∉ ws → explicit .url bs = some (auto bs)) := by
  have hplain : ∀ c ∈ url, pyIsSpace c = false := by
    unfold writeUrl at h
    split at h
    · cases h
    · split at h
      · rw [← Option.some.inj h]
        exact urlText_plain (by decide) (urlGfx_plain _)
      · cases h
  have hpre : urlPrefix <+: url := by
    unfold writeUrl at h
    split at h
    · cases h
    · split at h
      · rw [← Option.some.inj h]
        exact ⟨[47, 63, 99, 61] ++ b64Encode raw ++ (if urlGfx _ = [] then [] else [38, 103, 61] ++ urlGfx _), by
          unfold urlText; simp only [List.append_assoc]; rfl⟩
      · cases h
  have hlast : ∀ c, url.getLast? = some c → pyIsSpace c = false := fun c hc => hplain c (List.mem_of_getLast? hc)
  have hn : 13 ∉ url := fun h => absurd (hplain 13 h) (by decide)
  have e : auto bs = ⟨.url, url⟩ := by
    rw [auto_text hf, autoText]
    obtain ⟨r, hr⟩ := hpre
    have p0 : ∀ p : List Nat, p.head? ≠ some 104 → p ≠ [] → p.isPrefixOf (url ++ ws) = false := by
      intro p hp hne
      cases p with
      | nil => exact absurd rfl hne
      | cons a p =>
        have : (a == 104) = false := by simpa using hp
        simp [← hr, urlPrefix, List.isPrefixOf, this]
    rw [p0 sP8Prefix (by decide) (by decide), p0 (headerLine sLua) (by decide) (by decide), p0 clipPrefix (by decide) (by decide)]
    have : urlPrefix.isPrefixOf (url ++ ws) = true := by
      rw [List.isPrefixOf_iff_prefix]; exact ⟨r ++ ws, by rw [← List.append_assoc, hr]⟩
    rw [this, rstrip_append hlast hw]
    rfl
  refine ⟨e, fun hcr => ?_⟩
  rw [e]
  unfold explicit
  simp only
  rw [readText_text hf, univNl_id (by simp [hn, hcr])]
  simp only [Option.map_some]
  rw [rstrip_append hlast hw]

/-! ### Cases and counterexamples -/

/-- ASCII text is its own file. -/
theorem text_ascii {t : List Nat} (h : ∀ c ∈ t, c < 0x80) : Text t t := by
  induction t with
  | nil => exact .nil
  | cons c t ih => exact .cons (.one (h c (by simp))) (ih fun x hx => h x (List.mem_cons_of_mem _ hx))

example : ∃ text bs, writeSource false (fun s => s == sLua) (codeCart [120] []) = some text ∧ Text text bs ∧ text.length = 63 := by
  have h : (writeSource false (fun s => s == sLua) (codeCart [120] [])).isSome = true ∧
      ∀ t, writeSource false (fun s => s == sLua) (codeCart [120] []) = some t → (∀ c ∈ t, c < 0x80) ∧ t.length = 63 := by
    have : (writeSource false (fun s => s == sLua) (codeCart [120] [])).any (fun t => (t.all fun c => decide (c < 0x80)) && t.length == 63) = true := by
      decide +kernel
    cases hw : writeSource false (fun s => s == sLua) (codeCart [120] []) with
    | none => rw [hw] at this; cases this
    | some t =>
      rw [hw] at this
      refine ⟨rfl, fun t' e => ?_⟩
      cases e
      simpa using this
  obtain ⟨text, ht⟩ := Option.isSome_iff_exists.1 h.1
  exact ⟨text, text, ht, text_ascii (h.2 text ht).1, (h.2 text ht).2⟩

/-- Clipboard text with a line end after it. -/
example : Text (writeClip [0x89, 0x50] ++ [10]) (writeClip [0x89, 0x50] ++ [10]) ∧ auto (writeClip [0x89, 0x50] ++ [10]) = ⟨.clip, writeClip [0x89, 0x50]⟩ := by
  have h : Text (writeClip [0x89, 0x50] ++ [10]) (writeClip [0x89, 0x50] ++ [10]) := text_ascii (by decide)
  exact ⟨h, (C82_clip (by decide) (by decide) h).1⟩

/-- Code with a character that is no ASCII. -/
example : Text [120, 61, 0x25cb] [120, 61, 0xe2, 0x97, 0x8b] ∧ auto [120, 61, 0xe2, 0x97, 0x8b] = ⟨.raw, [120, 61, 0x25cb]⟩ := by
  refine ⟨(C82_written (by decide) _).1 (by decide), by decide⟩

/-- Code that is saved with its header. -/
example : auto [95, 95, 108, 117, 97, 95, 95, 10, 120] = ⟨.source, writeRaw true false [120]⟩ := by decide +kernel

/-- **C82 (plain code)** is not recognised if it begins with a variable named `__lua__`: the code `__lua__=1` is then lost (with the format
given it is not). -/
theorem C82_lua_counterexample : (runSource 41 (auto [95, 95, 108, 117, 97, 95, 95, 61, 49])).map (·.code) = some [] ∧
    ((explicit .lua [95, 95, 108, 117, 97, 95, 95, 61, 49]).bind (runSource 41)).map (·.code) = some [95, 95, 108, 117, 97, 95, 95, 61, 49] := by
  decide +kernel

/-- **C82 (line ends)**: a carriage return alone ends a line of code if the format is given, but not if it is recognised. -/
theorem C82_cr_counterexample :
    (runSource 41 (auto ([95, 95, 108, 117, 97, 95, 95, 10, 120, 13, 121]))).map (·.code) = some [120, 13, 121] ∧
    ((explicit .p8 [95, 95, 108, 117, 97, 95, 95, 10, 120, 13, 121]).bind (runSource 41)).map (·.code) = some [120, 10, 121] := by
  decide +kernel

/-- **C82 (code with header)** loses a line end at the end of the code. -/
theorem C82_final_newline_counterexample : (runSource 41 (auto (writeRaw true false [120, 10]))).map (·.code) = some [120] := by decide +kernel

/-- A cart that was read from a file whose metadata is not UTF-8 cannot be saved again as text. -/
theorem C82_not_utf8_counterexample :
    let file := sP8Prefix ++ [10] ++ headerLine (sMeta ++ [97]) ++ [10, 0xff, 10]
    (runSource 41 (auto file)).map (·.metas) = some [([97], [[0xdcff]])] ∧
    (((runSource 41 (auto file)).bind (writeSource false fun s => s.take 5 == sMeta)).map writeText) = some none := by
  decide +kernel

end Verif.Auto
