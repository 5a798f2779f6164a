import Verif.CartTitleLemmas
import Verif.Props.P8Source
/-! C81: the title of a cart stays when its code is replaced. -/
namespace Verif.CartTitle

open TitleSpec

/-- **C81 (title of code).** The title of a cart without a title of its own is that of its code. -/
theorem C81_code_title {c : SCart} (h : c.metas.lookup sTitle = none) (t : List Nat) : title c = some t ↔ CodeTitle c.code t := by
  unfold title
  rw [h, codeTitle_iff]
  exact Option.some_inj

/-- `--  demo`, `by me` with and without a comment, and code below. -/
example : CodeTitle ([45, 45, 32] ++ [32, 100] ++ 10 :: ([45, 45] ++ [98]) ++ 10 :: [120]) ([32, 100] ++ 10 :: [98]) :=
  .more _ _ _ (by decide) (.two _ _ _ _ (by decide) (by decide) (.spaced _) (.tight _ (by decide)) (by decide))

/-- The first two lines without a comment: no title. -/
example : CodeTitle ([120] ++ 10 :: [121]) [] := .first _ _ _ (by decide) (by decide) (.code _ (by decide)) (.code _ (by decide))

/-- **C81 (kept).** When the code of a cart is replaced (as minifying does), the cart has the new code, and the same title as before,
and nothing else of it changes.  A title of its own is kept whatever it is; a title from the code if it has no carriage return. -/
theorem C81_kept {c : SCart} {t : List Nat} (hc : ∀ x ∈ c.code, x < 256) (ht : title c = some t)
    (hcr : c.metas.lookup sTitle = none → 13 ∉ t) (code : List Nat) :
    ∃ c', setCode c code = some c' ∧ title c' = some t ∧ c'.code = code ∧ c'.codeLine = c.codeLine ∧ c'.rom = c.rom ∧
      c'.label = c.label ∧ c'.versionId = c.versionId ∧ c'.defaultVersion = c.defaultVersion ∧
      (∀ n, n ≠ sTitle → c'.metas.lookup n = c.metas.lookup n) ∧ (c'.metas.lookup sTitle = none → c.metas.lookup sTitle = none) := by
  unfold setCode
  rw [ht]
  cases hm : c.metas.lookup sTitle with
  | some ls =>
    have e : title { c with code := code } = some t := by
      rw [← ht]; unfold title; simp only [hm]
    rw [e]
    refine ⟨{ c with code := code }, by simp, e, rfl, rfl, rfl, rfl, rfl, rfl, fun _ _ => rfl, fun h => ?_⟩
    rw [← hm]; exact h
  | none =>
    have e : title { c with code := code } = some (codeTitle code) := by unfold title; simp only [hm]
    have e0 : codeTitle c.code = t := by unfold title at ht; rw [hm] at ht; exact Option.some.inj ht
    rw [e]
    by_cases h : t = codeTitle code
    · refine ⟨{ c with code := code }, by simp [h], by rw [e, h], rfl, rfl, rfl, rfl, rfl, rfl, fun _ _ => rfl, fun _ => rfl⟩
    · refine ⟨setTitle { c with code := code } t, by simp [h], ?_, rfl, rfl, rfl, rfl, rfl, rfl, fun n hn => ?_, fun _ => rfl⟩
      · unfold setTitle
        rw [title_setRaw]
        subst e0
        refine title_lines (fun x hx => ?_) (hcr hm) (codeTitle_last _)
        rcases codeTitle_mem hx with h | h
        · exact hc x h
        · omega
      · show List.lookup n (setMeta _ _ _) = _
        rw [lookup_setMeta, if_neg hn]

/-- Several replacements, one after the other. -/
def setCodes (c : SCart) : List (List Nat) → Option SCart
  | [] => some c
  | code :: rest => (setCode c code).bind fun c => setCodes c rest

/-- **C81 (kept).** The same after any number of replacements. -/
theorem C81_kept_always {t : List Nat} (codes : List (List Nat)) : ∀ {c : SCart}, (∀ x ∈ c.code, x < 256) → (∀ code ∈ codes, ∀ x ∈ code, x < 256) →
    title c = some t → (c.metas.lookup sTitle = none → 13 ∉ t) →
    ∃ c', setCodes c codes = some c' ∧ title c' = some t ∧ c'.code = (codes.getLast?).getD c.code := by
  induction codes with
  | nil => intro c _ _ h2 _; exact ⟨c, rfl, h2, rfl⟩
  | cons code codes ih =>
    intro c h1 h3 h2 h4
    obtain ⟨c1, e1, t1, k1, -, -, -, -, -, -, m1⟩ := C81_kept h1 h2 h4 code
    obtain ⟨c2, e2, t2, k2⟩ := ih (c := c1) (by rw [k1]; exact h3 code (by simp)) (fun x hx => h3 x (List.mem_cons_of_mem _ hx)) t1
      fun h => h4 (m1 h)
    refine ⟨c2, by rw [setCodes, e1]; exact e2, t2, ?_⟩
    rw [k2, k1]
    cases codes with
    | nil => rfl
    | cons d ds => rw [List.getLast?_cons_cons, List.getLast?_cons]; rfl

/-- **C81 (nothing added).** Code with the same title leaves the metadata as it was. -/
theorem C81_nothing_added {c : SCart} {t : List Nat} (ht : title c = some t) (code : List Nat) (h : CodeTitle code t) :
    setCode c code = some { c with code := code } := by
  have e : title { c with code := code } = some t := by
    cases hm : c.metas.lookup sTitle with
    | none => rw [C81_code_title (by exact hm)]; exact h
    | some ls => rw [← ht]; unfold title; simp only [hm]
  unfold setCode
  rw [ht, e]
  simp

/-- **C81 (given).** A title that is asked for is the one shown, now and after any change of code. -/
theorem C81_given (c : SCart) {ls ps : List (List Nat)} (h : ls.mapM toP8str = some ps) (code : List Nat) :
    title (setRawTitle c ls) = some (joinNl ps) ∧ setCode (setRawTitle c ls) code = some { setRawTitle c ls with code := code } ∧
      title { setRawTitle c ls with code := code } = some (joinNl ps) := by
  have e : title (setRawTitle c ls) = some (joinNl ps) := by rw [title_setRaw, h]; rfl
  have e2 : title { setRawTitle c ls with code := code } = some (joinNl ps) := by
    rw [← e]; unfold title setRawTitle; simp only [lookup_setMeta, if_true]
  refine ⟨e, ?_, e2⟩
  unfold setCode
  rw [e, e2]
  simp

theorem setMeta_absent {name : List Nat} {ls : List (List Nat)} {ms : List (List Nat × List (List Nat))} (h : ms.lookup name = none) :
    setMeta name ls ms = ms ++ [(name, ls)] := by
  induction ms with
  | nil => rfl
  | cons m ms ih =>
    obtain ⟨k, old⟩ := m
    unfold setMeta
    by_cases hk : k = name
    · subst hk; simp [List.lookup] at h
    · have hb : (name == k) = false := by simpa using fun e => hk e.symm
      rw [if_neg hk, ih (by simpa [List.lookup, hb] using h)]; rfl

theorem absent_keys {name : List Nat} {ms : List (List Nat × List (List Nat))} (h : ms.lookup name = none) : name ∉ ms.map (·.1) := by
  induction ms with
  | nil => simp
  | cons m ms ih =>
    obtain ⟨k, old⟩ := m
    by_cases hk : name = k
    · subst hk; simp [List.lookup] at h
    · have hb : (name == k) = false := by simpa using hk
      simp only [List.map_cons, List.mem_cons, not_or]
      exact ⟨hk, ih (by simpa [List.lookup, hb] using h)⟩

/-- A cart whose code was replaced can be saved. -/
theorem setCode_ok {c : SCart} (hok : SourceOk c) {t code : List Nat} (ht : title c = some t)
    (hold : c.metas.lookup sTitle = none → 13 ∉ t ∧ (title { c with code := code } ≠ some t → t ≠ [] ∧ ∀ l ∈ splitNl t, ¬ LooksLikeHeader l))
    (hcode : CodeOk code) (hb : ∀ x ∈ code, x < 256) {c' : SCart} (e : setCode c code = some c') : SourceOk c' := by
  obtain ⟨d, e', t', k, _, hrom, hlabel, -⟩ := C81_kept hok.chars ht (fun h => (hold h).1) code
  rw [e] at e'
  cases e'
  have hmetas : MetasOk c'.metas := by
    unfold setCode at e
    rw [ht] at e
    cases hm : c.metas.lookup sTitle with
    | some ls =>
      have e1 : title { c with code := code } = some t := by
        rw [← ht]; unfold title; simp only [hm]
      rw [e1] at e
      simp at e
      rw [← e]
      exact hok.metas
    | none =>
      have e1 : title { c with code := code } = some (codeTitle code) := by unfold title; simp only [hm]
      rw [e1] at e
      by_cases h : t = codeTitle code
      · simp [h] at e
        rw [← e]
        exact hok.metas
      · simp [h] at e
        rw [← e]
        obtain ⟨hcr, hq⟩ := hold hm
        obtain ⟨hne, hh⟩ := hq (by rw [e1]; exact fun e => h (Option.some.inj e).symm)
        have e0 : codeTitle c.code = t := by unfold title at ht; rw [hm] at ht; exact Option.some.inj ht
        have htb : ∀ x ∈ t, x < 256 := by
          intro x hx
          subst e0
          rcases codeTitle_mem hx with h | h
          · exact hok.chars x h
          · omega
        have hlines := title_split htb hcr (e0 ▸ codeTitle_last _) hne
        show MetasOk (setMeta sTitle (splitLines (fromP8str false t)) c.metas)
        rw [setMeta_absent hm, hlines]
        refine ⟨?_, ?_⟩
        · rw [List.map_append, List.nodup_append]
          refine ⟨hok.metas.1, by simp, ?_⟩
          intro a ha b hb
          simp at hb
          subst hb
          rintro rfl
          exact absent_keys hm ha
        · intro m hm
          rcases List.mem_append.1 hm with hm | hm
          · exact hok.metas.2 m hm
          · simp at hm
            subst hm
            refine ⟨(by decide : 10 ∉ sTitle), by simpa using splitNl_ne_nil t, ?_⟩
            intro l hl
            obtain ⟨l', hl', rfl⟩ := List.mem_map.1 hl
            have hb' : ∀ x ∈ l', x < 256 := fun x hx => htb x (splitNl_mem hl' hx)
            have hn := splitNl_no_nl t l' hl'
            have hnb := fromP8_no_break (l := l') fun x hx => ⟨hb' x hx, fun e => hn (e ▸ hx), fun e => hcr (e ▸ splitNl_mem hl' hx)⟩
            refine ⟨fun h => absurd (hnb 10 h) (by decide), fun h => absurd (hnb 13 (List.mem_of_getLast? h)) (by decide), ?_⟩
            cases hq : isHeaderLine (fromP8str false l') with
            | false => rfl
            | true => exact absurd (isHeaderLine_fromP8 hb' hn hq) (hh l' hl')
  exact ⟨hrom ▸ hok.mem, hrom ▸ hok.size, hlabel ▸ hok.label, k ▸ hb, k ▸ hcode, hmetas⟩

/-- **C81 (saved).** Nor does the title change when the cart with the new code is saved as `.p8` and loaded again, provided that,
if the new code alone would not give this title, the title is not empty and none of its lines looks like the header of a section. -/
theorem C81_saved {c : SCart} (hok : SourceOk c) {t code : List Nat} (ht : title c = some t)
    (hold : c.metas.lookup sTitle = none → 13 ∉ t ∧ (title { c with code := code } ≠ some t → t ≠ [] ∧ ∀ l ∈ splitNl t, ¬ LooksLikeHeader l))
    (hcode : CodeOk code) (hb : ∀ x ∈ code, x < 256) (unicaps : Bool) (defVersion : Nat) :
    ∃ c' text c'', setCode c code = some c' ∧ writeSource unicaps (fun _ => true) c' = some text ∧
      readSource defVersion false text = some c'' ∧ c''.code = code ∧ title c'' = some t := by
  obtain ⟨c', e, t', k, -⟩ := C81_kept hok.chars ht (fun h => (hold h).1) code
  have hok' : SourceOk c' := setCode_ok hok ht hold hcode hb e
  obtain ⟨text, c'', h1, h2, h3, -, -, h4⟩ := C14_source_roundtrip hok' unicaps defVersion
  refine ⟨c', text, c'', e, h1, h2, by rw [h3, k], ?_⟩
  rw [← t']
  unfold title
  rw [h3, h4]

/-- A cart with a title in its code: `-- de`, `--by`. -/
def demo : SCart := codeCart [45, 45, 32, 100, 101, 10, 45, 45, 98, 121, 10, 120, 61, 49] []

/-- Its code without comments: the title is kept, in the metadata. -/
example : title demo = some [100, 101, 10, 98, 121] ∧
    (setCode demo [120, 61, 49]).map (fun c => (title c, c.metas)) = some (some [100, 101, 10, 98, 121], [(sTitle, [[100, 101], [98, 121]])]) := by
  decide +kernel

theorem demo_ok : SourceOk demo where
  mem := by simp only [demo, codeCart]; exact createRom_ok.1
  size := by simp only [demo, codeCart]; exact createRom_ok.2
  label := by intro L h; simp [demo, codeCart] at h
  chars := by decide
  code := by
    have hs : splitNl demo.code = [[45, 45, 32, 100, 101], [45, 45, 98, 121], [120, 61, 49]] := by decide
    unfold CodeOk
    rw [hs]
    intro l hl
    simp only [List.mem_cons, List.not_mem_nil, or_false] at hl
    rcases hl with rfl | rfl | rfl <;> exact ⟨fun h => absurd h.1 (by decide), by decide⟩
  metas := ⟨by simp [demo, codeCart], fun m hm => by simp [demo, codeCart] at hm⟩

example : ∃ c' text c'', setCode demo [120, 61, 49] = some c' ∧ writeSource false (fun _ => true) c' = some text ∧
    readSource 41 false text = some c'' ∧ c''.code = [120, 61, 49] ∧ title c'' = some [100, 101, 10, 98, 121] := by
  have ht : title demo = some [100, 101, 10, 98, 121] := by decide +kernel
  refine C81_saved demo_ok ht (fun _ => ⟨by decide, fun _ => ⟨by decide, ?_⟩⟩) (code := [120, 61, 49]) ?_ (by decide) false 41
  · have hs : splitNl [100, 101, 10, 98, 121] = [[100, 101], [98, 121]] := by decide
    rw [hs]
    intro l hl
    simp only [List.mem_cons, List.not_mem_nil, or_false] at hl
    rcases hl with rfl | rfl <;> exact fun h => absurd h.1 (by decide)
  · have hs : splitNl [120, 61, 49] = [[120, 61, 49]] := by decide
    unfold CodeOk
    rw [hs]
    intro l hl
    simp only [List.mem_cons, List.not_mem_nil, or_false] at hl
    subst hl
    exact ⟨fun h => absurd h.1 (by decide), by decide⟩

/-- **C81 (carriage returns)** does not hold for a title with carriage returns, as code with CRLF line ends has it in a cart that is not
read from `.p8` text: the title `a\r\nb\r` becomes `a\nb`. -/
theorem C81_cr_counterexample :
    title (codeCart [45, 45, 97, 13, 10, 45, 45, 98, 13, 10] []) = some [97, 13, 10, 98, 13] ∧
    ((setCode (codeCart [45, 45, 97, 13, 10, 45, 45, 98, 13, 10] []) [120]).bind title) = some [97, 10, 98] := by
  decide +kernel

/-- The titles of a cart with some code: at first, after the code is replaced, and after saving (code and metadata only) and loading. -/
def titles (code new : List Nat) : List (Option (List Nat)) :=
  [title (codeCart code []), (setCode (codeCart code []) new).bind title,
    (((setCode (codeCart code []) new).bind (writeSource false (fun s => s == sLua || s.take 5 == sMeta))).bind (readSource 41 false)).bind title]

example : titles [45, 45, 97] [120] = [some [97], some [97], some [97]] := by decide +kernel

/-- **C81 (saved)** does not hold for a title that looks like the header of a section (code starting with `--__g__`): it is kept in
memory but saved as a header, so that the loaded cart has an empty title. -/
theorem C81_header_counterexample :
    titles [45, 45, 95, 95, 103, 95, 95] [120] = [some [95, 95, 103, 95, 95], some [95, 95, 103, 95, 95], some []] := by
  decide +kernel

/-- **C81 (saved)** does not hold for an empty title either: code without a title that is replaced by code starting with a comment. The
empty title is kept in memory, but nothing of it is saved, so that the loaded cart shows the comment. -/
theorem C81_empty_counterexample : titles [120] [45, 45, 120] = [some [], some [], some [120]] := by
  decide +kernel

end Verif.CartTitle
