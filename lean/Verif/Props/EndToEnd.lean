import Verif.EndToEnd
import Verif.Props.AutoDetect
import Verif.Props.CartTitle
import Verif.Props.MergeTree
import Verif.Props.Rom
/-! C84: a cart that is loaded, minified and saved is the same cart, and does the same. -/
namespace Verif.EndToEnd
open Verif.Auto Verif.CartTitle
open Verif.Elab
open Syntax
open Core (World V Act R play NoBareBl)
open Mini
open Resolve (Setting NewNames programOf renamed Renames)
open Mt (mergeTree mergeOf QuietB)

/-- What does not depend on the code of a cart: the memory, the label (one that is all black is as good as none), the version, the title, and
the rest of the metadata. -/
structure SameButCode (c c' : SCart) : Prop where
  rom : c'.rom = c.rom
  label : c'.label = c.label ∨ (c'.label = none ∧ ∀ x ∈ c.label.getD [], x = 0)
  version : c'.versionId = c.versionId
  title : CartTitle.title c' = CartTitle.title c
  metas : ∀ n, n ≠ sTitle → c'.metas.lookup n = c.metas.lookup n

/-- The title of the cart can be stored beside the new code (see C81). -/
def TitleFits (c : SCart) (code : List Nat) : Prop :=
  ∃ t, title c = some t ∧ (c.metas.lookup sTitle = none →
    13 ∉ t ∧ (title { c with code := code } ≠ some t → t ≠ [] ∧ ∀ l ∈ splitNl t, ¬ LooksLikeHeader l))

/-- What the cart is that is saved. -/
theorem shrinkFile_eq {f : List Nat → Option (List Nat)} {unicaps : Bool} {version : Nat} {bs text : List Nat} (h : shrinkFile f unicaps version bs = some text) :
    ∃ c code c', runSource version (auto bs) = some c ∧ f c.code = some code ∧ setCode c code = some c' ∧ writeSource unicaps (fun _ => true) c' = some text := by
  unfold shrinkFile at h
  split at h
  · cases h
  · next c hc =>
    split at h
    · cases h
    · next code hcode =>
      split at h
      · cases h
      · next c' hc' => exact ⟨c, code, c', hc, hcode, hc', h⟩

/-- **C84 (data).** When a `.p8` file is loaded, its code is replaced, and the cart is saved as `.p8`, then loading that file gives a cart with the new code in
which nothing else has changed. -/
theorem C84_data {f : List Nat → Option (List Nat)} {unicaps : Bool} {version : Nat} {bs text bs' code : List Nat} {c : SCart}
    (hr : runSource version (auto bs) = some c) (hok : SourceOk c) (hf : f c.code = some code) (ht : TitleFits c code)
    (hcode : CodeOk code) (hb : ∀ x ∈ code, x < 256) (h : shrinkFile f unicaps version bs = some text)
    (hbs : Utf8Spec.Text text bs') (version' : Nat) :
    ∃ c', runSource version' (auto bs') = some c' ∧ c'.code = code ∧ SameButCode c c' := by
  obtain ⟨c0, code0, d, h1, h2, h3, h4⟩ := shrinkFile_eq h
  rw [hr] at h1
  cases h1
  rw [hf] at h2
  cases h2
  obtain ⟨t, ht, hold⟩ := ht
  obtain ⟨d', e, et, ec, -, er, el, ev, -, em, -⟩ := C81_kept hok.chars ht (fun h => (hold h).1) code
  rw [h3] at e
  cases e
  have hd := setCode_ok hok ht hold hcode hb h3
  obtain ⟨-, c', e1, R⟩ := C82_p8 hd unicaps _ h4 hbs version'
  have hm : c'.metas = d.metas := by rw [R.metas]; simp
  have hc : c'.code = d.code := by rw [R.code]; simp
  refine ⟨c', e1, by rw [hc, ec], ?_, ?_, by rw [R.version.1, ev], ?_, fun n hn => by rw [hm, em n hn]⟩
  · rw [← er]
    apply List.ext_getElem?
    intro a
    have := R.rom a
    simpa [get8] using this
  · have := R.label
    rw [el] at this
    by_cases hz : (c.label.getD []).any (· ≠ 0) = true
    · rw [hz] at this
      exact .inl (by simpa using this)
    · refine .inr ⟨by rw [this, if_neg (by rw [Bool.true_and]; exact hz)], ?_⟩
      intro x hx
      by_cases h0 : x = 0
      · exact h0
      · exact absurd (List.any_eq_true.2 ⟨x, hx, by simpa using h0⟩) hz
  · rw [ht, ← et]
    unfold CartTitle.title
    rw [hm, hc]

/-- **C84 (saved).** The cart can always be saved. -/
theorem C84_saved {f : List Nat → Option (List Nat)} (unicaps : Bool) {version : Nat} {bs code : List Nat} {c : SCart}
    (hr : runSource version (auto bs) = some c) (hok : SourceOk c) (hf : f c.code = some code) (ht : TitleFits c code)
    (hcode : CodeOk code) (hb : ∀ x ∈ code, x < 256) : ∃ text, shrinkFile f unicaps version bs = some text := by
  obtain ⟨t, ht, hold⟩ := ht
  obtain ⟨d, e, -⟩ := C81_kept hok.chars ht (fun h => (hold h).1) code
  obtain ⟨text, -, h, -⟩ := C14_source_roundtrip (setCode_ok hok ht hold hcode hb e) unicaps version
  refine ⟨text, ?_⟩
  unfold shrinkFile
  simp only [hr, hf, e, h]

/-- **C84 (minified).** A `.p8` file whose code is minified (see C66, C76) is loaded as a cart that differs only in its code, and whose code does the same. -/
theorem C84_minified {f : List Nat → Option (List Nat)} {unicaps : Bool} {version : Nat} {bs text bs' : List Nat} {c : SCart}
    (hl : runSource version (auto bs) = some c) (hok : SourceOk c)
    {isDig : Nat → Bool} (hd : AsciiDig isDig) (v37 v40 v42 tokens chars : Bool) (O : Sh) {n : Nat} {b : Block}
    (h : parseText .pico8 n c.code = some b) (htd : Tidy.Tidy .pico8 b) (ha : Apt O .pico8 b) (hs : Strings isDig chars v40 c.code)
    {srcs : Nat → List Nat} {ts : List OTok} (hr : Renders true srcs (prB (thenTok .pico8 v42) false (shorten O (pico isDig v37 v40 tokens chars) b)) ts)
    (hf : f c.code = some (outputTokens true true ts)) (ht : TitleFits c (outputTokens true true ts)) (hcode : CodeOk (outputTokens true true ts))
    (hb : ∀ x ∈ outputTokens true true ts, x < 256) (hsh : shrinkFile f unicaps version bs = some text) (hbs : Utf8Spec.Text text bs') (version' : Nat) :
    ∃ c' b' m, runSource version' (auto bs') = some c' ∧ SameButCode c c' ∧ (∀ k, m ≤ k → parseText .pico8 k c'.code = some b') ∧
      ∀ (enc : Prim → Nat) (builtin : Nm → Option Builtin) (lb : List Nm) {H : Type} {w : World H} {arith : Bool}, w.Ok .pico8 arith →
        ∀ (n : Nat) (va : List Core.V) (drive : List Core.V → H → Act H) (hp : H),
          (play w .pico8 n va drive (program (picoSem enc (lb.length + 1) builtin) lb b') hp).seen =
            (play w .pico8 n va drive (program (picoSem enc (lb.length + 1) builtin) lb b) hp).seen := by
  obtain ⟨c', h1, h2, h3⟩ := C84_data hl hok hf ht hcode hb hsh hbs version'
  obtain ⟨m, b', h4, h5⟩ := C76_pico8_text hd v37 v40 v42 tokens chars O hok.chars h htd ha hs hr
  exact ⟨c', b', m, h1, h3, by rw [h2]; exact h4, h5⟩

/-- **C84 (everything).** The same when variables are renamed and declarations are merged as well (see C80): every global and every key then has its new
name. -/
theorem C84_renamed_partial {f : List Nat → Option (List Nat)} {unicaps : Bool} {version : Nat} {bs text bs' : List Nat} {c : SCart}
    (hl : runSource version (auto bs) = some c) (hok : SourceOk c)
    {isDig : Nat → Bool} (hd : AsciiDig isDig) (v37 v40 v42 tokens chars : Bool) (O : Sh) {n : Nat} {b : Block}
    (h : parseText .pico8 n c.code = some b) (htd : Tidy.Tidy .pico8 b) (hs : Strings isDig chars v40 c.code)
    {k : Resolve.Keep} {lb bg bm : List Nm} {r : List (RVar × Nm)} (hk : Setting k lb b bg) (hn : Renames (programOf true k lb b) bg bm r)
    (hp : (LuaScope.program lb b).all plainOcc = true)
    (ha : Apt O .pico8 (renamed k (programOf true k lb b) r lb b)) (enc : Prim → Nat) {builtin : Nm → Option Builtin}
    (hbi : ∀ x f, builtin x = some f → k.globals x = true ∧ x ∈ bg) (hint : List Nat → Bool) {M : Block}
    (hM : M = shorten O (pico isDig v37 v40 tokens chars) (renamed k (programOf true k lb b) r lb b))
    (hbare : NoBareBl (program (picoSem enc (lb.length + 1) builtin) lb M) = true) (hq : QuietB M) {srcs : Nat → List Nat} {ts : List OTok}
    (hr : Renders true srcs (prB (thenTok .pico8 v42) false (mergeTree (picoSem enc (lb.length + 1) builtin) (mergeOf lb M hint) lb M)) ts)
    (hf : f c.code = some (outputTokens true true ts)) (ht : TitleFits c (outputTokens true true ts)) (hcode : CodeOk (outputTokens true true ts))
    (hb : ∀ x ∈ outputTokens true true ts, x < 256) (hsh : shrinkFile f unicaps version bs = some text) (hbs : Utf8Spec.Text text bs') (version' : Nat) :
    ∃ (c' : SCart) (b' : Block) (m : Nat) (ρ μ : Nm → Nm), runSource version' (auto bs') = some c' ∧ SameButCode c c' ∧
      (∀ k, m ≤ k → parseText .pico8 k c'.code = some b') ∧ NewNames k lb b bg bm ρ μ ∧
      ∀ {H : Type} {w : World H} {arith : Bool}, w.Ok .pico8 arith → ∀ (n : Nat) (va : List Core.V) (drive : List Core.V → H → Act H) (hp : H),
        (play w .pico8 n va drive (program (picoSem enc (lb.length + 1) builtin) lb b') hp).seen =
          (play w .pico8 n va drive (program (picoSem (fun p => enc (p.map ρ μ)) (lb.length + 1) builtin) lb b) hp).seen := by
  obtain ⟨c', h1, h2, h3⟩ := C84_data hl hok hf ht hcode hb hsh hbs version'
  obtain ⟨b', m, ρ, μ, h4, h5, h6⟩ := C80_renamed_partial hd v37 v40 v42 tokens chars O hok.chars h htd hs hk hn hp ha enc hbi hint hM hbare hq hr
  exact ⟨c', b', m, ρ, μ, h1, h3, by rw [h2]; exact h4, h5, h6⟩

/-- **C84 (ROM).** A cart whose code is replaced and that is saved as a ROM is loaded again with the new code and the same
memory; `p` is the cart as `write_cart_to_rom` sees it. -/
theorem C84_rom {sha : List Nat → List Nat} (hsha : ∀ l, (sha l).length = 20) {code img : List Nat} {c d : SCart} (hok : SourceOk c)
    (ht : ∃ t, title c = some t ∧ 13 ∉ t) (hset : setCode c code = some d)
    (hb : ∀ x ∈ code, x < 256) {p : PCart} (hp : p.rom = d.rom ∧ p.code = d.code ∧ p.versionId = d.versionId)
    (h : writeRom sha (compressFull true true false true) true false p = some img) (base : PCart) :
    ∃ q, readRom sha base false false img = some q ∧ q.rom = c.rom ∧ q.code = code ∧ q.versionId = c.versionId := by
  obtain ⟨t, ht, hcr⟩ := ht
  obtain ⟨d', e, -, ec, -, er, -, ev, -⟩ := C81_kept hok.chars ht (fun _ => hcr) code
  rw [hset] at e
  cases e
  obtain ⟨h1, h2, h3⟩ := hp
  refine ⟨_, (C09_rom_roundtrip_fast hsha (by rw [h1, er]; exact hok.size) (by rw [h2, ec]; exact hb) h base).2, ?_, ?_, ?_⟩
  · show p.rom = c.rom
    rw [h1, er]
  · show p.code = code
    rw [h2, ec]
  · show p.versionId = c.versionId
    rw [h3, ev]

/-! ### Cases and counterexamples -/

/-- The bytes of a `.p8` file with only code. -/
def fileOf (code : List Nat) : Option (List Nat) := writeSource false (fun s => s == sLua) (codeCart code [])

theorem codeCart_ok {code : List Nat} (hb : ∀ x ∈ code, x < 256) (hc : CodeOk code) : SourceOk (codeCart code []) where
  mem := by simp only [codeCart]; exact createRom_ok.1
  size := by simp only [codeCart]; exact createRom_ok.2
  label := by intro L h; simp [codeCart] at h
  chars := by simpa [codeCart] using hb
  code := by simpa [codeCart] using hc
  metas := ⟨by simp [codeCart], fun m hm => by simp [codeCart] at hm⟩

/-- Such a file is loaded as a cart that can be saved. -/
theorem fileOf_loaded {code bs : List Nat} (hb : ∀ x ∈ code, x < 256) (hc : CodeOk code) (h : fileOf code = some bs) (ha : ∀ x ∈ bs, x < 0x80) (version : Nat) :
    ∃ c, runSource version (auto bs) = some c ∧ SourceOk c ∧ c.code = code ∧ c.metas = [] := by
  obtain ⟨-, c, e, R⟩ := C82_p8 (codeCart_ok hb hc) false _ h (text_ascii ha) version
  have hrom : c.rom = createRom := by
    apply List.ext_getElem?
    intro a
    have h1 := R.rom a
    have h2 := createRom_spec a
    simp only [get8] at h1 h2
    rw [h1]
    split
    · simp only [codeCart]
    · exact h2.symm
  have hm : c.metas = [] := by rw [R.metas]; rfl
  have hcode : c.code = code := by rw [R.code]; rfl
  have hlab : c.label = none := by rw [R.label]; rfl
  refine ⟨c, e, ⟨?_, ?_, ?_, ?_, ?_, ?_⟩, hcode, hm⟩
  · rw [hrom]; exact createRom_ok.1
  · rw [hrom]; exact createRom_ok.2
  · rw [hlab]; intro L h; cases h
  · rw [hcode]; exact hb
  · rw [hcode]; exact hc
  · rw [hm]; exact ⟨by simp, fun m hm => by simp at hm⟩

/-- What `mergeText` is minified to. -/
def mergedText : List Nat := codes "local x,y=1?x,y"

theorem oneLine {l : List Nat} (hs : splitNl l = [l]) (h : ¬ [95, 95] <+: l) (hcr : l.getLast? ≠ some 13) : CodeOk l := by
  intro l' hl
  rw [hs] at hl
  simp only [List.mem_cons, List.not_mem_nil, or_false] at hl
  subst hl
  exact ⟨fun h' => h h'.1, hcr⟩

/-- A file with `mergeText` meets all assumptions (those about the code are shown beside C80). -/
example : ∃ bs c text, fileOf mergeText = some bs ∧ runSource 41 (auto bs) = some c ∧ SourceOk c ∧ c.code = mergeText ∧ TitleFits c mergedText ∧
    CodeOk mergedText ∧ (∀ x ∈ mergedText, x < 256) ∧ shrinkFile (fun _ => some mergedText) false 41 bs = some text := by
  have h : (fileOf mergeText).any (fun t => t.all fun c => decide (c < 0x80)) = true := by decide +kernel
  rw [Option.any_eq_true] at h
  obtain ⟨bs, hbs, ha⟩ := h
  obtain ⟨c, h1, h2, h3, h4⟩ := fileOf_loaded (by decide +kernel) (oneLine (by decide +kernel) (by decide +kernel) (by decide +kernel)) hbs
    (by simpa using ha) 41
  have ho : CodeOk mergedText := oneLine (by decide +kernel) (by decide +kernel) (by decide +kernel)
  have hb : ∀ x ∈ mergedText, x < 256 := by decide +kernel
  have ht : TitleFits c mergedText := by
    refine ⟨[], ?_, fun _ => ⟨by simp, fun hn => absurd ?_ hn⟩⟩
    · unfold title
      rw [h3, h4]
      decide +kernel
    · unfold title
      rw [h4]
      have e : codeTitle mergedText = [] := by decide +kernel
      exact congrArg some e
  obtain ⟨text, hx⟩ := C84_saved (f := fun _ => some mergedText) false h1 h2 rfl ht ho hb
  exact ⟨bs, c, text, hbs, h1, h2, h3, ht, ho, hb, hx⟩

/-- The code must not look like the header of a section (`CodeOk`): ` __a=__b__` is saved and loaded, but without the space before it, as it is minified, all
of it is lost. -/
theorem C84_header_counterexample :
    reloaded (codes " __a=__b__") [] = some (codes " __a=__b__", []) ∧
    (parseText .pico8 20 (codes " __a=__b__")).map (fun b => treeText (shorten makeAll (pico isDigit true true false true) b)) = some (codes "__a=__b__") ∧
    reloaded (codes "__a=__b__") [] = some ([], []) := by
  decide +kernel

end Verif.EndToEnd
