import Verif.NewExportLemmas
import Verif.Props.P8Text
import Verif.Props.EndToEnd
/-! C86: new exports. -/
namespace Verif.NewExport
open Verif.PodFormat (Content Name lit Shown)
open Verif.PodFile Verif.NewExportSpec
open Verif.Utf8Spec (Text)

theorem text_bytes {t bs : List Nat} (h : Text t bs) : ∀ b ∈ bs, b < 256 := by
  induction h with
  | nil => simp
  | cons h _ ih =>
    refine bytes_append ?_ ih
    intro b hb
    cases h with
    | one => simp only [List.mem_cons, List.not_mem_nil, or_false] at hb; omega
    | two => simp only [List.mem_cons, List.not_mem_nil, or_false] at hb; omega
    | three => simp only [List.mem_cons, List.not_mem_nil, or_false] at hb; omega
    | four => simp only [List.mem_cons, List.not_mem_nil, or_false] at hb; omega

theorem decode_text {t bs : List Nat} (h : Text t bs) : decodeStrict bs = some t := by
  unfold decodeStrict
  rw [(LuaStr.C60_utf8 h).1, if_neg]
  rw [Bool.not_eq_true, List.any_eq_false]
  intro c hc
  have := (Auto.text_scalar h c hc).2
  simp only [Bool.and_eq_true, decide_eq_true_eq]
  omega

/-- The boot file is a cart that can be written (see C13), as text of Unicode characters. -/
def BootOk (defVersion : Nat) (boot : List Nat) (c : SCart) : Prop :=
  ∃ text, Text text boot ∧ readSource defVersion false text = some c ∧ SourceOk c ∧ Auto.MetaClean c

/-- **C86 (boot cart).** The boot cart of a new export is PICO-8's own, except that it has the version of the cart that is exported. -/
theorem C86_boot {defVersion : Nat} (version : Option Nat) {boot : List Nat} {c : SCart} (h : BootOk defVersion boot c) :
    ∃ boot' text' c', bootFile defVersion version boot = some boot' ∧ Text text' boot' ∧ readSource defVersion false text' = some c' ∧
      Restored (fun _ => true) defVersion { c with versionId := version.getD c.versionId } c' := by
  obtain ⟨text, h1, h2, h3, h4⟩ := h
  have ok : SourceOk { c with versionId := version.getD c.versionId } := ⟨h3.mem, h3.size, h3.label, h3.chars, h3.code, h3.metas⟩
  obtain ⟨text', c', e1, e2, e3⟩ := C13_sections_roundtrip ok false (fun _ => true) defVersion
  obtain ⟨t, bs, f1, -, f2, f3⟩ := Auto.C82_file ok (show Auto.MetaClean { c with versionId := version.getD c.versionId } from h4) false (fun _ => true)
  rw [e1] at f1
  cases f1
  refine ⟨bs, text', c', ?_, f3, e2, e3⟩
  unfold bootFile
  rw [decode_text h1, Option.bind_some, h2, Option.bind_some, e1, Option.bind_some]
  exact f2

/-- A label has 128 by 128 pixels, and takes the place of a picture. -/
def LabelOk (label : Option (List Nat)) (l : List Shown) : Prop :=
  ∀ p, label = some p → p.length = 128 * 128 ∧ ∀ x, l[6]? = some x → x.1 = none

theorem items_get {m : State} {k : Nat} {e : Entry} (h : m.entries[k]? = some e) : (items m)[k]? = some (e.name, e.content) := by
  rw [items, List.getElem?_map, h]; rfl

/-- **C86 (pictures).** The pod of pictures that is made for a new export has the same entries as PICO-8's own, except that the picture number 4 has the title
written into its first pixels, and that picture number 6 is the label, if there is one. -/
theorem C86_pictures {bytes : List Nat} (hb : ∀ b ∈ bytes, b < 256) (hl : 76 ≤ bytes.length) {pod : State} (hr : readAll bytes = some pod)
    (hn : pod.entries.length ≤ 255) {title : List Nat} {label : Option (List Nat)} (hlab : LabelOk label (items pod)) {new : List Nat}
    (h : rebuilt true title label bytes = some new) :
    ∃ m, readAll new = some m ∧ Valid m ∧ m.name = pod.name ∧ (items m).length = (items pod).length ∧
      ∀ i a b, (items pod)[i]? = some a → (items m)[i]? = some b → NewPicture title label i a b := by
  obtain ⟨hok, hz, hnb⟩ := readAll_ok hb hl hr
  unfold rebuilt at h
  rw [hr, Option.bind_some, Option.bind_eq_some_iff] at h
  obtain ⟨m0, hm0, h⟩ := h
  rw [Option.map_eq_some_iff] at h
  obtain ⟨m, hm, rfl⟩ := h
  obtain ⟨v0, i0, n0⟩ := (C39_create hz hnb).2 m0 hm0
  have l0 : m0.entries.length = 0 := by
    have := congrArg List.length i0
    simpa [items] using this
  obtain ⟨v, nm, l, e1, e2, e3⟩ := copyEntries_spec (P := NewPicture title label) v0 l0 (by omega) (by
    intro k e c' hk hc
    rw [Nat.zero_add] at hc ⊢
    have hx := hok _ (List.mem_of_getElem? (items_get hk))
    refine newContent_spec (fun l hl => (hlab l hl).1) hx.1 hx.2 ?_ hc
    intro h6 hne
    subst h6
    cases hlb : label with
    | none => exact absurd hlb hne
    | some p => exact (hlab p hlb).2 _ (items_get hk)) hm
  rw [i0, List.nil_append] at e1
  refine ⟨m, v.2.1, v, nm.trans n0, by rw [e1, e2]; simp [items], ?_⟩
  intro i a b ha hbb
  rw [items, List.getElem?_map, Option.map_eq_some_iff] at ha
  obtain ⟨e, he, rfl⟩ := ha
  rw [e1] at hbb
  have := e3 i e b he hbb
  rwa [Nat.zero_add] at this

/-- **C86 (resources).** The other pod has the same entries as PICO-8's own. -/
theorem C86_resources {bytes : List Nat} (hb : ∀ b ∈ bytes, b < 256) (hl : 76 ≤ bytes.length) {pod : State} (hr : readAll bytes = some pod)
    (hn : pod.entries.length ≤ 255) {title : List Nat} {label : Option (List Nat)} {new : List Nat} (h : rebuilt false title label bytes = some new) :
    ∃ m, readAll new = some m ∧ Valid m ∧ m.name = pod.name ∧ items m = items pod := by
  obtain ⟨hok, hz, hnb⟩ := readAll_ok hb hl hr
  unfold rebuilt at h
  rw [hr, Option.bind_some, Option.bind_eq_some_iff] at h
  obtain ⟨m0, hm0, h⟩ := h
  rw [Option.map_eq_some_iff] at h
  obtain ⟨m, hm, rfl⟩ := h
  obtain ⟨v0, i0, n0⟩ := (C39_create hz hnb).2 m0 hm0
  have l0 : m0.entries.length = 0 := by
    have := congrArg List.length i0
    simpa [items] using this
  obtain ⟨v, nm, l, e1, e2, e3⟩ := copyEntries_spec (P := fun _ a b => b = a) v0 l0 (by omega) (by
    intro k e c' hk hc
    have hx := hok _ (List.mem_of_getElem? (items_get hk))
    have : c' = e.content := by
      unfold newContent at hc
      simpa using hc.symm
    subst this
    exact ⟨hx.1, hx.2, rfl⟩) hm
  rw [i0, List.nil_append] at e1
  refine ⟨m, v.2.1, v, nm.trans n0, ?_⟩
  rw [e1]
  apply List.ext_getElem?
  intro k
  by_cases hk : k < pod.entries.length
  · have h1 : k < l.length := by omega
    have ha : pod.entries[k]? = some pod.entries[k] := List.getElem?_eq_getElem hk
    have hb' : l[k]? = some l[k] := List.getElem?_eq_getElem h1
    rw [items_get ha, hb', e3 k _ _ ha hb']
  · rw [List.getElem?_eq_none (by omega), List.getElem?_eq_none (by simp [items]; omega)]

/-- PICO-8's own data, as far as a new export needs it: a boot cart, a pod of pictures `g`, and another pod `r`. -/
structure Given (defVersion : Nat) (version : Option Nat) (label : Option (List Nat)) (dat : State) (boot gfx rest : List Nat) (c : SCart) (g r : State) : Prop where
  bytes : ∀ x ∈ items dat, ContentOk x.2
  hasBoot : FirstNamed (items dat) (lit "pod/pico8_boot.p8") (.file boot)
  hasGfx : FirstNamed (items dat) (lit "pod/gfx1.pod") (.file gfx)
  hasRest : FirstNamed (items dat) (lit "pod/f_pico8.pod") (.file rest)
  cart : BootOk defVersion boot c
  gfxPod : readAll gfx = some g ∧ 76 ≤ gfx.length ∧ g.entries.length ≤ 255
  restPod : readAll rest = some r ∧ 76 ≤ rest.length ∧ r.entries.length ≤ 255
  label : LabelOk label (items g)

theorem found {dat : State} {name : Name} {d : List Nat} (h : FirstNamed (items dat) name (.file d)) : (findNamed dat name).bind fileBytes = some d := by
  obtain ⟨a, b, e, ha⟩ := h
  obtain ⟨es, hes⟩ : ∃ es, es = dat.entries := ⟨_, rfl⟩
  rw [items, ← hes] at e
  unfold findNamed
  rw [← hes]
  clear hes
  induction es generalizing a with
  | nil => simp at e
  | cons x es ih =>
    cases a with
    | nil =>
      simp only [List.map_cons, List.nil_append, List.cons.injEq, Prod.mk.injEq] at e
      rw [List.find?_cons_of_pos (by simp [e.1.1])]
      simp [e.1.2, fileBytes]
    | cons y a =>
      simp only [List.map_cons, List.cons_append, List.cons.injEq] at e
      have := ha y (by simp)
      rw [← e.1] at this
      rw [List.find?_cons_of_neg (by simpa using this)]
      exact ih a (fun z hz => ha z (by simp [hz])) e.2

theorem first_mem {l : List Shown} {name : Name} {c : Content} (h : FirstNamed l name c) : (some name, c) ∈ l := by
  obtain ⟨a, b, rfl, -⟩ := h
  simp

theorem appendUnnamed_spec {m m' : State} (hv : Valid m) {d : List Nat} (hd : ∀ b ∈ d, b < 256) (hl : m.entries.length ≤ 255) (h : appendUnnamed m d = some m') :
    Valid m' ∧ items m' = items m ++ [(some [], .file d)] ∧ m'.entries.length = m.entries.length + 1 := by
  obtain ⟨a, b, -⟩ := append_spec hv (name := some []) (c := .file d) hd (by intro n hn; cases hn; simp) hl h
  refine ⟨a, b, ?_⟩
  have := congrArg List.length b
  simpa [items] using this

theorem readAll_bytes {d : List Nat} {s : State} (hs : readAll d = some s) (hv : Valid s) : ∀ b ∈ d, b < 256 := by
  have : s.data = d := by
    unfold readAll at hs
    simp only [Option.bind_eq_some_iff] at hs
    obtain ⟨x, -, hs⟩ := hs
    split at hs
    · cases hs
    · rw [Option.bind_eq_some_iff] at hs
      obtain ⟨x, -, hs⟩ := hs
      split at hs
      · cases hs
      · rw [Option.bind_eq_some_iff] at hs
        obtain ⟨x, -, hs⟩ := hs
        split at hs
        · cases hs
        · simp only [Option.bind_eq_some_iff, Option.map_eq_some_iff] at hs
          obtain ⟨_, _, _, _, _, _, rfl⟩ := hs
          rfl
  rw [← this]
  exact hv.1

/-- **C86 (new export).** A new export consists of three files without names and no carts: the boot cart, the pod of pictures with the title and the label, and
the other pod; the bytes of the export are read back as that. -/
theorem C86_new {defVersion : Nat} {version : Option Nat} {label : Option (List Nat)} {title : List Nat} {dat : State} {boot gfx rest : List Nat} {c : SCart}
    {g r : State} (G : Given defVersion version label dat boot gfx rest c g r) {m : State} (h : createExport defVersion version label title dat = some m) :
    ∃ boot' gfx' rest' text' c' g' r', Valid m ∧ readAll m.data = some m ∧ items m = [(some [], .file boot'), (some [], .file gfx'), (some [], .file rest')] ∧
      (Text text' boot' ∧ readSource defVersion false text' = some c' ∧ Restored (fun _ => true) defVersion { c with versionId := version.getD c.versionId } c') ∧
      (readAll gfx' = some g' ∧ g'.name = g.name ∧ (items g').length = (items g).length ∧
        ∀ i a b, (items g)[i]? = some a → (items g')[i]? = some b → NewPicture title label i a b) ∧
      (readAll rest' = some r' ∧ r'.name = r.name ∧ items r' = items r) := by
  unfold createExport at h
  rw [found G.hasBoot, found G.hasGfx, found G.hasRest] at h
  simp only [Option.bind_eq_some_iff, Option.some.injEq, exists_eq_left'] at h
  obtain ⟨m0, hm0, m0', hm0', boot', hboot, m1, hm1, gfx', hgfx, m2, hm2, rest', hrest, hm⟩ := h
  obtain ⟨v0, i0, -⟩ := (C39_create (name := []) (by simp) (by simp)).2 m0 hm0
  have := v0.2.1
  rw [hm0'] at this
  cases this
  have l0 : m0.entries.length = 0 := by
    have := congrArg List.length i0
    simpa [items] using this
  obtain ⟨boot'', text', c', e1, e2, e3, e4⟩ := C86_boot version G.cart
  rw [e1] at hboot
  cases hboot
  have gb : ∀ b ∈ gfx, b < 256 := G.bytes _ (first_mem G.hasGfx)
  have rb : ∀ b ∈ rest, b < 256 := G.bytes _ (first_mem G.hasRest)
  obtain ⟨g', g1, g2, g3, g4, g5⟩ := C86_pictures gb G.gfxPod.2.1 G.gfxPod.1 G.gfxPod.2.2 G.label hgfx
  obtain ⟨r', r1, r2, r3, r4⟩ := C86_resources rb G.restPod.2.1 G.restPod.1 G.restPod.2.2 hrest
  obtain ⟨v1, i1, l1⟩ := appendUnnamed_spec v0 (text_bytes e2) (by omega) hm1
  obtain ⟨v2, i2, l2⟩ := appendUnnamed_spec v1 (readAll_bytes g1 g2) (by omega) hm2
  obtain ⟨v3, i3, l3⟩ := appendUnnamed_spec v2 (readAll_bytes r1 r2) (by omega) hm
  exact ⟨boot', gfx', rest', text', c', g', r', v3, v3.2.1, by rw [i3, i2, i1, i0]; rfl, ⟨e2, e3, e4⟩, ⟨g1, g3, g4, g5⟩, r1, r3, r4⟩

/-! ### Carts -/

theorem applyAll_insert {l a : ExportSpec.Carts} (h : ((a ++ l).map (·.1)).Nodup) :
    ExportSpec.applyAll a (l.map fun x => .insert x.1 x.2 none) = some (a ++ l) := by
  induction l generalizing a with
  | nil => simp [ExportSpec.applyAll]
  | cons x l ih =>
    have hx : ¬ ExportSpec.Has a x.1 := by
      rintro ⟨r, hr⟩
      rw [List.map_append, List.nodup_append] at h
      exact h.2.2 x.1 (List.mem_map.2 ⟨_, hr, rfl⟩) x.1 (by simp) rfl
    rw [List.map_cons, ExportSpec.applyAll, ExportSpec.apply, if_neg hx, Option.bind_some, ih (by simpa using h)]
    simp

/-- **C86 (carts).** When carts with different names are put into a new export, it has exactly these, in order; they can be read by their names, and without a
name the first one is read.  Everything else is as in C86 above. -/
theorem C86_carts {defVersion : Nat} {version : Option Nat} {label : Option (List Nat)} {title : List Nat} {dat : State} {boot gfx rest : List Nat} {c : SCart}
    {g r : State} (G : Given defVersion version label dat boot gfx rest c g r) {m : State} (h : createExport defVersion version label title dat = some m)
    {size : Nat} (hsize : size < 2 ^ 32) {l : ExportSpec.Carts} (hn : (l.map (·.1)).Nodup) (hl : ∀ x ∈ l, CartName x.1 ∧ PodFile.RomOk size x.2)
    (hroom : l.length + 3 < 2 ^ 32) :
    ∃ m', Export.writeAll impl m (l.map fun x => .insert x.1 x.2 none) = some m' ∧ readAll m'.data = some m' ∧
      Export.listCarts impl m' = some (l.map (·.1)) ∧ (∀ n rom, (n, rom) ∈ l → Export.readCart impl m' (some n) = some rom) ∧
      Export.readCart impl m' none = l.head?.map (·.2) ∧ othersOf (items m') = items m := by
  obtain ⟨boot', gfx', rest', text', c', g', r', v, -, hi, -⟩ := C86_new G h
  have R : Represents size m [] := ⟨v, by rw [hi]; rfl, by simp, by simp⟩
  have hlen : m.entries.length = 3 := by
    have := congrArg List.length hi
    simpa [items] using this
  obtain ⟨m', a1, a2, a3, a4⟩ := C39_carts_history hsize R (by rw [hlen, List.length_map]; omega) (by
    intro op ho
    obtain ⟨x, hx, rfl⟩ := List.mem_map.1 ho
    exact hl x hx) (applyAll_insert (a := []) hn)
  rw [List.nil_append] at a2
  obtain ⟨b1, b2, -, b4⟩ := C39_carts_read a2
  exact ⟨m', a1, a4, b1, b2, b4, by rw [a3, hi]; rfl⟩

/-! ### When it succeeds -/

theorem putTitle_some {w h : Nat} {cs px : List Nat} {x y : Nat} (hx : x < w) (hl : x + y * w + cs.length ≤ w * h) : ∃ px', putTitle w h x y cs px = some px' := by
  induction cs generalizing x y px with
  | nil => exact ⟨px, rfl⟩
  | cons c cs ih =>
    rw [List.length_cons] at hl
    unfold putTitle
    have hy : y < h := by
      by_cases hc : y < h
      · exact hc
      · have : h * w ≤ y * w := Nat.mul_le_mul_right w (by omega)
        rw [Nat.mul_comm h w] at this
        omega
    rw [if_pos ⟨hx, hy⟩]
    split
    · next hw => exact ih (by omega) (by rw [Nat.add_mul]; omega)
    · exact ih (by omega) (by omega)

/-- The title and the label can be stored: the title has a picture that is large enough, the label has colours that there are, and no picture is too large. -/
structure PicturesFit (title : List Nat) (label : Option (List Nat)) (l : List Shown) : Prop where
  titleFits : ∀ x, l[4]? = some x → ∃ w h px, x.2 = .bmp w h 8 px ∧ title.length < w * h
  colours : ∀ p, label = some p → ∀ i ∈ p, i < 32
  sizes : ∀ i x y, l[i]? = some x → NewPicture title label i x y → ContentFits (isImage y.2) y.2

theorem readAll_names {data : List Nat} (hd : ∀ b ∈ data, b < 256) (hl : 76 ≤ data.length) {m : State} (h : readAll data = some m) :
    (∀ x ∈ items m, NameFits x.1 x.2) ∧ m.name.length ≤ 0x20 := by
  obtain ⟨-, parts, tail, hp, he⟩ := (readAll_iff hd hl).1 h
  obtain ⟨-, hen, field, junk, ⟨hf, h0, rest, rfl, -⟩, -, e⟩ := hp
  refine ⟨?_, by rw [List.length_append] at hf; omega⟩
  intro x hx
  rw [items, he, place_items] at hx
  obtain ⟨p, hp, rfl⟩ := List.mem_map.1 hx
  have := (isEntry_name (hen p hp)).1
  cases hc : p.content with
  | file d =>
    obtain ⟨nm, e1, e2, -⟩ := this d hc
    exact ⟨nm, e1, e2⟩
  | _ => trivial

theorem copyEntries_some {gfx : Bool} {title : List Nat} {label : Option (List Nat)} {es : List Entry} {m : State} {i : Nat} (hv : Valid m)
    (hi : m.entries.length = i) (hl : i + es.length ≤ 255)
    (hP : ∀ k e, es[k]? = some e → ∃ c', newContent gfx title label (i + k) e.content = some c' ∧ ContentOk c' ∧ NameOk e.name c' ∧ NameFits e.name c' ∧
      ContentFits (isImage c') c') : ∃ m', copyEntries gfx title label m i es = some m' := by
  induction es generalizing m i with
  | nil => exact ⟨m, rfl⟩
  | cons e es ih =>
    rw [List.length_cons] at hl
    obtain ⟨c, hc, o1, o2, o3, o4⟩ := hP 0 e rfl
    rw [Nat.add_zero] at hc
    unfold copyEntries
    have hlen : (items m).length = m.entries.length := by simp [items]
    have ok : EditOk (items m) (.insert m.entries.length e.name c (isImage c)) := by
      refine ⟨by omega, o1, o2, ?_⟩
      cases c with
      | pal => simp only [IndexOk, hlen]; omega
      | _ => trivial
    obtain ⟨m1, hm1⟩ := Option.isSome_iff_exists.1 ((C39_edit hv ok).1.2 ⟨rfl, o3, o4⟩)
    have hm1' : insertContent m m.entries.length e.name c (isImage c) = some m1 := hm1
    obtain ⟨v1, it1, -⟩ := append_spec hv o1 o2 (by omega) hm1'
    rw [hc, Option.bind_some, hm1', Option.bind_some]
    have hlen1 : m1.entries.length = i + 1 := by
      have := congrArg List.length it1
      simp only [items, List.length_map, List.length_append, List.length_cons, List.length_nil] at this
      omega
    refine ih v1 hlen1 (by omega) ?_
    intro k e' hk
    rw [show i + 1 + k = i + (k + 1) by omega]
    exact hP (k + 1) e' (by simpa using hk)

theorem create_some {data : List Nat} (hd : ∀ b ∈ data, b < 256) (hl : 76 ≤ data.length) {pod : State} (h : readAll data = some pod) :
    ∃ m0, create pod.name = some m0 ∧ Valid m0 ∧ m0.entries.length = 0 := by
  obtain ⟨-, hz, hnb⟩ := readAll_ok hd hl h
  obtain ⟨m0, hm0⟩ := Option.isSome_iff_exists.1 ((C39_create hz hnb).1.2 (readAll_names hd hl h).2)
  obtain ⟨v0, i0, -⟩ := (C39_create hz hnb).2 m0 hm0
  refine ⟨m0, hm0, v0, ?_⟩
  have := congrArg List.length i0
  simpa [items] using this

theorem pictures_some {bytes : List Nat} (hb : ∀ b ∈ bytes, b < 256) (hl : 76 ≤ bytes.length) {pod : State} (hr : readAll bytes = some pod)
    (hn : pod.entries.length ≤ 255) {title : List Nat} {label : Option (List Nat)} (hlab : LabelOk label (items pod)) (hf : PicturesFit title label (items pod)) :
    ∃ new, rebuilt true title label bytes = some new := by
  obtain ⟨hok, -⟩ := readAll_ok hb hl hr
  obtain ⟨m0, hm0, v0, l0⟩ := create_some hb hl hr
  obtain ⟨m, hm⟩ := copyEntries_some (gfx := true) (title := title) (label := label) (es := pod.entries) v0 l0 (by omega) (by
    intro k e hk
    rw [Nat.zero_add]
    have hg := items_get hk
    have hx := hok _ (List.mem_of_getElem? hg)
    have hnm := (readAll_names hb hl hr).1 _ (List.mem_of_getElem? hg)
    have hc : ∃ c', newContent true title label k e.content = some c' ∧ NameFits e.name c' := by
      unfold newContent
      by_cases h4 : k = 4
      · subst h4
        obtain ⟨w, h, px, e1, e2⟩ := hf.titleFits _ hg
        simp only at e1
        rw [e1]
        have hw : 0 < w := by
          cases w with
          | zero => simp at e2
          | succ => omega
        obtain ⟨px', hp⟩ := putTitle_some (w := w) (h := h) (cs := title ++ [0]) (px := px) (x := 0) (y := 0) hw (by simp; omega)
        exact ⟨.bmp w h 8 px', by simp [hp], trivial⟩
      · rw [if_neg (by simp [h4])]
        by_cases h6 : k = 6
        · subst h6
          simp only [Bool.true_and, beq_self_eq_true, if_true]
          cases hlb : label with
          | none => exact ⟨_, rfl, hnm⟩
          | some p =>
            obtain ⟨ps, h1, -⟩ := Stego.createScreenshot_spec (t := false) (hf.colours p hlb)
            exact ⟨.bmp 128 128 32 (ps.flatMap fun p => [p.b, p.g, p.r, p.a]), by simp only [labelPicture, h1, Option.map_some], trivial⟩
        · rw [if_neg (by simp [h6])]
          exact ⟨_, rfl, hnm⟩
    obtain ⟨c', hc, hnf⟩ := hc
    obtain ⟨o1, o2, o3⟩ := newContent_spec (name := e.name) (fun l hl => (hlab l hl).1) hx.1 hx.2 (by
      intro h6 hne
      subst h6
      cases hlb : label with
      | none => exact absurd hlb hne
      | some p => exact (hlab p hlb).2 _ hg) hc
    exact ⟨c', hc, o1, o2, hnf, hf.sizes k _ _ hg o3⟩)
  exact ⟨m.data, by unfold rebuilt; rw [hr, Option.bind_some, hm0, Option.bind_some, hm]; rfl⟩

theorem resources_some {bytes : List Nat} (hb : ∀ b ∈ bytes, b < 256) (hl : 76 ≤ bytes.length) {pod : State} (hr : readAll bytes = some pod)
    (hn : pod.entries.length ≤ 255) {title : List Nat} {label : Option (List Nat)} (hf : ∀ x ∈ items pod, ContentFits (isImage x.2) x.2) :
    ∃ new, rebuilt false title label bytes = some new := by
  obtain ⟨hok, -⟩ := readAll_ok hb hl hr
  obtain ⟨m0, hm0, v0, l0⟩ := create_some hb hl hr
  obtain ⟨m, hm⟩ := copyEntries_some (gfx := false) (title := title) (label := label) (es := pod.entries) v0 l0 (by omega) (by
    intro k e hk
    have hm := List.mem_of_getElem? (items_get hk)
    have hx := hok _ hm
    exact ⟨e.content, by simp [newContent], hx.1, hx.2, (readAll_names hb hl hr).1 _ hm, hf _ hm⟩)
  exact ⟨m.data, by unfold rebuilt; rw [hr, Option.bind_some, hm0, Option.bind_some, hm]; rfl⟩

theorem appendUnnamed_some {m : State} (hv : Valid m) {d : List Nat} (hd : ∀ b ∈ d, b < 256) (hl : m.entries.length ≤ 255) (hs : d.length < 2 ^ 32) :
    ∃ m', appendUnnamed m d = some m' := by
  have hlen : (items m).length = m.entries.length := by simp [items]
  have ok : EditOk (items m) (.insert m.entries.length (some []) (.file d) false) :=
    ⟨by omega, hd, by intro n hn; cases hn; simp, trivial⟩
  exact Option.isSome_iff_exists.1 ((C39_edit hv ok).1.2 ⟨rfl, ⟨[], rfl, by simp⟩, hs, by simp⟩)

/-- **C86 (made).** With PICO-8's own data, a title that fits and a label, the export is made; only files of four gigabytes are too large. -/
theorem C86_made {defVersion : Nat} {version : Option Nat} {label : Option (List Nat)} {title : List Nat} {dat : State} {boot gfx rest : List Nat} {c : SCart}
    {g r : State} (G : Given defVersion version label dat boot gfx rest c g r) (hg : PicturesFit title label (items g))
    (hr : ∀ x ∈ items r, ContentFits (isImage x.2) x.2)
    (hs : ∀ d, bootFile defVersion version boot = some d ∨ rebuilt true title label gfx = some d ∨ rebuilt false title label rest = some d → d.length < 2 ^ 32) :
    ∃ m, createExport defVersion version label title dat = some m := by
  have gb : ∀ b ∈ gfx, b < 256 := G.bytes _ (first_mem G.hasGfx)
  have rb : ∀ b ∈ rest, b < 256 := G.bytes _ (first_mem G.hasRest)
  obtain ⟨m0, hm0⟩ := Option.isSome_iff_exists.1 ((C39_create (name := []) (by simp) (by simp)).1.2 (by simp))
  obtain ⟨v0, i0, -⟩ := (C39_create (name := []) (by simp) (by simp)).2 m0 hm0
  have l0 : m0.entries.length = 0 := by
    have := congrArg List.length i0
    simpa [items] using this
  obtain ⟨boot', text', c', e1, e2, -, -⟩ := C86_boot version G.cart
  obtain ⟨gfx', hgfx⟩ := pictures_some gb G.gfxPod.2.1 G.gfxPod.1 G.gfxPod.2.2 G.label hg
  obtain ⟨rest', hrest⟩ := resources_some rb G.restPod.2.1 G.restPod.1 G.restPod.2.2 (title := title) (label := label) hr
  obtain ⟨g', g1, g2, -⟩ := C86_pictures gb G.gfxPod.2.1 G.gfxPod.1 G.gfxPod.2.2 G.label hgfx
  obtain ⟨r', r1, r2, -⟩ := C86_resources rb G.restPod.2.1 G.restPod.1 G.restPod.2.2 hrest
  obtain ⟨m1, hm1⟩ := appendUnnamed_some v0 (text_bytes e2) (by omega) (hs _ (.inl e1))
  obtain ⟨v1, i1, l1⟩ := appendUnnamed_spec v0 (text_bytes e2) (by omega) hm1
  obtain ⟨m2, hm2⟩ := appendUnnamed_some v1 (readAll_bytes g1 g2) (by omega) (hs _ (.inr (.inl hgfx)))
  obtain ⟨v2, i2, l2⟩ := appendUnnamed_spec v1 (readAll_bytes g1 g2) (by omega) hm2
  obtain ⟨m3, hm3⟩ := appendUnnamed_some v2 (readAll_bytes r1 r2) (by omega) (hs _ (.inr (.inr hrest)))
  refine ⟨m3, ?_⟩
  unfold createExport
  rw [found G.hasBoot, found G.hasGfx, found G.hasRest, hm0, Option.bind_some, v0.2.1, Option.bind_some, Option.bind_some, e1, Option.bind_some, hm1,
    Option.bind_some, Option.bind_some, hgfx, Option.bind_some, hm2, Option.bind_some, Option.bind_some, hrest, Option.bind_some, hm3]

/-! ### A case -/

/-- A pod with seven small pictures. -/
def demoGfx : Option State := do
  let m ← create (lit "gfx")
  let m ← insertContent m 0 none (.bmp 2 1 8 [1, 2]) true
  let m ← insertContent m 1 none (.bmp 2 1 8 [3, 4]) true
  let m ← insertContent m 2 none (.bmp 2 1 8 [5, 6]) true
  let m ← insertContent m 3 none (.bmp 2 1 8 [7, 8]) true
  let m ← insertContent m 4 none (.bmp 3 2 8 [9, 9, 9, 9, 9, 9]) true
  let m ← insertContent m 5 none (.bmp 2 1 8 [1, 1]) true
  insertContent m 6 none (.bmp 1 1 32 [1, 2, 3, 4]) true

/-- A pod with a file. -/
def demoRest : Option State := do
  let m ← create (lit "f")
  insertContent m 0 (some (lit "snd")) (.file [1, 2, 3]) false

/-- A small `pico8.dat`. -/
def demoDat (boot gfx rest : List Nat) : Option State := do
  let m ← create (lit "dat")
  let m ← insertContent m 0 (some (lit "other")) (.file [7]) false
  let m ← insertContent m 1 (some (lit "pod/gfx1.pod")) (.file gfx) false
  let m ← insertContent m 2 (some (lit "pod/pico8_boot.p8")) (.file boot) false
  insertContent m 3 (some (lit "pod/f_pico8.pod")) (.file rest) false

/-- The title is written into the fifth picture, over two of its rows. -/
example : ((demoGfx.bind fun g => rebuilt true (lit "game") none g.data).bind readAll).map items =
    some [(none, .bmp 2 1 8 [1, 2]), (none, .bmp 2 1 8 [3, 4]), (none, .bmp 2 1 8 [5, 6]), (none, .bmp 2 1 8 [7, 8]), (none, .bmp 3 2 8 [103, 97, 109, 101, 0, 9]),
      (none, .bmp 2 1 8 [1, 1]), (none, .bmp 1 1 32 [1, 2, 3, 4])] := by decide +kernel

/-- A title that is too long makes the export fail. -/
theorem C86_title_counterexample : (demoGfx.map fun g => rebuilt true (lit "mygame") none g.data) = some none := by decide +kernel

theorem boot_example : ∃ boot c, EndToEnd.fileOf [120] = some boot ∧ BootOk 41 boot c := by
  have h : (EndToEnd.fileOf [120]).any (fun t => t.all fun c => decide (c < 0x80)) = true := by decide +kernel
  rw [Option.any_eq_true] at h
  obtain ⟨bs, hbs, ha⟩ := h
  have ha : ∀ x ∈ bs, x < 0x80 := by simpa using ha
  obtain ⟨c, h1, h2, h3, h4⟩ := EndToEnd.fileOf_loaded (by decide) (EndToEnd.oneLine (by decide) (by decide) (by decide)) hbs ha 41
  obtain ⟨e, -⟩ := Auto.C82_p8 (EndToEnd.codeCart_ok (by decide) (EndToEnd.oneLine (by decide) (by decide) (by decide))) false _ hbs (Auto.text_ascii ha) 41
  rw [e] at h1
  exact ⟨bs, c, hbs, bs, Auto.text_ascii ha, h1, h2, by intro m hm; rw [h4] at hm; cases hm⟩

/-- The assumptions can be met, with a label and a version. -/
example : ∃ dat boot gfx rest c g r, demoDat boot gfx rest = some dat ∧ demoGfx = some g ∧ demoRest = some r ∧
    Given 41 (some 8) (some (List.replicate (128 * 128) 9)) dat boot gfx rest c g r := by
  obtain ⟨boot, c, hf, hb⟩ := boot_example
  have hg : ∃ g, demoGfx = some g ∧ readAll g.data = some g ∧ 76 ≤ g.data.length ∧ g.entries.length = 7 ∧ ((items g)[6]?).map (·.1) = some none := by
    have : demoGfx.any (fun g => decide (readAll g.data = some g ∧ 76 ≤ g.data.length ∧ g.entries.length = 7 ∧ ((items g)[6]?).map (·.1) = some none)) = true := by
      decide +kernel
    rw [Option.any_eq_true] at this
    obtain ⟨g, e, h⟩ := this
    exact ⟨g, e, by simpa using h⟩
  have hr : ∃ r, demoRest = some r ∧ readAll r.data = some r ∧ 76 ≤ r.data.length ∧ r.entries.length = 1 := by
    have : demoRest.any (fun g => decide (readAll g.data = some g ∧ 76 ≤ g.data.length ∧ g.entries.length = 1)) = true := by decide +kernel
    rw [Option.any_eq_true] at this
    obtain ⟨g, e, h⟩ := this
    exact ⟨g, e, by simpa using h⟩
  obtain ⟨g, eg, g1, g2, g3, g4⟩ := hg
  obtain ⟨r, er, r1, r2, r3⟩ := hr
  have hd : ((EndToEnd.fileOf [120]).bind fun boot => demoGfx.bind fun g => demoRest.bind fun r => (demoDat boot g.data r.data).map fun m =>
      decide (items m = [(some (lit "other"), .file [7]), (some (lit "pod/gfx1.pod"), .file g.data), (some (lit "pod/pico8_boot.p8"), .file boot),
        (some (lit "pod/f_pico8.pod"), .file r.data)]) && g.data.all (· < 256) && boot.all (· < 256) && r.data.all (· < 256)) = some true := by decide +kernel
  rw [hf, Option.bind_some, eg, Option.bind_some, er, Option.bind_some, Option.map_eq_some_iff] at hd
  obtain ⟨dat, e, hd⟩ := hd
  simp only [Bool.and_eq_true, decide_eq_true_eq, List.all_eq_true] at hd
  obtain ⟨⟨⟨d1, d2⟩, d3⟩, d4⟩ := hd
  refine ⟨dat, boot, g.data, r.data, c, g, r, e, eg, er, ?_, ?_, ?_, ?_, hb, ⟨g1, g2, by omega⟩, ⟨r1, r2, by omega⟩, ?_⟩
  · rw [d1]
    intro x hx
    simp only [List.mem_cons, List.not_mem_nil, or_false] at hx
    rcases hx with rfl | rfl | rfl | rfl
    · unfold ContentOk; decide
    · exact d2
    · exact d3
    · exact d4
  · refine ⟨[(some (lit "other"), .file [7]), (some (lit "pod/gfx1.pod"), .file g.data)], [(some (lit "pod/f_pico8.pod"), .file r.data)], d1, ?_⟩
    intro x hx
    simp only [List.mem_cons, List.not_mem_nil, or_false] at hx
    rcases hx with rfl | rfl <;> simp only <;> decide
  · refine ⟨[(some (lit "other"), .file [7])], [(some (lit "pod/pico8_boot.p8"), .file boot), (some (lit "pod/f_pico8.pod"), .file r.data)], d1, ?_⟩
    intro x hx
    simp only [List.mem_cons, List.not_mem_nil, or_false] at hx
    rcases hx with rfl
    simp only; decide
  · refine ⟨[(some (lit "other"), .file [7]), (some (lit "pod/gfx1.pod"), .file g.data), (some (lit "pod/pico8_boot.p8"), .file boot)], [], d1, ?_⟩
    intro x hx
    simp only [List.mem_cons, List.not_mem_nil, or_false] at hx
    rcases hx with rfl | rfl | rfl <;> simp only <;> decide
  · intro p hp
    cases hp
    refine ⟨List.length_replicate, fun x hx => ?_⟩
    rw [hx] at g4
    simpa using g4

end Verif.NewExport
