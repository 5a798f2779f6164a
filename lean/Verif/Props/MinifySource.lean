import Verif.MinifySource
import Verif.Props.Minify
import Mathlib.Tactic.Tauto
/-
C65: the text of a PICO-8 program, minified, is a text that means the same.
-/
namespace Verif.Mini
open Syntax LuaNorm
open LuaGrammar (Program)
open Paren (Op Lang)

theorem mapM_mem {α β : Type} {f : α → Option β} : ∀ {l : List α} {r : List β}, l.mapM f = some r → ∀ y ∈ r, ∃ x ∈ l, f x = some y
  | [], r, h => by cases h; nofun
  | a :: l, r, h => by
    rw [List.mapM_cons] at h
    simp only [Option.bind_eq_bind, Option.bind_eq_some_iff, Option.pure_def, Option.some.injEq] at h
    obtain ⟨y, h1, ys, h2, rfl⟩ := h
    intro z hz
    rcases List.mem_cons.1 hz with rfl | hz
    · exact ⟨a, by simp, h1⟩
    · obtain ⟨x, hx, e⟩ := mapM_mem h2 z hz
      exact ⟨x, by simp [hx], e⟩

/-- No string of the source is written as a long one that ends too early. -/
def StringsIn (p8 : Bool) (isDig : Nat → Bool) (chars v40 : Bool) (src : List Nat) : Prop :=
  ∀ ts, lexAll p8 src = some ts → ∀ s, (TokKind.string, s) ∈ ts → StringIn p8 isDig chars v40 (text s)

abbrev Strings := StringsIn true

/-- The tokens of a source. -/
theorem read_source {L : Lang} {isDig : Nat → Bool} {chars v40 : Bool} {src : List Nat} {i : List T} (hsrc : ∀ c ∈ src, Fits c) (h : readText L src = some i)
    (hs : StringsIn (L == .pico8) isDig chars v40 src) : AllK (FromIn (L == .pico8) isDig chars v40) i := by
  unfold readText at h
  simp only [Option.bind_eq_some_iff] at h
  obtain ⟨ts, h1, h2⟩ := h
  have hall : lexAll (L == .pico8) src = some (ts.map (·.1)) := by rw [← lexLines_all _ (n := 1) rfl, h1]; rfl
  intro t ht
  obtain ⟨⟨tk, n⟩, hx, hy⟩ := mapM_mem h2 t ht
  simp only [Option.map_eq_some_iff] at hy
  obtain ⟨k, hk, rfl⟩ := hy
  have ⟨ha, hc⟩ := lexLines_alone _ rfl h1 _ hx
  have hv : ∀ c ∈ tk.2, Fits c := fun c hm => hsrc c (hc c hm)
  have e := tk_kOf hk hv
  refine ⟨⟨by rw [e]; exact ha, by rw [e]; exact hk⟩, ?_⟩
  rintro s rfl
  have : tk = (.string, codes s) := e.symm
  have hm : (TokKind.string, codes s) ∈ ts.map (·.1) := by rw [← this]; exact List.mem_map_of_mem (f := (·.1)) hx
  rw [← text_codes s]
  exact hs _ hall _ hm

/-! ### What is written -/

theorem lnToks_marks {p8 : Bool} : ∀ {l : List (K × Bool)} {n : Nat}, (∀ p ∈ l, SureIn p8 p.1) →
    (lnToks n (l.map fun p => (tkOf p.1, p.2))).mapM (fun p => (kOf p.1).map (T.mk · p.2)) = some (lnMarks n l)
  | [], _, _ => rfl
  | (k, b) :: l, n, h => by
    have hk := (h (k, b) (by simp)).2
    have ih : ∀ n, _ := fun n => lnToks_marks (l := l) (n := n) fun p hp => h p (by simp [hp])
    simp only [List.map_cons, lnToks, List.mapM_cons, hk, ih, Option.map_some, lnMarks]
    rfl

theorem apart_order {p8 : Bool} : ∀ {ts : List OTok}, Neighbours Apart ts → Neighbours (InOrder p8) ts
  | [], _ => trivial
  | [_], _ => trivial
  | _ :: b :: ts, h => by
    refine ⟨?_, apart_order (ts := b :: ts) h.2⟩
    intro h1 h2 h3 h4
    have := (h.1 h1 h2 h3).1
    omega

/-- What is written is read as the tokens and lines that were to be written. -/
theorem C65_written {L : Lang} {srcs : Nat → List Nat} {ms : List M} {ts : List OTok} (hr : Renders (L == .pico8) srcs ms ts)
    (hm : AllT (SureIn (L == .pico8)) ms) (hn : NN false ms) : readText L (outputTokens (L == .pico8) true ts) = some (lay 1 ms) := by
  unfold readText
  generalize (L == .pico8) = p8 at hr hm ⊢
  have hsure : ∀ p ∈ marks false ms, SureIn p8 p.1 := allT_marks hm
  have hgood : ∀ t ∈ ts, GoodToken p8 srcs t := by
    intro t ht
    refine ⟨hr.plain t ht, ?_⟩
    split
    · have : ((t.kind, t.text), t.brk) ∈ ts.map (fun t => ((t.kind, t.text), t.brk)) := List.mem_map_of_mem (f := fun t : OTok => ((t.kind, t.text), t.brk)) ht
      rw [hr.toks] at this
      obtain ⟨p, hp, e⟩ := List.mem_map.1 this
      have ha := (hsure p hp).1
      have e' : tkOf p.1 = (t.kind, t.text) := congrArg Prod.fst e
      rw [e'] at ha
      exact lexAll_one ha
    · next h => exact hr.place t ht (by simpa using h)
  have hlines : lexLines p8 1 (outputTokens p8 true ts) = some (lnToks 1 ((marks false ms).map fun p => (tkOf p.1, p.2))) := by
    rw [← hr.toks]
    cases ts with
    | nil => simp [outputTokens, lexLines_nil, lnToks]
    | cons a ts =>
      have hne : ∀ t ∈ a :: ts, t.text ≠ [] := fun t ht => (good_alone (.inl (hgood t ht))).ne
      have hb : a.brk = false := by
        have e := hr.toks
        have first : ∀ {ms : List M}, NN false ms → ∀ p l, marks false ms = p :: l → p.2 = false := by
          intro ms h p l e
          match ms, h, e with
          | [], _, e => cases e
          | .t _ :: _, _, e => cases e; rfl
          | .nl :: _, h, _ => exact absurd h.1 (by decide)
        cases hm' : marks false ms with
        | nil => rw [hm'] at e; cases e
        | cons p l =>
          rw [hm'] at e
          simp only [List.map_cons, List.cons.injEq, Prod.mk.injEq] at e
          rw [e.1.2]; exact first hn p l hm'
      have hok := sepsFrom_ok (p8 := p8) (ml := true) (brk := false) (fun t ht => .inl (hgood t ht)) (inOrder_good hr.plain (apart_order hr.order))
      rw [outputTokens, hb, lexLines_seps (good_alone (.inl (hgood a (by simp)))) hok (hr.plain a (by simp)) ?_,
        lnSeps_from (hne a (by simp)) (fun t ht => hne t (by simp [ht])) hr.plain hr.order]
      · simp only [List.map_cons, lnToks, hb]; rfl
      · intro p hp
        have : p.2 ∈ (sepsFrom p8 true a false ts).map (·.2) := List.mem_map_of_mem (f := (·.2)) hp
        rw [sepsFrom_map] at this
        exact hr.plain _ (by simp [this])
  rw [hlines, Option.bind_some, lnToks_marks hsure, (lay_marks hn).1]

theorem C65_tokens {srcs : Nat → List Nat} {ms : List M} {ts : List OTok} (hr : Renders true srcs ms ts) (hm : AllT Sure ms) (hn : NN false ms) :
    readText .pico8 (outputTokens true true ts) = some (lay 1 ms) := C65_written (L := .pico8) hr hm hn

theorem thenTok_fixed (L : Lang) (v42 : Bool) : Fixed (thenTok L v42) := by
  cases L <;> cases v42 <;> trivial

/-- **C65.** Take a text that is a tidy PICO-8 program (see C64) of characters below 256 with no string that is written as a long one that ends too
early (see C54).  Minify it, with any options and for any version: the text that is written — whichever of its tokens are taken from the
source and whichever were modified — is read as a program again, and its meaning is that of the original one. -/
theorem C65_pico8 {isDig : Nat → Bool} (hd : AsciiDig isDig) (v37 v40 v42 tokens chars : Bool) {n : Nat} {src : List Nat} {b : Block}
    (hsrc : ∀ c ∈ src, c < 256) (h : parseText .pico8 n src = some b) (ht : Tidy.Tidy .pico8 b) (hs : Strings isDig chars v40 src)
    {srcs : Nat → List Nat} {ts : List OTok} (hr : Renders true srcs (prB (thenTok .pico8 v42) false (mini (pico isDig v37 v40 tokens chars) b)) ts) :
    ∃ k b', (∀ m, k ≤ m → parseText .pico8 m (outputTokens true true ts) = some b') ∧ nB .pico8 picoLit b' = nB .pico8 picoLit b := by
  unfold parseText at h
  simp only [Option.bind_eq_some_iff] at h
  obtain ⟨i, hi, hb⟩ := h
  obtain ⟨k, b', hk, hn⟩ := C64_pico8 hd v37 v40 v42 tokens chars hb ht
  refine ⟨k, b', fun m hm => ?_, hn⟩
  have hall := (aB (thenTok .pico8 v42) (Q := FromSource isDig chars v40) (fun k hk => ⟨sure_fixed k hk, by rintro s rfl; exact hk.elim⟩)
    (thenTok_fixed _ _) (sh := false) (C61_sound hb) (read_source (L := .pico8) (fun c hc => small_valid (hsrc c hc)) hi hs)).1
  have hmin := all_mB (pico_step hd v37 v40 tokens chars) (thenTok_fixed .pico8 v42) b false false false hall
  unfold parseText
  rw [C65_tokens hr hmin (nnB (thenTok .pico8 v42) _ false), Option.bind_some]
  exact hk m hm

/-- All tokens new. -/
def allNew (ms : List M) : List OTok := (marks false ms).map fun p => ⟨(tkOf p.1).1, (tkOf p.1).2, 0, 0, 0, 0, true, p.2, false⟩

theorem new_order : ∀ {ts : List OTok}, (∀ t ∈ ts, t.modified = true) → Neighbours Apart ts
  | [], _ => trivial
  | [_], _ => trivial
  | a :: b :: ts, h => by
    refine ⟨fun h1 => ?_, new_order (ts := b :: ts) fun t ht => h t (by simp at ht ⊢; tauto)⟩
    rw [h a (by simp)] at h1; cases h1

/-- There are always tokens to write. -/
theorem C65_possible (p8 : Bool) (srcs : Nat → List Nat) (ms : List M) : Renders p8 srcs ms (allNew ms) where
  toks := by unfold allNew; rw [List.map_map]; rfl
  plain := by
    intro t ht
    obtain ⟨p, _, rfl⟩ := List.mem_map.1 ht
    rfl
  place := by
    intro t ht hm
    obtain ⟨p, _, rfl⟩ := List.mem_map.1 ht
    cases hm
  order := new_order fun t ht => by
    obtain ⟨p, _, rfl⟩ := List.mem_map.1 ht
    rfl

/-! ### What it looks like -/

/-- Two lines, a shorthand, a comment, numbers and a string. -/
def demoText : List Nat := codes "if (a) b=0x10 -- b\nc=('\\65')..(d)\n"

/-- What is written for it; all but the numeral and the string are from the source. -/
def demoToks : List OTok :=
  [⟨.keyword, codes "if", 0, 0, 2, 0, false, false, false⟩, ⟨.punct, codes "(", 0, 3, 4, 0, false, false, false⟩, ⟨.ident, codes "a", 0, 4, 5, 0, false, false, false⟩,
   ⟨.punct, codes ")", 0, 5, 6, 0, false, false, false⟩, ⟨.ident, codes "b", 0, 7, 8, 0, false, false, false⟩, ⟨.punct, codes "=", 0, 8, 9, 0, false, false, false⟩,
   ⟨.number, codes "16", 0, 9, 13, 0, true, false, false⟩, ⟨.ident, codes "c", 0, 19, 20, 1, false, true, false⟩, ⟨.punct, codes "=", 0, 20, 21, 1, false, false, false⟩,
   ⟨.string, codes "\"A\"", 0, 22, 27, 1, true, false, false⟩, ⟨.punct, codes "..", 0, 28, 30, 1, false, false, false⟩,
   ⟨.ident, codes "d", 0, 31, 32, 1, false, false, false⟩]

-- `if(a)b=16⏎c="A"..d`
example : text (outputTokens true true demoToks) = "if(a)b=16\nc=\"A\"..d" := by decide +kernel

/-- Its tree. -/
def demoTree : Block :=
  .cons (.if_ (.short (.group (.var "a")) (.cons (.assign (.cons (.var "b") .nil) (.cons (.num "0x10") .nil)) .nil) false))
    (.cons (.assign (.cons (.var "c") .nil) (.cons (.bin .concat (.group (.str "'\\65'")) (.group (.var "d"))) .nil)) .nil)

-- all that is assumed holds for it
example : (∀ c ∈ demoText, c < 256) ∧ parseText .pico8 60 demoText = some demoTree ∧ Tidy.Tidy .pico8 demoTree ∧ Strings isDigit true true demoText ∧
    Renders true (fun _ => demoText) (prB (thenTok .pico8 true) false (mini (pico isDigit true true false true) demoTree)) demoToks := by
  refine ⟨by decide +kernel, by decide +kernel, ?_, ?_, ⟨by decide +kernel, by decide +kernel, ?_, ?_⟩⟩
  · simp [demoTree, Tidy.Tidy, Tidy.tB, Tidy.tS, Tidy.tI, Tidy.tE, Tidy.tEs, Tidy.flag, Tidy.flagI, Tidy.isRet0, Tidy.semis, Tidy.doB,
      Tidy.condS, Tidy.condI, Tidy.endsRet, Tidy.isGroup, Tidy.targets, Tidy.isTarget]
  · intro ts h s hs v hv
    have e : (lexAll true demoText).map (·.filter (·.1 == .string)) = some [(.string, codes "'\\65'")] := by decide +kernel
    rw [h, Option.map_some] at e
    have e := Option.some.inj e
    have hm : (TokKind.string, s) ∈ ts.filter (·.1 == .string) := List.mem_filter.2 ⟨hs, rfl⟩
    rw [e] at hm
    cases List.mem_singleton.1 hm
    have hv' : parseLiteral true (codes (text (codes "'\\65'"))) = some [65] := by decide +kernel
    cases hv'.symm.trans hv
    intro _
    decide +kernel
  · have e : (demoToks.all fun t => t.modified || (lexSpans true 0 demoText).any (·.contains ((t.kind, t.text), t.idx, t.endidx))) = true := by decide +kernel
    intro t ht hm
    have := List.all_eq_true.1 e t ht
    rw [hm, Bool.false_or, Option.any_eq_true] at this
    obtain ⟨sp, h1, h2⟩ := this
    exact ⟨sp, h1, by simpa using h2⟩
  · simp [demoToks, Neighbours, Apart]

/-- `a=[=[x]]=]b=1` has a string that ends with a bracket: what is written for it is not a program. -/
theorem C65_string_counterexample :
    let src := codes "a=[=[x]]=]b=1"
    let tree : Block := .cons (.assign (.cons (.var "a") .nil) (.cons (.str "[=[x]]=]") .nil)) (.cons (.assign (.cons (.var "b") .nil) (.cons (.num "1") .nil)) .nil)
    parseText .pico8 60 src = some tree ∧
    (let out := outputTokens true true (allNew (prB .kDo false (mini (pico isDigit true true false false) tree)))
     text out = "a= [[x]]] b=1" ∧ parseText .pico8 60 out = none) := by
  refine ⟨by decide +kernel, by decide +kernel, by decide +kernel⟩

end Verif.Mini
