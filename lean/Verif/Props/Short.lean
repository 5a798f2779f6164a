import Verif.ShortApt
import Verif.Props.MinifySource
/-
C66: minified programs in which shorthands have been made or undone are read back as programs with the same meaning.
-/
set_option linter.unusedSimpArgs false
namespace Verif.Mini
open Syntax LuaNorm LuaPrint
open LuaGrammar (Program Then)
open Paren (Op Lang)

/-- **C66.** Minify a program, making and undoing shorthands as the options say: what is put out is again a program, with the meaning of the
original one, where `?` is short for `print`.  (Which programs are tidy: see Verif/Spec/Tidy.lean; which are apt: see Verif/ShortTree.lean,
`C66_plain` and `C66_undo`.) -/
theorem C66_shorten {C : Cfg} {V : Lit} {O : Sh} (hC : C.Ok) (hV : C.Keeps V) (v42 : Bool) {i : List T} {b : Block} (h : Program C.L i b)
    (ht : Tidy.Tidy C.L b) (ha : Apt O C.L b) :
    ∃ b', Program C.L (output (thenTok C.L v42) (shorten O C b)) b' ∧ uB (nB C.L V b') = uB (nB C.L V b) := by
  have hf := fine_rf (fine_mini hC (fine_k ha (fine_of h ht)))
  rw [shorten_eq C ha]
  refine ⟨rfB false false (mini C (kB O .free b)), ?_, ?_⟩
  rotate_left
  · exact congrArg uB ((norm_rfB V (mini C (kB O .free b)) false false).trans
      (norm_mB hC hV C.L (kB O .free b) false false (cut_kB O C.L b _ (cut_ofB b _ ht.1)))) |>.trans (norm_kB O C.L V b .free)
  · rw [← output_rf]
    exact reparse (thenTok_ok _ _) hf

/-- The same for the parser. -/
theorem C66_parser {C : Cfg} {V : Lit} {O : Sh} (hC : C.Ok) (hV : C.Keeps V) (v42 : Bool) {n : Nat} {i : List T} {b : Block}
    (h : root C.L n i = some b) (ht : Tidy.Tidy C.L b) (ha : Apt O C.L b) :
    ∃ k b', (∀ m, k ≤ m → root C.L m (output (thenTok C.L v42) (shorten O C b)) = some b') ∧ uB (nB C.L V b') = uB (nB C.L V b) := by
  obtain ⟨b', h1, h2⟩ := C66_shorten hC hV v42 (C61_sound h) ht ha
  obtain ⟨k, hk⟩ := C61_complete h1
  exact ⟨k, b', hk, h2⟩

/-- Programs in plain Lua (see Verif/Spec/Plain.lean), with whatever shorthands are wanted. -/
theorem C66_plain {C : Cfg} {V : Lit} (O : Sh) (hC : C.Ok) (hV : C.Keeps V) (v42 : Bool) {n : Nat} {i : List T} {b : Block}
    (h : root C.L n i = some b) (ht : Tidy.Tidy C.L b) (hp : Plain.plB b) :
    ∃ k b', (∀ m, k ≤ m → root C.L m (output (thenTok C.L v42) (shorten O C b)) = some b') ∧ uB (nB C.L V b') = uB (nB C.L V b) :=
  C66_parser hC hV v42 h ht (apt_plainB O C.L b _ _ hp)

/-- Programs all of whose shorthands are undone. -/
theorem C66_undo {C : Cfg} {V : Lit} {O : Sh} (hi : O.undoIf = true) (hw : O.undoWhile = true) (mi : O.makeIf = false) (mw : O.makeWhile = false)
    (mp : O.makePrint = false) (hC : C.Ok) (hV : C.Keeps V) (v42 : Bool) {n : Nat} {i : List T} {b : Block}
    (h : root C.L n i = some b) (ht : Tidy.Tidy C.L b) :
    ∃ k b', (∀ m, k ≤ m → root C.L m (output (thenTok C.L v42) (shorten O C b)) = some b') ∧ uB (nB C.L V b') = uB (nB C.L V b) :=
  C66_parser hC hV v42 h ht (apt_undoB hi hw mi mw mp b _ _ _ ht.1)

/-- The text of a PICO-8 program (see C65), with shorthands made and undone. -/
theorem C66_pico8 {isDig : Nat → Bool} (hd : AsciiDig isDig) (v37 v40 v42 tokens chars : Bool) (O : Sh) {n : Nat} {src : List Nat} {b : Block}
    (hsrc : ∀ c ∈ src, c < 256) (h : parseText .pico8 n src = some b) (ht : Tidy.Tidy .pico8 b) (ha : Apt O .pico8 b)
    (hs : Strings isDig chars v40 src) {srcs : Nat → List Nat} {ts : List OTok}
    (hr : Renders true srcs (prB (thenTok .pico8 v42) false (shorten O (pico isDig v37 v40 tokens chars) b)) ts) :
    ∃ k b', (∀ m, k ≤ m → parseText .pico8 m (outputTokens true true ts) = some b') ∧
      uB (nB .pico8 picoLit b') = uB (nB .pico8 picoLit b) := by
  unfold parseText at h
  simp only [Option.bind_eq_some_iff] at h
  obtain ⟨i, hi, hb⟩ := h
  obtain ⟨k, b', hk, hn⟩ := C66_parser (C := pico isDig v37 v40 tokens chars) (O := O) (pico_ok ..) (pico_keeps hd ..) v42 hb ht ha
  refine ⟨k, b', fun m hm => ?_, hn⟩
  have hall := (aB (thenTok .pico8 v42) (Q := FromSource isDig chars v40) (fun k hk => ⟨sure_fixed k hk, by rintro s rfl; exact hk.elim⟩)
    (thenTok_fixed _ _) (sh := false) (C61_sound hb) (read_source (L := .pico8) (fun c hc => small_valid (hsrc c hc)) hi hs)).1
  have hsh := all_kB (O := O) (fun k hk => ⟨sure_fixed k hk, by rintro s rfl; exact hk.elim⟩) (thenTok_fixed .pico8 v42) b .free hall
  have hmin := all_mB (pico_step hd v37 v40 tokens chars) (thenTok_fixed .pico8 v42) _ false false false hsh
  rw [show mB _ false false (kB O .free b) = shorten O (pico isDig v37 v40 tokens chars) b from (shorten_eq _ ha).symm] at hmin
  unfold parseText
  rw [C65_tokens hr hmin (nnB (thenTok .pico8 v42) _ false), Option.bind_some]
  exact hk m hm

/-! ### Where no shorthands are made -/

/-- Before the `else` of a shorthand, an `if` without `else` keeps its `end`: it would take the `else`. -/
theorem C66_keeps_before_else {O : Sh} {C : Cfg} (hu : O.undoIf = false) (e c : Ex) (s b' rest : Block) (d : Bool) :
    ∃ e₁ c₁ s₁ b₁ rest₁, shorten O C (.cons (.if_ (.shortElse e (.cons (.if_ (.long c s .end_)) .nil) b' d)) rest) =
      .cons (.if_ (.shortElse e₁ (.cons (.if_ (.long c₁ s₁ .end_)) .nil) b₁ d)) rest₁ := by
  cases hn : O.nest <;> cases rest <;>
    simp [shorten, wB, wS, wI, hu, hn, mayIf, Sh.may, Pc.fits, Pc.first, Pc.mid]

/-- The same one level further down. -/
theorem C66_keeps_before_inner_else {O : Sh} {C : Cfg} (hu : O.undoIf = false) (z e c : Ex) (s b' rest : Block) (d d' : Bool) :
    ∃ z₁ e₁ c₁ s₁ b₁ rest₁,
      shorten O C (.cons (.if_ (.short z (.cons (.if_ (.shortElse e (.cons (.if_ (.long c s .end_)) .nil) b' d)) .nil) d')) rest) =
        .cons (.if_ (.short z₁ (.cons (.if_ (.shortElse e₁ (.cons (.if_ (.long c₁ s₁ .end_)) .nil) b₁ d)) .nil) d')) rest₁ := by
  cases hn : O.nest <;> cases rest <;>
    simp [shorten, wB, wS, wI, hu, hn, mayIf, Sh.may, Pc.fits, Pc.body, Pc.first, Pc.mid]

/-- In a shorthand, what is followed by something on the line keeps its `end`. -/
theorem C66_keeps_before_more {O : Sh} {C : Cfg} (hu : O.undoIf = false) (e c : Ex) (s : Block) (x : St) (b rest : Block) (d : Bool) :
    ∃ e₁ c₁ s₁ b₁ rest₁, shorten O C (.cons (.if_ (.short e (.cons (.if_ (.long c s .end_)) (.cons x b)) d)) rest) =
      .cons (.if_ (.short e₁ (.cons (.if_ (.long c₁ s₁ .end_)) b₁) d)) rest₁ := by
  cases hn : O.nest <;> cases rest <;>
    simp [shorten, wB, wS, wI, hu, hn, mayIf, Sh.may, Pc.fits, Pc.body, Pc.mid]

/-- The same for `while`. -/
theorem C66_keeps_while_before_more {O : Sh} {C : Cfg} (hu : O.undoIf = false) (e c : Ex) (s : Block) (x : St) (b rest : Block) (d : Bool) :
    ∃ e₁ c₁ s₁ b₁ rest₁, shorten O C (.cons (.if_ (.short e (.cons (.while_ c s) (.cons x b)) d)) rest) =
      .cons (.if_ (.short e₁ (.cons (.while_ c₁ s₁) b₁) d)) rest₁ := by
  cases hn : O.nest <;> cases rest <;>
    simp [shorten, wB, wS, wI, hu, hn, mayIf, Sh.may, Pc.fits, Pc.body, Pc.mid]

/-- Before version 42 no shorthand is made inside of another one ... -/
theorem C66_keeps_inside {O : Sh} {C : Cfg} (hn : O.nest = false) (hu : O.undoIf = false) (e c : Ex) (s rest : Block) (d : Bool) :
    ∃ e₁ c₁ s₁ rest₁, shorten O C (.cons (.if_ (.short e (.cons (.if_ (.long c s .end_)) .nil) d)) rest) =
      .cons (.if_ (.short e₁ (.cons (.if_ (.long c₁ s₁ .end_)) .nil) d)) rest₁ := by
  cases rest <;> simp [shorten, wB, wS, wI, hu, hn, mayIf, Sh.may, Pc.fits, Pc.body, Pc.mid]

/-- ... or around another one, ... -/
theorem C66_keeps_around {O : Sh} {C : Cfg} (hn : O.nest = false) (hu : O.undoIf = false) (e c : Ex) (s rest : Block) (d : Bool) :
    ∃ c₁ e₁ s₁ rest₁, shorten O C (.cons (.if_ (.long c (.cons (.if_ (.short e s d)) .nil) .end_)) rest) =
      .cons (.if_ (.long c₁ (.cons (.if_ (.short e₁ s₁ d)) .nil) .end_)) rest₁ := by
  cases rest <;> simp [shorten, wB, wS, wI, smB, smS, smI, hu, hn, mayIf, Sh.may, Sm.ok, Sm.or]

/-- ... and `?` is a shorthand, too. -/
theorem C66_keeps_around_print {O : Sh} {C : Cfg} (hn : O.nest = false) (c : Ex) (es : Exs) (rest : Block) :
    ∃ c₁ es₁ rest₁, shorten O C (.cons (.if_ (.long c (.cons (.print es) .nil) .end_)) rest) =
      .cons (.if_ (.long c₁ (.cons (.print es₁) .nil) .end_)) rest₁ := by
  cases rest <;> simp [shorten, wB, wS, wI, smB, smS, hn, mayIf, Sh.may, Sm.ok, Sm.or]

/-- Nothing is made a shorthand around a `?` or a shorthand that is followed by something. -/
theorem C66_keeps_around_more {O : Sh} {C : Cfg} (c : Ex) (es : Exs) (x : St) (b rest : Block) :
    ∃ c₁ es₁ b₁ rest₁, shorten O C (.cons (.if_ (.long c (.cons (.print es) (.cons x b)) .end_)) rest) =
      .cons (.if_ (.long c₁ (.cons (.print es₁) b₁) .end_)) rest₁ := by
  cases hn : O.nest <;> cases rest <;>
    simp [shorten, wB, wS, wI, smB, smS, hn, mayIf, Sh.may, Sm.ok, Sm.or, Sm.shut]

/-! ### What it looks like -/

/-- Everything is made a shorthand. -/
def makeAll : Sh := ⟨true, true, true, false, false, true, true, true⟩

/-- All shorthands are undone. -/
def undoAll : Sh := ⟨true, true, true, true, true, false, false, false⟩

/-- The text written for a PICO-8 program. -/
def written (O : Sh) (b : Block) : List Nat :=
  outputTokens true true (allNew (prB (thenTok .pico8 true) false (shorten O (pico isDigit true true false true) b)))

/-- A program in plain Lua. -/
def plainDemo : List Nat := codes "if a then b=1 else c() end while x do print(y,2) end if q then end z=1"

/-- `x=n` -/
def setTo (x n : String) : St := .assign (.cons (.var x) .nil) (.cons (.num n) .nil)

/-- `f()` -/
def callOf (f : String) : St := .call (.call (.var f) false .nil)

/-- Its tree. -/
def plainTree : Block :=
  .cons (.if_ (.long (.var "a") (.cons (setTo "b" "1") .nil) (.else_ (.cons (callOf "c") .nil))))
    (.cons (.while_ (.var "x") (.cons (.call (.call (.var "print") false (.cons (.var "y") (.cons (.num "2") .nil)))) .nil))
      (.cons (.if_ (.long (.var "q") .nil .end_)) (.cons (setTo "z" "1") .nil)))

-- `if(a)b=1else c()⏎while(x)?y,2⏎if(q);⏎z=1`
example : parseText .pico8 80 plainDemo = some plainTree ∧ Tidy.Tidy .pico8 plainTree ∧ Plain.plB plainTree ∧
    text (written makeAll plainTree) = "if(a)b=1else c()\nwhile(x)?y,2\nif(q);\nz=1" := by
  refine ⟨by decide +kernel, ?_, ?_, by decide +kernel⟩
  · simp [plainTree, setTo, callOf, Tidy.Tidy, Tidy.tB, Tidy.tS, Tidy.tI, Tidy.tT, Tidy.tE, Tidy.tEs, Tidy.flag, Tidy.flagI, Tidy.isRet0, Tidy.semis, Tidy.doB, Tidy.condS,
      Tidy.condI, Tidy.condB, Tidy.endsRet, Tidy.isElse, Tidy.targets, Tidy.isTarget, Tidy.isGroup]
  · simp [plainTree, setTo, callOf, Plain.plB, Plain.plS, Plain.plI, Plain.plT, Plain.plE, Plain.plEs, Plain.parenB, Plain.parenE, Plain.isCond, Tidy.doB]
    decide

/-- `if (a) b=1 else c=2⏎while (q) if (r) s()⏎d=3` -/
def shortTree : Block :=
  .cons (.if_ (.shortElse (.group (.var "a")) (.cons (setTo "b" "1") .nil) (.cons (setTo "c" "2") .nil) false))
    (.cons (.whileShort (.group (.var "q")) (.cons (.if_ (.short (.group (.var "r")) (.cons (callOf "s") .nil) false)) .nil) false)
      (.cons (setTo "d" "3") .nil))

-- `if a do b=1else c=2end while q do if r do s()end end d=3`
example : parseText .pico8 80 (codes "if (a) b=1 else c=2\nwhile (q) if (r) s()\nd=3") = some shortTree ∧ Tidy.Tidy .pico8 shortTree ∧
    text (written undoAll shortTree) = "if a do b=1else c=2end while q do if r do s()end end d=3" := by
  refine ⟨by decide +kernel, ?_, by decide +kernel⟩
  simp [shortTree, setTo, callOf, Tidy.dangleB, Tidy.dangleS, Tidy.Tidy, Tidy.tB, Tidy.tS, Tidy.tI, Tidy.tT, Tidy.tE, Tidy.tEs, Tidy.flag, Tidy.flagI, Tidy.isRet0, Tidy.semis, Tidy.doB, Tidy.condS,
      Tidy.condI, Tidy.condB, Tidy.endsRet, Tidy.isElse, Tidy.targets, Tidy.isTarget, Tidy.isGroup]

/-- `if (a) if b then c() else d() end⏎e()` -/
def mixedTree : Block :=
  .cons (.if_ (.short (.group (.var "a")) (.cons (.if_ (.long (.var "b") (.cons (callOf "c") .nil) (.else_ (.cons (callOf "d") .nil)))) .nil) false))
    (.cons (callOf "e") .nil)

-- a shorthand made inside of one that was there: `if(a)if(b)c()else d()⏎e()`
example : parseText .pico8 80 (codes "if (a) if b then c() else d() end\ne()") = some mixedTree ∧ Tidy.Tidy .pico8 mixedTree ∧
    Apt makeAll .pico8 mixedTree ∧ text (written makeAll mixedTree) = "if(a)if(b)c()else d()\ne()" := by
  refine ⟨by decide +kernel, ?_, ?_, by decide +kernel⟩
  · simp [mixedTree, setTo, callOf, Tidy.dangleB, Tidy.dangleS, Tidy.Tidy, Tidy.tB, Tidy.tS, Tidy.tI, Tidy.tT, Tidy.tE, Tidy.tEs, Tidy.flag, Tidy.flagI, Tidy.isRet0, Tidy.semis, Tidy.doB, Tidy.condS,
      Tidy.condI, Tidy.condB, Tidy.endsRet, Tidy.isElse, Tidy.targets, Tidy.isTarget, Tidy.isGroup]
  · have h : ∀ x ∈ ["c", "d", "e"], decide (nm x = nm "print") = false := by decide
    simp [mixedTree, callOf, Apt, aptB, aptS, aptI, aptE, aptEs, newS, newI, newB, kS, kI, kB, fill, isNil, Tidy.condS, Tidy.condI, Tidy.condB, Tidy.doB,
      Tidy.semis, leadB, leadS, leadLp, makeAll, Opens, Sh.mayPrint, isPrint] at h ⊢
    simp [h, Tidy.condS]

-- what may not become a shorthand keeps its `end`: an `if` before `else`, and what is not last on the line
example : (parseText .pico8 80 (codes "if (a) if b then c() end else d()\nif (x) while y do c() end e()\n")).map (text ∘ written makeAll) =
    some "if(a)if b do c()end else d()\nif(x)while y do c()end e()" := by decide +kernel

-- before version 42
example : (parseText .pico8 80 (codes "if (a) if b then c() end\nif x then ?1\n end\n")).map (text ∘ written { makeAll with nest := false }) =
    some "if(a)if b do c()end\nif x do?1\nend" := by decide +kernel

/-! ### Programs that are not apt -/

/-- What becomes of a PICO-8 program is read as a program that means something else. -/
def Changed (src : String) : Prop :=
  ∃ b b', parseText .pico8 80 (codes src) = some b ∧ parseText .pico8 80 (written makeAll b) = some b' ∧
    uB (nB .pico8 picoLit b') ≠ uB (nB .pico8 picoLit b)

/-- `Changed`, computed. -/
def changed (src : String) : Bool :=
  (parseText .pico8 80 (codes src)).any fun b => (parseText .pico8 80 (written makeAll b)).any fun b' =>
    decide (uB (nB .pico8 picoLit b') ≠ uB (nB .pico8 picoLit b))

theorem changed_iff {src : String} : changed src = true ↔ Changed src := by
  simp only [changed, Changed, Option.any_eq_true, decide_eq_true_eq]
  constructor
  · rintro ⟨b, h1, b', h2, h3⟩; exact ⟨b, b', h1, h2, h3⟩
  · rintro ⟨b, b', h1, h2, h3⟩; exact ⟨b, h1, b', h2, h3⟩

/-- An empty statement hides the `do`: `if(a)do x=1end y=2` sets `y` in any case. -/
theorem C66_do_counterexample : Changed "if a then ;do x=1 end y=2 end" := changed_iff.1 (by decide +kernel)

/-- The condition becomes a call: `if(a)(f or g)()`. -/
theorem C66_call_counterexample : Changed "if a then (f or g)() end" := changed_iff.1 (by decide +kernel)

/-- The block goes on with the next line: `if(a)f=g⏎(h or i)()`. -/
theorem C66_next_counterexample : Changed "if a then f=g end (h or i)()" := changed_iff.1 (by decide +kernel)

/-- The line break of the new shorthand ends the outer one before its `else`: `if x do if(a)if(b)c()else d()⏎else z()end`. -/
theorem C66_break_counterexample : Changed "if x then if (a) if b then c() else d() end else z() end" := changed_iff.1 (by decide +kernel)

/-- Without its `end`, a shorthand inside takes the `else`: `if(a)if(b)c()else if(q)d()else e()`. -/
theorem C66_else_counterexample : Changed "if (a) if b then c() else if (q) d() end else e()" := changed_iff.1 (by decide +kernel)

/-- `print()` becomes `?`, which is rejected. -/
theorem C66_print_counterexample : parseText .pico8 80 (codes "print() x=1") = some (.cons (callOf "print") (.cons (setTo "x" "1") .nil)) ∧
    parseText .pico8 80 (written makeAll (.cons (callOf "print") (.cons (setTo "x" "1") .nil))) = none := by
  constructor <;> decide +kernel

end Verif.Mini
