import Verif.MinifyText
import Verif.FineOf
import Verif.Props.Syntax
/-
C64: a minified program is read back as a program with the same meaning.
-/
namespace Verif.Mini
open Syntax LuaNorm
open LuaGrammar (Program Then)
open Paren (Op Lang)

/-- The token for `then` is one that both the grammar and the version allow. -/
theorem thenTok_ok (L : Lang) (v42 : Bool) : Then L (thenTok L v42) := by
  cases L <;> cases v42 <;> simp [thenTok, Then]

/-- **C64.** Minify a program of the grammar: the tokens and line breaks that are put out are again a program of the grammar, whose meaning is
that of the original one.  (Which programs are tidy: see Verif/Spec/Tidy.lean; what a program means: see Verif/Spec/LuaNorm.lean.) -/
theorem C64_minify {C : Cfg} {V : Lit} (hC : C.Ok) (hV : C.Keeps V) (v42 : Bool) {i : List T} {b : Block} (h : Program C.L i b)
    (ht : Tidy.Tidy C.L b) : ∃ b', Program C.L (output (thenTok C.L v42) (mini C b)) b' ∧ nB C.L V b' = nB C.L V b := by
  have hf := fine_rf (fine_mini hC (fine_of h ht))
  refine ⟨_, ?_, (norm_rfB V (mini C b) false false).trans (norm_mini hC hV C.L ht)⟩
  rw [← output_rf]
  exact reparse (thenTok_ok _ _) hf

/-- The same for the parser: it reads what is put out, with the same meaning. -/
theorem C64_parser {C : Cfg} {V : Lit} (hC : C.Ok) (hV : C.Keeps V) (v42 : Bool) {n : Nat} {i : List T} {b : Block} (h : root C.L n i = some b)
    (ht : Tidy.Tidy C.L b) :
    ∃ k b', (∀ m, k ≤ m → root C.L m (output (thenTok C.L v42) (mini C b)) = some b') ∧ nB C.L V b' = nB C.L V b := by
  obtain ⟨b', h1, h2⟩ := C64_minify hC hV v42 (C61_sound h) ht
  obtain ⟨k, hk⟩ := C61_complete h1
  exact ⟨k, b', hk, h2⟩

/-- **C64** for PICO-8, with its number and string formatters and all options: no assumptions but that the program is tidy. -/
theorem C64_pico8 {isDig : Nat → Bool} (hd : AsciiDig isDig) (v37 v40 v42 tokens chars : Bool) {n : Nat} {i : List T} {b : Block}
    (h : root .pico8 n i = some b) (ht : Tidy.Tidy .pico8 b) :
    ∃ k b', (∀ m, k ≤ m → root .pico8 m (output (thenTok .pico8 v42) (mini (pico isDig v37 v40 tokens chars) b)) = some b') ∧
      nB .pico8 picoLit b' = nB .pico8 picoLit b :=
  C64_parser (C := pico isDig v37 v40 tokens chars) (pico_ok ..) (pico_keeps hd ..) v42 h ht

/-! ### What it looks like -/

/-- Literals are left alone. -/
def bare (L : Lang) : Cfg := ⟨L, true, false, fun _ => false, fun _ s => .plain s, id⟩

/-- Literals mean what they say. -/
def bareLit : Lit := ⟨id, fun _ s => s, id⟩

theorem bare_ok (L : Lang) : (bare L).Ok := ⟨nofun, nofun, nofun⟩
theorem bare_keeps (L : Lang) : (bare L).Keeps bareLit := ⟨fun _ _ _ h => by cases h; rfl, nofun, fun _ => rfl⟩

/-- `local a,b=(f()),(g()) ; if ((x)) then (h)({1;2;}) end return (f()),(y!=1)` on two lines. -/
def demo : List T :=
  line 1 [.kLocal, .id "a", .comma, .id "b", .eq, .lp, .id "f", .lp, .rp, .rp, .comma, .lp, .id "g", .lp, .rp, .rp, .semi, .kIf, .lp, .lp, .id "x", .rp, .rp, .kThen,
    .semi, .lp, .id "h", .rp, .lp, .lc, .num "1", .semi, .num "2", .semi, .rc, .rp, .kEnd] ++
  line 2 [.kReturn, .lp, .id "y", .op .bangEq, .num "1", .rp, .comma, .lp, .id "f", .lp, .rp, .rp]

-- it becomes `local a,b=f(),g() if x do;h{1,2} end return y~=1,(f())`: the `;` stays, because the parenthesis was still there when it was looked at
example : ∃ b, root .pico8 60 demo = some b ∧ Tidy.Tidy .pico8 b ∧
    output (thenTok .pico8 true) (mini (bare .pico8) b) =
      line 1 [.kLocal, .id "a", .comma, .id "b", .eq, .id "f", .lp, .rp, .comma, .id "g", .lp, .rp, .kIf, .id "x", .kDo, .semi, .id "h", .lc, .num "1", .comma, .num "2",
        .rc, .kEnd, .kReturn, .id "y", .op .tildeEq, .num "1", .comma, .lp, .id "f", .lp, .rp, .rp] :=
  ⟨_, rfl, by simp [Tidy.Tidy, Tidy.tB, Tidy.tS, Tidy.tI, Tidy.tT, Tidy.tE, Tidy.tEs, Tidy.tIts, Tidy.flag, Tidy.flagI, Tidy.isRet0, Tidy.semis, Tidy.doB,
      Tidy.condS, Tidy.condI, Tidy.endsRet, Tidy.isElse], by decide +kernel⟩

-- with numbers and strings: `a=0x0000.8000 b=65535 c='it\'s'` becomes `a=.5 b=-1 c="it's"`
example : picoNum true "0x0000.8000" = .plain ".5" ∧ picoNum true "65535" = .signed .minus "1" ∧ picoNum false "65535" = .plain "65535" ∧
    picoStr isDigit true true "'it\\'s'" = "\"it's\"" ∧ picoLit.num ".5" = "32768" ∧ picoLit.str "\"it's\"" = "it's" := by decide +kernel

/-! ### Programs that are not tidy -/

/-- What becomes of a program is read as a program that means something else. -/
def Broken (L : Lang) (i : List T) : Prop :=
  ∃ b b', root L 60 i = some b ∧ root L 60 (output (thenTok L true) (mini (bare L) b)) = some b' ∧ nB L bareLit b' ≠ nB L bareLit b

/-- `Broken`, computed. -/
def broken (L : Lang) (i : List T) : Bool :=
  (root L 60 i).any fun b => (root L 60 (output (thenTok L true) (mini (bare L) b))).any fun b' => decide (nB L bareLit b' ≠ nB L bareLit b)

theorem broken_iff {L : Lang} {i : List T} : broken L i = true ↔ Broken L i := by
  simp only [broken, Broken, Option.any_eq_true, decide_eq_true_eq]
  constructor
  · rintro ⟨b, h1, b', h2, h3⟩; exact ⟨b, b', h1, h2, h3⟩
  · rintro ⟨b, b', h1, h2, h3⟩; exact ⟨b, h1, b', h2, h3⟩

/-- What becomes of a program is rejected. -/
def Rejected (L : Lang) (i : List T) : Prop :=
  ∃ b, root L 60 i = some b ∧ root L 60 (output (thenTok L true) (mini (bare L) b)) = none

/-- `if (a);do x=1 end y=2`: without the `;` it is a long `if`, and `y=2` is outside of it. -/
theorem C64_do_counterexample : Broken .pico8
    (line 1 [.kIf, .lp, .id "a", .rp, .semi, .kDo, .id "x", .eq, .num "1", .kEnd, .id "y", .eq, .num "2"]) :=
  broken_iff.1 (by decide +kernel)

/-- `if (a)+(b) c=1` has its parentheses dropped in the wrong places: `if (a)+b c=1`. -/
theorem C64_condition_counterexample : Rejected .pico8
    (line 1 [.kIf, .lp, .id "a", .rp, .op .plus, .lp, .id "b", .rp, .id "c", .eq, .num "1"]) :=
  ⟨_, rfl, rfl⟩

/-- A shorthand on a line of its own inside of a function inside of another shorthand swallows the next line:
`if (a) f=function() if (b) c=1 ⏎ d=2 end`. -/
theorem C64_line_counterexample : Broken .pico8
    (line 1 [.kIf, .lp, .id "a", .rp, .id "f", .eq, .kFunction, .lp, .rp, .kIf, .lp, .id "b", .rp, .id "c", .eq, .num "1"] ++
     line 2 [.id "d", .eq, .num "2", .kEnd]) :=
  broken_iff.1 (by decide +kernel)

/-- The same with `else`: `if (a) if x then if (b) c=1 ⏎ else d=2 end`. -/
theorem C64_else_counterexample : Broken .pico8
    (line 1 [.kIf, .lp, .id "a", .rp, .kIf, .id "x", .kThen, .kIf, .lp, .id "b", .rp, .id "c", .eq, .num "1"] ++
     line 2 [.kElse, .id "d", .eq, .num "2", .kEnd]) :=
  broken_iff.1 (by decide +kernel)

/-- `?` always ends its line, also inside of a shorthand: `if x then if (a) ?1 else ?2 end`. -/
theorem C64_print_counterexample : Broken .pico8
    (line 1 [.kIf, .id "x", .kThen, .kIf, .lp, .id "a", .rp, .quest, .num "1", .kElse, .quest, .num "2", .kEnd]) :=
  broken_iff.1 (by decide +kernel)

/-- `return;` at the end of a program becomes `return`, which is rejected (`C61_return_counterexample`). -/
theorem C64_return_counterexample (L : Lang) : Rejected L (line 1 [.kReturn, .semi]) := by
  cases L <;> exact ⟨_, rfl, rfl⟩

/-- `for x in f,s,(g()) do end` in Picotron: without the parentheses, `g` also gives the closing value. -/
theorem C64_forin_counterexample : Broken .picotron
    (line 1 [.kFor, .id "x", .kIn, .id "f", .comma, .id "s", .comma, .lp, .id "g", .lp, .rp, .rp, .kDo, .kEnd]) :=
  broken_iff.1 (by decide +kernel)

end Verif.Mini
