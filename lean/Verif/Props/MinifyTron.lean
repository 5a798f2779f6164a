import Verif.FloatOut
import Verif.Props.MinifySource
/-
C72: the minified text of a Picotron program means the same.
-/
namespace Verif.Mini
open Syntax LuaNorm
open Paren (Op Lang)

/-- Floating point numbers as they are (`Verif/Float.lean`). -/
def doubles : Floats := ⟨parseFloatAbs, formatFloat⟩

theorem doubles_ok : doubles.Ok where
  out := by
    intro s v h
    obtain ⟨t, h1, h2⟩ := formatFloat_out (parseFloat_le h)
    exact ⟨t, h1, h2.parse, h2.float, h2.lower, h2.small, h2.token⟩

/-- **C72**, on token streams: no assumptions but that the program is tidy. -/
theorem C72_tokens {isDig : Nat → Bool} (hd : AsciiDig isDig) (v37 v40 v42 tokens chars : Bool) {n : Nat} {i : List T} {b : Block}
    (h : root .picotron n i = some b) (ht : Tidy.Tidy .picotron b) :
    ∃ k b', (∀ m, k ≤ m → root .picotron m (output (thenTok .picotron v42) (mini (tron doubles isDig v37 v40 tokens chars) b)) = some b') ∧
      nB .picotron (tronLit doubles) b' = nB .picotron (tronLit doubles) b :=
  C64_parser (C := tron doubles isDig v37 v40 tokens chars) (tron_ok doubles_ok ..) (tron_keeps doubles_ok hd ..) v42 h ht

/-- **C72.** Take a text that is a tidy Picotron program (see C64) with no string that is written as a long one that ends too early (see C54).
Minify it, with any options and for any version: the text that is written — whichever of its tokens are taken from the source and whichever were
modified — is read as a program again, and its meaning is that of the original one. -/
theorem C72_picotron {isDig : Nat → Bool} (hd : AsciiDig isDig) (v37 v40 v42 tokens chars : Bool) {n : Nat} {src : List Nat} {b : Block}
    (hsrc : ∀ c ∈ src, Fits c) (h : parseText .picotron n src = some b) (ht : Tidy.Tidy .picotron b) (hs : StringsIn false isDig chars v40 src)
    {srcs : Nat → List Nat} {ts : List OTok}
    (hr : Renders false srcs (prB (thenTok .picotron v42) false (mini (tron doubles isDig v37 v40 tokens chars) b)) ts) :
    ∃ k b', (∀ m, k ≤ m → parseText .picotron m (outputTokens false true ts) = some b') ∧
      nB .picotron (tronLit doubles) b' = nB .picotron (tronLit doubles) b := by
  unfold parseText at h
  simp only [Option.bind_eq_some_iff] at h
  obtain ⟨i, hi, hb⟩ := h
  obtain ⟨k, b', hk, hn⟩ := C72_tokens hd v37 v40 v42 tokens chars hb ht
  refine ⟨k, b', fun m hm => ?_, hn⟩
  have hall := (aB (thenTok .picotron v42) (Q := FromIn false isDig chars v40) (fun k hk => ⟨sure_fixed k hk, by rintro s rfl; exact hk.elim⟩)
    (thenTok_fixed _ _) (sh := false) (C61_sound hb) (read_source (L := .picotron) hsrc hi hs)).1
  have hmin := all_mB (tron_step doubles_ok hd v37 v40 tokens chars) (thenTok_fixed .picotron v42) b false false false hall
  unfold parseText
  have hw := C65_written (L := .picotron) hr hmin (nnB (thenTok .picotron v42) _ false)
  rw [show outputTokens (Lang.picotron == .pico8) true ts = outputTokens false true ts from rfl] at hw
  rw [hw, Option.bind_some]
  exact hk m hm

/-! ### What literals mean -/

/-- A numeral that is an integer means its 64 bits, and one that is a float the bits of that. -/
theorem C72_meaning {s : String} : (∀ v, parseLuaAbs ((codes s).map lowerChar) = .int v → (tronLit doubles).num s = tronName (.int v)) ∧
    (∀ n, parseLuaAbs ((codes s).map lowerChar) = .float → parseFloatAbs ((codes s).map lowerChar) = some n → (tronLit doubles).num s = tronName (.float n)) := by
  refine ⟨fun v h => ?_, fun n h h' => ?_⟩
  · simp only [tronLit, tronParse, h, Option.map_some, Option.getD_some]
  · simp only [tronLit, tronParse, h, doubles, h', Option.map_some, Option.getD_some]

/-- Names of numbers are distinct: numerals with the same meaning are the same number, and of the same kind. -/
theorem C72_distinct {x y : TronVal} (h : tronName x = tronName y) : match x, y with
    | .int v, .int w => v % 2 ^ 64 = w % 2 ^ 64
    | .float m, .float n => m = n
    | _, _ => False := by
  have inj : ∀ {a b : List Nat}, (∀ c ∈ a, c < 256) → (∀ c ∈ b, c < 256) → text a = text b → a = b := by
    intro a b ha hb h
    rw [← codes_text fun c hc => small_valid (ha c hc), h, codes_text fun c hc => small_valid (hb c hc)]
  have small : ∀ p n, p < 256 → ∀ c ∈ p :: natDigits n, c < 256 := by
    intro p n hp c hc
    rcases List.mem_cons.1 hc with rfl | hc
    · exact hp
    · have := natDigits_digit n c hc; omega
  have dig : ∀ {m n}, natDigits m = natDigits n → m = n := by
    intro m n h
    rw [← natDigits_val m, h, natDigits_val]
  cases x with
  | int v =>
    cases y with
    | int w =>
      have := dig (List.cons.inj (inj (small _ _ (by decide)) (small _ _ (by decide)) h)).2
      dsimp only
      omega
    | float n => exact absurd (List.cons.inj (inj (small _ _ (by decide)) (small _ _ (by decide)) h)).1 (by decide)
  | float m =>
    cases y with
    | int w => exact absurd (List.cons.inj (inj (small _ _ (by decide)) (small _ _ (by decide)) h)).1 (by decide)
    | float n => exact dig (List.cons.inj (inj (small _ _ (by decide)) (small _ _ (by decide)) h)).2

/-! ### What it looks like -/

/-- An integer, a float and a string, a comment and parentheses. -/
def tronText : List Nat := codes "local x = 0x10 -- b\ny=(0.50)+-1e3 z=('\\65')..\"é\"\n"

def tronTree : Block :=
  .cons (.local_ [("x", none)] (.cons (.num "0x10") .nil))
    (.cons (.assign (.cons (.var "y") .nil) (.cons (.bin .plus (.group (.num "0.50")) (.un .minus (.num "1e3"))) .nil))
      (.cons (.assign (.cons (.var "z") .nil) (.cons (.bin .concat (.group (.str "'\\65'")) (.str "\"é\"")) .nil)) .nil))

/-- What is written for it: names and signs are from the source. -/
def tronToks : List OTok := allNew (prB (thenTok .picotron true) false (mini (tron doubles isDigit true true false true) tronTree))

-- `local x=16 y=.5+-1e3 z="A".."é"`
example : text (outputTokens false true tronToks) = "local x=16 y=.5+-1e3 z=\"A\"..\"é\"" := by decide +kernel

-- all that is assumed holds for it
example : (∀ c ∈ tronText, Fits c) ∧ parseText .picotron 60 tronText = some tronTree ∧ Tidy.Tidy .picotron tronTree ∧ StringsIn false isDigit true true tronText ∧
    Renders false (fun _ => tronText) (prB (thenTok .picotron true) false (mini (tron doubles isDigit true true false true) tronTree)) tronToks := by
  refine ⟨by decide +kernel, by decide +kernel, ?_, ?_, C65_possible ..⟩
  · simp [tronTree, Tidy.Tidy, Tidy.tB, Tidy.tS, Tidy.tI, Tidy.tE, Tidy.tEs, Tidy.flag, Tidy.flagI, Tidy.isRet0, Tidy.semis, Tidy.doB,
      Tidy.condS, Tidy.condI, Tidy.endsRet, Tidy.isGroup, Tidy.targets, Tidy.isTarget]
  · intro ts h s hs v hv
    have e : (lexAll false tronText).map (·.filter (·.1 == .string)) = some [(.string, codes "'\\65'"), (.string, codes "\"é\"")] := by decide +kernel
    rw [h, Option.map_some] at e
    have e := Option.some.inj e
    have hm : (TokKind.string, s) ∈ ts.filter (·.1 == .string) := List.mem_filter.2 ⟨hs, rfl⟩
    rw [e] at hm
    have : (∀ v, parseLiteral false (codes (text (codes "'\\65'"))) = some v → v = [65]) := fun v hv => by
      have : parseLiteral false (codes (text (codes "'\\65'"))) = some [65] := by decide +kernel
      exact (Option.some.inj (this.symm.trans hv)).symm
    have h2 : (∀ v, parseLiteral false (codes (text (codes "\"é\""))) = some v → v = [233]) := fun v hv => by
      have : parseLiteral false (codes (text (codes "\"é\""))) = some [233] := by decide +kernel
      exact (Option.some.inj (this.symm.trans hv)).symm
    rcases List.mem_cons.1 hm with hm | hm
    · cases hm
      rw [this v hv]
      intro _
      decide +kernel
    · cases List.mem_singleton.1 hm
      rw [h2 v hv]
      intro _
      decide +kernel

end Verif.Mini
