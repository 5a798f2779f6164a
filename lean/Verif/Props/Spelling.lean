import Verif.Spec.Spelling
import Verif.SourceLemmas
import Verif.Props.Symbols
import Verif.SyntaxSound
/-
C65: what is read in a text is what is written there: every word and symbol of the language is known to the parser, and operators are taken for what they are.
-/
namespace Verif.Mini
open Syntax
open LuaGrammar (Binary unaryOps)
open Paren (Op Lang isBin)
open Spelling (written combines)

/-- All operators. -/
def everyOp : List Op :=
  [.or_, .and_, .bangEq, .tildeEq, .eqEq, .lt, .le, .gt, .ge, .bar, .caret2, .tilde, .amp, .shl, .shr, .lshr, .rotr, .rotl, .concat, .plus, .minus, .star,
   .slash, .slash2, .bslash, .percent, .caret, .not_, .hash, .at_, .dollar]

theorem mem_everyOp (o : Op) : o ∈ everyOp := by cases o <;> decide

/-- `x=…` -/
def setX (e : Ex) : Block := .cons (.assign (.cons (.var "x") .nil) (.cons e .nil)) .nil

theorem mapM_some {α β : Type} {f : α → Option β} : ∀ {l : List α}, (∀ x ∈ l, f x ≠ none) → l.mapM f ≠ none
  | [], _ => by simp
  | a :: l, h => by
    obtain ⟨y, hy⟩ := Option.ne_none_iff_exists'.1 (h a (by simp))
    obtain ⟨ys, hys⟩ := Option.ne_none_iff_exists'.1 (mapM_some (l := l) fun x hx => h x (by simp [hx]))
    simp [List.mapM_cons, hy, hys]

/-- What is taken for a keyword is one. -/
theorem keyword_word {p8 : Bool} {t : List Nat} (h : lexStep p8 t = .tok .keyword t []) : t ∈ keywords := by
  cases t with
  | nil => simp [lexStep] at h
  | cons c r =>
    cases hc : lexClass p8 c r.head? <;> simp only [lexStep, hc, lexComment] at h
    case space => cases h
    case num => simp [cutTok] at h
    case ident =>
      simp only [cutTok, LexStep.tok.injEq] at h
      split at h
      · rename_i hk
        have e : (c :: r).takeWhile (isIdentChar p8) = c :: r := by
          have h1 := h.2.1
          have := List.takeWhile_prefix (isIdentChar p8) (l := c :: r)
          rw [← List.prefix_iff_eq_take.1 this] at h1
          exact h1
        rw [e] at hk
        simpa using hk
      · exact absurd h.1 (by decide)
    case str => split at h <;> simp [cutTok] at h
    case long => split at h <;> simp [cutTok] at h
    case comment => split at h <;> try (split at h)
                    all_goals simp at h
    case lineComment => cases h
    case punct => simp [cutTok] at h
    case notEq => simp [cutTok] at h
    case bad => cases h

/-- An operator in a text is taken for what it is: between two expressions, before one, and in an assignment. -/
theorem C65_operators (L : Lang) (o : Op) :
    (Binary L o → parseText L 20 (codes ("x=a " ++ written o ++ " b")) = some (setX (.bin o (.var "a") (.var "b")))) ∧
    (o ∈ unaryOps L → parseText L 20 (codes ("x=" ++ written o ++ " b")) = some (setX (.un o (.var "b")))) ∧
    (o ∈ combines L → parseText L 20 (codes ("x " ++ written o ++ "= b")) = some (.cons (.opassign o (.var "x") (.var "b")) .nil)) := by
  have key : ∀ L ∈ [Lang.pico8, .picotron], ∀ o ∈ everyOp,
      (isBin L o = true → parseText L 20 (codes ("x=a " ++ written o ++ " b")) = some (setX (.bin o (.var "a") (.var "b")))) ∧
      (o ∈ unaryOps L → parseText L 20 (codes ("x=" ++ written o ++ " b")) = some (setX (.un o (.var "b")))) ∧
      (o ∈ combines L → parseText L 20 (codes ("x " ++ written o ++ "= b")) = some (.cons (.opassign o (.var "x") (.var "b")) .nil)) := by decide +kernel
  have k := key L (by cases L <;> simp) o (mem_everyOp o)
  exact ⟨fun h => k.1 (binary_iff.2 h), k.2⟩

/-- Nothing that can be split into tokens has a token that the parser does not know. -/
theorem C65_known (L : Lang) (s : List Nat) : readText L s = none ↔ lexAll (L == .pico8) s = none := by
  rw [readText, ← lexLines_all _ (n := 1) rfl]
  cases h : lexLines (L == .pico8) 1 s with
  | none => simp
  | some ts =>
    have hk : ∀ p ∈ ts, (kOf p.1).isSome = true := by
      intro p hp
      obtain ⟨⟨k, t⟩, n⟩ := p
      have ha : Alone _ (k, t) := (lexLines_alone _ rfl h _ hp).1
      cases k with
      | number | string | ident => rfl
      | keyword =>
        have hw : t ∈ keywords := keyword_word ha
        have e : ∀ t ∈ keywords, (kOf (.keyword, t)).isSome = true := by decide +kernel
        exact e t hw
      | punct =>
        have hw := (C30_longest_symbol _ t t [] ha).2.1
        have e : ∀ p8 : Bool, ∀ t ∈ LuaOps.symbols p8, (kOf (.punct, t)).isSome = true := by decide +kernel
        exact e _ t hw
    simp only [Option.bind_some, Option.map_some, reduceCtorEq, iff_false]
    exact mapM_some fun p hp => by
      obtain ⟨k, e⟩ := Option.isSome_iff_exists.1 (hk p hp)
      simp [e]
-- `x \\= b`, `x=a<<>b` and `x=-b`
example : .bslash ∈ combines .pico8 ∧ Binary .pico8 .rotl ∧ .minus ∈ unaryOps .picotron := ⟨by decide, ⟨rfl, .inr (.inr ⟨7, by decide⟩)⟩, by decide⟩

-- `a="` cannot be split into tokens; `a a` can, though it is no program
example : lexAll true (codes "a=\"") = none ∧ readText .pico8 (codes "a=\"") = none ∧ readText .pico8 (codes "a a") ≠ none := by
  refine ⟨by decide +kernel, by decide +kernel, by decide +kernel⟩

end Verif.Mini
