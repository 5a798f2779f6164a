import Verif.SyntaxComplete
/-
C61: the parser accepts exactly the programs of the grammar (`Spec/LuaGrammar.lean`), and gives each of them its tree.
-/
namespace Verif.Syntax
open Paren (Op Lang isBin)
open LuaGrammar

/-- Every tree that the parser makes is the tree of the program. -/
theorem C61_sound {L : Lang} {n : Nat} {i : List T} {b : Block} (h : root L n i = some b) : Program L i b := by
  unfold root at h
  split at h
  · rename_i b' hb
    simp only [Option.some.injEq] at h; subst h
    exact (sound L n).block _ _ _ _ hb
  · cases h

/-- Every program of the grammar is read, and read as its tree. -/
theorem C61_complete {L : Lang} {i : List T} {b : Block} (h : Program L i b) : ∃ k, ∀ n, k ≤ n → root L n i = some b := by
  obtain ⟨k, hk⟩ := B_ev h
  refine ⟨k, fun n hn => ?_⟩
  have := hk n hn
  simp only [root, this]

/-- The grammar, with its rules about the longest reading, gives no program two trees. -/
theorem C61_unambiguous {L : Lang} {i : List T} {b b' : Block} (h : Program L i b) (h' : Program L i b') : b = b' := by
  have h1 : Ev (fun n => root L n i) b := C61_complete h
  have h2 : Ev (fun n => root L n i) b' := C61_complete h'
  exact h1.unique h2

/-- The bound on the recursion changes nothing but whether there is a result. -/
theorem C61_fuel {L : Lang} {m n : Nat} {i : List T} {b b' : Block} (h : root L m i = some b) (h' : root L n i = some b') : b = b' :=
  C61_unambiguous (C61_sound h) (C61_sound h')

/-- Exactly what has no tree is rejected. -/
theorem C61_rejects {L : Lang} {i : List T} : (∀ n, root L n i = none) ↔ ∀ b, ¬ Program L i b := by
  constructor
  · intro h b hb
    obtain ⟨k, hk⟩ := C61_complete hb
    have := (h k).symm.trans (hk k (Nat.le_refl k))
    cases this
  · intro h n
    cases hr : root L n i with
    | none => rfl
    | some b => exact absurd (C61_sound hr) (h b)

/-- The priorities of operators as their left and right side: those of Lua's own parser (lparser.c), to which the operators of PICO-8 and
Picotron are added next to the ones that they resemble. -/
def priority : Op → Nat × Nat
  | .plus | .minus => (10, 10)
  | .star | .percent | .slash | .slash2 | .bslash => (11, 11)
  | .caret => (14, 13)
  | .concat => (9, 8)
  | .shl | .shr | .lshr | .rotl | .rotr => (7, 7)
  | .amp => (6, 6)
  | .tilde | .caret2 => (5, 5)
  | .bar => (4, 4)
  | .eqEq | .lt | .le | .tildeEq | .bangEq | .gt | .ge => (3, 3)
  | .and_ => (2, 2)
  | .or_ => (1, 1)
  | .not_ | .hash | .at_ | .dollar => (0, 0)

/-- The priority of unary operators in Lua's own parser. -/
def unaryPriority : Nat := 12

/-- Two operators in a row group like in Lua's own parser. -/
theorem C61_precedence {L : Lang} {o p : Op} (ho : isBin L o = true) (hp : isBin L p = true) (x a b c : Nm) (l : Nat) :
    root L 20 [⟨.id x, l⟩, ⟨.eq, l⟩, ⟨.id a, l⟩, ⟨.op o, l⟩, ⟨.id b, l⟩, ⟨.op p, l⟩, ⟨.id c, l⟩] =
      some (.cons (.assign (.cons (.var x) .nil) (.cons
        (if (priority p).1 > (priority o).2 then .bin o (.var a) (.bin p (.var b) (.var c)) else .bin p (.bin o (.var a) (.var b)) (.var c))
        .nil)) .nil) := by
  cases L <;> cases o <;> first | (exact absurd ho (by decide)) | (cases p <;> first | (exact absurd hp (by decide)) | rfl)

/-- Unary operators take `^` into their operand, and no other operator. -/
theorem C61_unary {L : Lang} {o p : Op} (ho : o ∈ unaryOps L) (hp : isBin L p = true) (x a b : Nm) (l : Nat) :
    root L 20 [⟨.id x, l⟩, ⟨.eq, l⟩, ⟨.op o, l⟩, ⟨.id a, l⟩, ⟨.op p, l⟩, ⟨.id b, l⟩] =
      some (.cons (.assign (.cons (.var x) .nil) (.cons
        (if (priority p).1 > unaryPriority then .un o (.bin p (.var a) (.var b)) else .bin p (.un o (.var a)) (.var b)) .nil)) .nil) := by
  rw [← unary_iff] at ho
  cases L <;> cases o <;> first | (exact absurd ho (by decide)) | (cases p <;> first | (exact absurd hp (by decide)) | rfl)

/-- A program that ends with a `return` without values is rejected, although it is a Lua program. -/
theorem C61_return_counterexample (L : Lang) (n l : Nat) : root L n [⟨.kReturn, l⟩] = none := by
  refine C61_rejects.2 (fun b h => ?_) n
  unfold Program at h
  cases h with
  | cons _ hs _ =>
    cases hs with
    | returnNone h =>
      rcases h with h | h | ⟨_, h, _⟩
      · exact not_next_nil h
      · exact not_next_nil h
      · cases h
    | return_ _ h _ => obtain ⟨t, s, h, -⟩ := Es_begins h; cases h
    | assign _ h _ _ => obtain ⟨t, s, h, ht⟩ := Es_begins h; cases h; simp [Start] at ht
    | opassign _ h _ _ => obtain ⟨t, s, h, ht⟩ := E_start h; cases h; simp [Start] at ht
    | call h _ _ => obtain ⟨t, s, h, ht⟩ := P_start h; cases h; simp [Start] at ht
    | method h _ _ => obtain ⟨t, s, h, ht⟩ := P_start h; cases h; simp [Start] at ht

/-- The target of an assignment is not checked: `1 = 2` is accepted, although it is no Lua program. -/
theorem C61_target_counterexample (L : Lang) (l : Nat) : root L 9 [⟨.num "1", l⟩, ⟨.eq, l⟩, ⟨.num "2", l⟩] =
    some (.cons (.assign (.cons (.num "1") .nil) (.cons (.num "2") .nil)) .nil) := by cases L <;> rfl

/-- Tokens on one line. -/
def line (l : Nat) (ks : List K) : List T := ks.map (⟨·, l⟩)

-- if (a) b=1 c"" else d=2 ⏎ return f{x=1,[y]=2;3}:m(...)^-2..z, not a.b[1] ; end is missing: rejected; with `do ... end`: accepted
example : root .pico8 40
    (line 1 [.kIf, .lp, .id "a", .rp, .id "b", .eq, .num "1", .id "c", .str "", .kElse, .id "d", .eq, .num "2"] ++
     line 2 [.kDo, .kReturn, .id "f", .lc, .id "x", .eq, .num "1", .comma, .lb, .id "y", .rb, .eq, .num "2", .semi, .num "3", .rc, .colon, .id "m", .lp, .dots, .rp,
       .op .caret, .op .minus, .num "2", .op .concat, .id "z", .comma, .op .not_, .id "a", .dot, .id "b", .lb, .num "1", .rb, .kEnd]) =
    some (.cons (.if_ (.shortElse (.group (.var "a"))
        (.cons (.assign (.cons (.var "b") .nil) (.cons (.num "1") .nil)) (.cons (.call (.call (.var "c") true (.cons (.str "") .nil))) .nil))
        (.cons (.assign (.cons (.var "d") .nil) (.cons (.num "2") .nil)) .nil) false))
      (.cons (.do_ (.cons (.return_
        (.cons (.bin .concat (.bin .caret
            (.method (.call (.var "f") true (.cons (.table (.named "x" (.num "1") (.keyed (.var "y") (.num "2") (.pos (.num "3") .nil)))) .nil)) "m" false (.cons .vararg .nil))
            (.un .minus (.num "2"))) (.var "z"))
          (.cons (.un .not_ (.index (.member (.var "a") "b") (.num "1"))) .nil))) .nil)) .nil)) := rfl

-- the same short `if` on two lines is another program: the second line is outside of it
example : root .pico8 40 (line 1 [.kIf, .lp, .id "a", .rp, .id "b", .lp, .rp] ++ line 2 [.id "c", .lp, .rp]) =
    some (.cons (.if_ (.short (.group (.var "a")) (.cons (.call (.call (.var "b") false .nil)) .nil) false))
      (.cons (.call (.call (.var "c") false .nil)) .nil)) := rfl
example : root .pico8 40 (line 1 [.kIf, .lp, .id "a", .rp, .id "b", .lp, .rp, .id "c", .lp, .rp]) =
    some (.cons (.if_ (.short (.group (.var "a")) (.cons (.call (.call (.var "b") false .nil)) (.cons (.call (.call (.var "c") false .nil)) .nil)) false)) .nil) := rfl

-- a longest reading: `a = b (c)()` on two lines is one statement
example : root .picotron 40 (line 1 [.id "a", .eq, .id "b"] ++ line 2 [.lp, .id "c", .rp, .lp, .rp]) =
    some (.cons (.assign (.cons (.var "a") .nil) (.cons (.call (.call (.var "b") false (.cons (.var "c") .nil)) false .nil) .nil)) .nil) := rfl

example : root .picotron 40 (line 1 [.kLocal, .id "x", .op .lt, .id "const", .op .gt, .eq, .num "1", .kFunction, .id "a", .dot, .id "b", .colon, .id "c", .lp, .id "p",
      .comma, .dots, .rp, .kEnd, .kFor, .id "i", .eq, .num "1", .comma, .num "2", .kDo, .kBreak, .kEnd]) =
    some (.cons (.local_ [("x", some "const")] (.cons (.num "1") .nil)) (.cons (.func ⟨"a", ["b"], some "c"⟩ [some "p", none] .nil)
      (.cons (.fornum "i" (.num "1") (.num "2") .nil (.cons .break_ .nil)) .nil))) := rfl

example : root .pico8 40 (line 1 [.kWhile, .lp, .id "a", .rp, .kFunction]) = none := rfl

end Verif.Syntax
