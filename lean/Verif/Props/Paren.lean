import Verif.ParenMinLemmas
/-! C31: removing parentheses (and the token fixups that go with it) keeps the meaning of every
expression. -/
namespace Verif.Paren

/-- The places an expression can have in a statement. -/
def rootCtx : Ctx → Bool
  | .single | .last | .keep => true
  | _ => false

/-- C31: for every token sequence that parses as an expression, the token sequence that the minifier
writes for it parses again, in front of anything that can follow an expression, and the result is
exactly the tree that the minifier had, with nothing captured by a neighbouring operator. -/
theorem C31_reparse {M : Type → Type} [Monad M] [LawfulMonad M] {V : Type} (I : Interp M V)
    (L : Lang) (v37 f : Bool) (fmt : Bool → Int → NumOut) (hk : FmtOk L I fmt) (c : Ctx)
    (hc : rootCtx c = true) (n : Nat) (toks rest rest' : List Tok) (e : Ex)
    (h : parseExpr L n none toks = some (e, rest)) (hr : EndsExpr rest') :
    ∃ k, ∀ m, k ≤ m → parseExpr L m none (pr (minify L v37 f fmt c e) ++ rest') =
      some (minify L v37 f fmt c e, rest') := by
  have hf := ((parse_sound L n).2.1 none toks e rest h).1
  have hok : CtxOk L c none e := by cases c <;> simp_all [rootCtx, CtxOk]
  obtain ⟨h1, h2⟩ := mn_fit L f e c none hok hf
  exact reparse (fx_fit v37 hk _ c none h2 h1).1 hr

/-- C31: paren removal changes nothing but parentheses: the trees without any parentheses agree. -/
theorem C31_same_tree (f : Bool) (c : Ctx) (e : Ex) : bare (mn f c e) = bare e :=
  mn_bare f e c

/-- C31: the minified expression has the same values as the original one, for every interpretation
of the operators and every kind of effects; this includes that a call or `...` in parentheses in the
last place of a list is still cut down to one value. -/
theorem C31_same_values {M : Type → Type} [Monad M] [LawfulMonad M] {V : Type} (I : Interp M V)
    (L : Lang) (v37 f : Bool) (fmt : Bool → Int → NumOut) (hk : FmtOk L I fmt)
    (ho : OpsOk L v37 I) (e : Ex) :
    den I (minify L v37 f fmt .last e) = den I e ∧
    den I (minify L v37 f fmt .keep e) = den I e ∧
    first I (den I (minify L v37 f fmt .single e)) = first I (den I e) := by
  unfold minify
  simp only [fx_den hk ho]
  exact ⟨(mn_den I f e .last).1 rfl, (mn_den I f e .keep).1 rfl, (mn_den I f e .single).2⟩

/-- C31: text to text.  What the parser reads from the minified tokens has the values of what it
read from the original ones. -/
theorem C31_text_values {M : Type → Type} [Monad M] [LawfulMonad M] {V : Type} (I : Interp M V)
    (L : Lang) (v37 f : Bool) (fmt : Bool → Int → NumOut) (hk : FmtOk L I fmt)
    (ho : OpsOk L v37 I) (n : Nat) (toks rest rest' : List Tok) (e : Ex)
    (h : parseExpr L n none toks = some (e, rest)) (hr : EndsExpr rest') :
    ∃ k, ∀ m, k ≤ m → ∃ e', parseExpr L m none (pr (minify L v37 f fmt .last e) ++ rest') =
      some (e', rest') ∧ den I e' = den I e := by
  obtain ⟨k, hk'⟩ := C31_reparse I L v37 f fmt hk .last rfl n toks rest rest' e h hr
  exact ⟨k, fun m hm => ⟨_, hk' m hm, (C31_same_values I L v37 f fmt hk ho e).1⟩⟩

/-! Concrete cases. -/

/-- A formatter that writes negative numbers with a sign where it may. -/
def demoFmt (b : Bool) (v : Int) : NumOut :=
  if b && decide (v < 0) then .signed .minus (-v) else .plain v

/-- Integers with some operators (others fail); calls return all their arguments. -/
def demoI : Interp Option Int where
  nil := 0
  cst n := (n : Int)
  num v := v
  str n := (n : Int)
  fn n := some (n : Int)
  var n := some (n : Int)
  varargs := some [7, 8, 9]
  un o v := match o with | .minus => some (-v) | _ => none
  bin o a b := match o with
    | .plus => do pure ((← a) + (← b))
    | .minus => do pure ((← a) - (← b))
    | .star => do pure ((← a) * (← b))
    | .or_ => do let x ← a; if x = 0 then b else pure x
    | _ => none
  member v n := some (v + (n : Int))
  index v w := some (v * w)
  call _ vs := some vs
  method _ _ vs := some vs
  table vs := some (vs.length : Int)

theorem demo_fmtOk : FmtOk .pico8 demoI demoFmt where
  plain b v w h := by
    unfold demoFmt at h
    split at h <;> simp_all
  signed b v o w h := by
    unfold demoFmt at h
    split at h
    · rename_i hb
      simp only [NumOut.signed.injEq] at h
      obtain ⟨rfl, rfl⟩ := h
      simp only [Bool.and_eq_true] at hb
      exact ⟨hb.1, rfl, by simp [demoI]⟩
    · simp at h
  parens b v o w h := by
    unfold demoFmt at h
    split at h <;> simp_all

theorem demo_opsOk : OpsOk .pico8 true demoI := ⟨rfl, fun _ => rfl, fun _ => rfl⟩

/-- `(a - (b - c)) * (-5)`, where constant folding has made the last operand a negative number. -/
def demoE : Ex :=
  .bin .star (.group (.bin .minus (.var 1) (.group (.bin .minus (.var 2) (.var 3)))))
    (.group (.num (-5)))

/-- Its tokens. -/
def demoToks : List Tok :=
  [.lp, .id 1, .op .minus, .lp, .id 2, .op .minus, .id 3, .rp, .rp, .op .star, .lp, .num (-5), .rp]

example : (parseExpr .pico8 20 none demoToks).isSome = true := by decide +kernel

/-- Only the parentheses around the number go: `(a-(b-c))*-5`. -/
example : pr (minify .pico8 true false demoFmt .last demoE) =
    [.lp, .id 1, .op .minus, .lp, .id 2, .op .minus, .id 3, .rp, .rp, .op .star, .op .minus,
      .num 5] := by decide +kernel

/-- `((a - b) - c) + ((d ^ e) * f)` loses all its parentheses, `(a ^ b) ^ (-c)` none. -/
example : pr (mn false .last (.bin .plus
      (.group (.bin .minus (.group (.bin .minus (.var 1) (.var 2))) (.var 3)))
      (.group (.bin .star (.group (.bin .caret (.var 4) (.var 5))) (.var 6))))) =
    [.id 1, .op .minus, .id 2, .op .minus, .id 3, .op .plus, .id 4, .op .caret, .id 5, .op .star,
      .id 6] ∧
    pr (mn false .last (.bin .caret (.group (.bin .caret (.var 1) (.var 2)))
      (.group (.un .minus (.var 3))))) =
    [.lp, .id 1, .op .caret, .id 2, .rp, .op .caret, .lp, .op .minus, .id 3, .rp] := by
  decide +kernel

/-- `f((g()), (h()))` becomes `f(g(), (h()))`: the last argument stays one value. -/
example : pr (mn false .last (.call (.var 1) false (.cons (.group (.call (.var 2) false .nil))
      (.cons (.group (.call (.var 3) false .nil)) .nil)))) =
    [.id 1, .lp, .id 2, .lp, .rp, .comma, .lp, .id 3, .lp, .rp, .rp, .rp] := by decide +kernel

/-- With the token focus, `(-5) ^ a` loses its parentheses and the number is written without a
sign; otherwise the parentheses stay. -/
example : pr (minify .pico8 true true demoFmt .last (.bin .caret (.group (.num (-5))) (.var 1))) =
      [.num (-5), .op .caret, .id 1] ∧
    pr (minify .pico8 true false demoFmt .last (.bin .caret (.group (.num (-5))) (.var 1))) =
      [.lp, .op .minus, .num 5, .rp, .op .caret, .id 1] := by decide +kernel

/-- The text-level theorem applies to the sample. -/
example : ∃ k, ∀ m, k ≤ m → ∃ e', parseExpr .pico8 m none
    (pr (minify .pico8 true false demoFmt .last demoE) ++ [.rp]) = some (e', [.rp]) ∧
      den demoI e' = den demoI demoE := by
  refine C31_text_values demoI .pico8 true false demoFmt demo_fmtOk demo_opsOk 20 demoToks [] [.rp]
    demoE ?_ ?_
  · simp [demoToks, demoE, parseExpr, parseCore, parseLoop, isBin, accepts]
  · intro t r h
    cases h
    exact ⟨rfl, by simp⟩

end Verif.Paren
