import Verif.FoldProgScope
/-
C74: replacing constant locals by their values, over whole programs with functions.
-/
namespace Verif.Core
open Spec

/-- The folded program does what the program does: with the same arguments, in the same world (which may call functions of the program at
any time and sees every global, table and message), it returns the same values, fails or runs on alike and leaves the world in the same
state after any number of steps.  `drive` is what happens once the program has been loaded.

Assumed: every declaration is a variable of its own and used in its scope only (what C62 makes of a text), operators and builtin functions
compute on constants what the runtime computes, and the program avoids the two constructs folding mishandles (`PlainBl`, see
C25_expose_counterexample and C24_count_counterexample). -/
theorem C74_meaning_partial {H : Type} {w : World H} {arith : Bool} (c : Fold) (hw : w.Ok c.lang arith) {b b' : List St} (hs : ScopedBl [] b)
    (hn : (declaredBl b).Nodup) (hp : PlainBl c.lang b) (h : foldProgram c b = some b') (n : Nat) (va : List V) (drive : List V → H → Act H)
    (hp : H) : (play w c.lang n va drive b' hp).seen = (play w c.lang n va drive b hp).seen := by
  rename_i hpl
  simp only [foldProgram, Option.map_eq_some_iff] at h
  obtain ⟨p, h, rfl⟩ := h
  obtain ⟨G, hG⟩ := exists_consts (c := { c with reassigned := fun x => (writesBl b).count x }) (fun _ => rfl) hs hpl hn
  exact play_sim (c := { c with reassigned := fun x => (writesBl b).count x }) hw hG h n va drive hp

/-- In the folded program, too, every use of a local variable lies in the scope of its declaration: no use is left of a variable whose
declaration was removed. -/
theorem C74_scoped (c : Fold) {b b' : List St} (hs : ScopedBl [] b) (hn : (declaredBl b).Nodup) (hp : PlainBl c.lang b)
    (h : foldProgram c b = some b') : ScopedBl [] b' := by
  simp only [foldProgram, Option.map_eq_some_iff] at h
  obtain ⟨p, h, rfl⟩ := h
  obtain ⟨G, hG⟩ := exists_consts (c := { c with reassigned := fun x => (writesBl b).count x }) (fun _ => rfl) hs hp hn
  exact (foldBl_scoped b (fun x h => by cases h) (fun x h => by cases h) hG h).1

/-! ### An example -/

def plainC : Fold := ⟨.pico8, 9, false, fun _ => none, fun _ => 0, fun _ _ => false⟩

def num (n : Nat) : Ex := .const (.fix (n * 65536))

/-- `local n=5 local a,b=n*2,3 local function f(p) return p+a end b=b+1 if n>4 then print(f(b),n) else print(0) end` -/
def sample : List St :=
  [.locals [0] [num 5],
   .locals [1, 2] [.bin .mul (.var 0) (num 2), num 3],
   .localFn 3 [4] false [.ret [.bin .add (.var 4) (.var 1)]],
   .assign [.loc 2] [.bin .add (.var 2) (num 1)],
   .ifS (.bin .gt (.var 0) (num 4)) [.eval (.op 0 true [.call (.var 3) [.var 2], .var 0])] (.else_ [.eval (.op 0 true [num 0])])]

/-- `local b=3 local function f(p) return p+10 end b=b+1 print(f(b),5)` -/
def sample' : List St :=
  [.locals [2] [num 3],
   .localFn 3 [4] false [.ret [.bin .add (.var 4) (num 10)]],
   .assign [.loc 2] [.bin .add (.var 2) (num 1)],
   .eval (.op 0 true [.call (.var 3) [.var 2], num 5])]

theorem num_good (n : Nat) (h : n < 65536) : LV.Good .pico8 (.fix (n * 65536)) := by
  refine ⟨⟨.num (BitVec.ofNat 32 (n * 65536)), ?_⟩, fun h => by cases h⟩
  simp only [LV.repr, true_and]
  rw [if_pos (by omega)]

example : foldProgram plainC sample = some sample' := rfl

example : ScopedBl [] sample ∧ (declaredBl sample).Nodup ∧ PlainBl plainC.lang sample ∧ (console .pico8 true).Ok plainC.lang true := by
  refine ⟨?_, by decide, ?_, console_ok _ _⟩
  · simp [sample, num, ScopedBl, St.Scoped, Ex.Scoped, ScopedEs, ScopedTs, Tg.Scoped, El.Scoped, St.decls]
  · simp [sample, num, PlainBl, St.Plain, Ex.Plain, PlainEs, PlainTs, Tg.Plain, El.Plain, plainC, Ex.several, BinOp.logic]
    exact ⟨num_good 5 (by decide), ⟨num_good 2 (by decide), num_good 3 (by decide)⟩, num_good 1 (by decide), num_good 4 (by decide),
      num_good 0 (by decide)⟩

example : (play (console .pico8 true) .pico8 10 [] (fun vs h => .ret vs h) sample []).seen =
    .ok [] [(0, [.base (.num 0xE0000#32), .base (.num 0x50000#32)])] := rfl

/-! ### Counterexamples -/

/-- `local a,b,c=g(),1 c=c print(a,c)` becomes `local a,c=g() c=c print(a,c)`: the constant 1 no longer keeps the second result of `g` out,
and something else is printed. -/
theorem C74_expose_counterexample : ∃ b b', ScopedBl [] b ∧ (declaredBl b).Nodup ∧ foldProgram plainC b = some b' ∧
    (play (console .pico8 true) .pico8 9 [] (fun vs h => .ret vs h) b []).seen = .ok [] [(7, []), (0, [.obj 7, .nil])] ∧
    (play (console .pico8 true) .pico8 9 [] (fun vs h => .ret vs h) b' []).seen = .ok [] [(7, []), (0, [.obj 7, .obj 8])] := by
  refine ⟨[.locals [0, 1, 2] [.op 7 true [], num 1], .assign [.loc 2] [.var 2], .eval (.op 0 true [.var 0, .var 2])],
    [.locals [0, 2] [.op 7 true []], .assign [.loc 2] [.var 2], .eval (.op 0 true [.var 0, .var 2])], ?_, by decide, rfl, rfl, rfl⟩
  simp [num, ScopedBl, St.Scoped, Ex.Scoped, ScopedEs, ScopedTs, Tg.Scoped, St.decls]

/-- What the grammar allows before `.name`, `[key]`, `:name` and `(args)` (see C61). -/
def Ex.isPrefix : Ex → Bool
  | .var _ => true
  | .group _ => true
  | .call _ _ => true
  | .builtin _ _ => true
  | .index _ _ => true
  | .op _ _ _ => true
  | _ => false

/-- `local --[[const]] s="abc" print(s.x)` becomes `print("abc".x)`, which is no program: the constant is put where the grammar wants a
prefix expression, without parentheses. -/
theorem C74_prefix_counterexample (k : Ex) (hk : k = .const (.str [120])) : ∃ e e', e.isPrefix = true ∧ e'.isPrefix = false ∧
    foldProgram { plainC with attr := fun _ => some true } [.locals [0] [.const (.str [97, 98, 99])], .eval (.op 0 true [.index e k])] =
      some [.eval (.op 0 true [.index e' k])] :=
  ⟨.var 0, .const (.str [97, 98, 99]), rfl, rfl, by subst hk; rfl⟩

end Verif.Core
