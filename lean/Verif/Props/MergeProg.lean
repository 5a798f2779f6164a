import Verif.MergeProgChain
import Verif.Props.FoldProg
/-
C75: merging consecutive local declarations, over whole programs with functions.
-/
namespace Verif.Core
open Spec

/-- The merged program does what the program does: with the same arguments, in the same world (which may call functions of the program at
any time), it returns the same values, fails or runs on alike and leaves the world in the same state after any number of steps.  `drive` is
what happens once the program has been loaded.

Assumed: every declaration is a variable of its own and used in its scope only (what C62 makes of a text), and no declaration is followed by
one without expressions that would take the rest of its values (`NoBareBl`, see C75_bare_counterexample).  No `_ENV`, no goto. -/
theorem C75_meaning_partial {H : Type} (w : World H) (lang : Lang) (o : Merge) {b : List St} (hs : ScopedBl [] b) (hn : (declaredBl b).Nodup)
    (hb : NoBareBl b = true) (n : Nat) (va : List V) (drive : List V → H → Act H) (h : H) :
    (play w lang n va drive (mergeProgram o b) h).seen = (play w lang n va drive b h).seen :=
  Mrg.chain_seen w lang (Mrg.cBl b hb hn) hs n va drive h

/-- Merging keeps what it assumes: every use still lies in the scope of its declaration, and the same variables are declared, each once. -/
theorem C75_scoped (o : Merge) {b : List St} (hs : ScopedBl [] b) (hn : (declaredBl b).Nodup) (hb : NoBareBl b = true) :
    ScopedBl [] (mergeProgram o b) ∧ (declaredBl (mergeProgram o b)).Nodup :=
  ⟨Mrg.chain_scoped (Mrg.cBl b hb hn) hs, (Mrg.cBl b hb hn).nodup hn⟩

/-- Merging is safe after renaming: if by its name every use means the variable it is, it still does so in the merged program, although
declarations of equal name may have changed their order. -/
theorem C75_names (o : Merge) {b : List St} (hn : (declaredBl b).Nodup) (hb : NoBareBl b = true) (h : NamedBl o.name [] b) :
    NamedBl o.name [] (mergeProgram o b) :=
  Mrg.chain_named (Mrg.cBl b hb hn) h

/-! ### Examples -/

def anyMerge : Merge := ⟨id, fun _ => false⟩

/-- `local a,z local b=3 local function f(p) local q=p local r,s=b,p return q+r+s end local c,d=f(a or 1),b print(c,d,z)` -/
def merging : List St :=
  [.locals [0, 9] [],
   .locals [1] [num 3],
   .localFn 2 [3] false [.locals [4] [.var 3], .locals [5, 6] [.var 1, .var 3], .ret [.bin .add (.bin .add (.var 4) (.var 5)) (.var 6)]],
   .locals [7, 8] [.call (.var 2) [.bin .or (.var 0) (num 1)], .var 1],
   .eval (.op 0 true [.var 7, .var 8, .var 9])]

/-- `local b,a,z=3 local function f(p) local q,r,s=p,b,p return q+r+s end local c,d=f(a or 1),b print(c,d,z)` -/
def merging' : List St :=
  [.locals [1, 0, 9] [num 3],
   .localFn 2 [3] false [.locals [4, 5, 6] [.var 3, .var 1, .var 3], .ret [.bin .add (.bin .add (.var 4) (.var 5)) (.var 6)]],
   .locals [7, 8] [.call (.var 2) [.bin .or (.var 0) (num 1)], .var 1],
   .eval (.op 0 true [.var 7, .var 8, .var 9])]

example : mergeProgram anyMerge merging = merging' := rfl

example : ScopedBl [] merging ∧ (declaredBl merging).Nodup ∧ NoBareBl merging = true ∧ NamedBl id [] merging := by
  refine ⟨?_, by decide, rfl, ?_⟩
  · simp [merging, num, ScopedBl, St.Scoped, Ex.Scoped, ScopedEs, St.decls]
  · simp [merging, num, NamedBl, St.Named, Ex.Named, NamedEs, St.decls, Means]

example : (play (console .pico8 true) .pico8 20 [] (fun vs h => .ret vs h) merging []).seen =
    .ok [] [(0, [.base (.num 0x50000#32), .base (.num 0x30000#32), .nil])] := rfl

/-- A declaration that uses what is declared before it is left alone, and so is one that bears a no-merge hint. -/
example : mergeProgram anyMerge [.locals [0] [num 1], .locals [1] [.var 0]] = [.locals [0] [num 1], .locals [1] [.var 0]] ∧
    mergeProgram ⟨id, fun ys => ys == [1]⟩ [.locals [0] [num 1], .locals [1] [num 2]] = [.locals [0] [num 1], .locals [1] [num 2]] ∧
    mergeProgram anyMerge [.locals [0] [num 1], .locals [1] [num 2]] = [.locals [0, 1] [num 1, num 2]] := ⟨rfl, rfl, rfl⟩

/-- With both variables named alike, `local a local a=1` is left alone: merged it would be `local a,a=1`, where the last `a` is nil. -/
example : mergeProgram ⟨fun _ => 0, fun _ => false⟩ [.locals [0] [], .locals [1] [num 1], .ret [.var 1]] =
      [.locals [0] [], .locals [1] [num 1], .ret [.var 1]] ∧
    NamedBl (fun _ => 0) [] [.locals [0] [], .locals [1] [num 1], .ret [.var 1]] ∧
    ¬NamedBl (fun _ => 0) [] [.locals [1, 0] [num 1], .ret [.var 1]] := by
  refine ⟨rfl, ?_, ?_⟩ <;> simp [num, NamedBl, St.Named, Ex.Named, NamedEs, St.decls, Means]

/-- `local a=1 local a=2 return a` with both named alike is merged: in `local a,a=1,2` the second `a` still wins. -/
example : mergeProgram ⟨fun _ => 0, fun _ => false⟩ [.locals [0] [num 1], .locals [1] [num 2], .ret [.var 1]] =
      [.locals [0, 1] [num 1, num 2], .ret [.var 1]] ∧
    NamedBl (fun _ => 0) [] [.locals [0, 1] [num 1, num 2], .ret [.var 1]] := by
  refine ⟨rfl, ?_⟩
  simp [num, NamedBl, St.Named, Ex.Named, NamedEs, St.decls, Means]

/-! ### A counterexample -/

/-- `local x=g() local y print(x,y)` becomes `local x,y=g() print(x,y)`: `y` takes the second result of `g`, and something else is
printed. -/
theorem C75_bare_counterexample : ∃ b, ScopedBl [] b ∧ (declaredBl b).Nodup ∧
    (play (console .pico8 true) .pico8 9 [] (fun vs h => .ret vs h) b []).seen = .ok [] [(7, []), (0, [.obj 7, .nil])] ∧
    (play (console .pico8 true) .pico8 9 [] (fun vs h => .ret vs h) (mergeProgram anyMerge b) []).seen =
      .ok [] [(7, []), (0, [.obj 7, .obj 8])] := by
  refine ⟨[.locals [0] [.op 7 true []], .locals [1] [], .eval (.op 0 true [.var 0, .var 1])], ?_, by decide, rfl, rfl⟩
  simp [ScopedBl, St.Scoped, Ex.Scoped, ScopedEs, St.decls]

end Verif.Core
