import Verif.ResolveLabels
import Verif.Props.Syntax
/-
C62: the parser resolves names as Lua does.
-/
namespace Verif.Resolve
open Syntax

/-- Every name of a program is resolved as the visibility rules of Lua say: in the order of the text, the same occurrences declare locals, refer
to the same declarations, are globals of the same `_ENV`, or keys. -/
theorem C62_scopes (lb : List Nm) (b : Block) : (nodes lb b).map occOf = LuaScope.program lb b := by
  obtain ⟨-, -, -, -, h⟩ := (pB b).block true (start lb)
  unfold nodes evRoot LuaScope.program
  rw [h]
  simp only [start, flat_root]

/-- Every `goto` is resolved to the label that the visibility rules of Lua say, if there is one. -/
theorem C62_labels (lb : List Nm) (b : Block) :
    ((nodes lb b).filter fun n => n.ref == .goto_).map (fun n => (gotoLabel (nodes lb b) n).map (·.id)) = LuaLabels.program b := by
  rw [← targets_root lb b, targets]
  unfold gotoLabel
  generalize labelsOf (nodes lb b) = all
  generalize nodes lb b = ns
  induction ns with
  | nil => rfl
  | cons n ns ih =>
    by_cases h : n.ref = .goto_
    · simp [h, ih, named]
    · simp [h, ih]

/-- Together with C61: for every text the parser accepts, the tree is that of the grammar and its names are resolved as in Lua. -/
theorem C62_text {L : Paren.Lang} {n : Nat} {ts : List T} {b : Block} (lb : List Nm) (h : root L n ts = some b) :
    LuaGrammar.Program L ts b ∧ (nodes lb b).map occOf = LuaScope.program lb b :=
  ⟨C61_sound h, C62_scopes lb b⟩


open LuaScope (Occ)

-- local x=x  local function f(a,...) return f(a,x) end  repeat local y=f until y
example : (nodes [] (.cons (.local_ [("x", none)] (.cons (.var "x") .nil))
    (.cons (.localfn "f" [some "a", none] (.cons (.return_ (.cons (.call (.var "f") false (.cons (.var "a") (.cons (.var "x") .nil))) .nil)) .nil))
    (.cons (.repeat_ (.cons (.local_ [("y", none)] (.cons (.var "f") .nil)) .nil) (.var "y")) .nil)))).map occOf =
    [.bind 1, .glob "x" (some 0), .bind 2, .bind 3, .loc 2, .loc 3, .loc 1, .bind 4, .loc 2, .loc 4] := by rfl

-- function t.a:m(self) self.x=self end  for i=i,2 do ? i end  local _ENV={i=i}  i=_ENV.i
example : (nodes ["t"] (.cons (.func ⟨"t", ["a"], some "m"⟩ [some "self"] (.cons (.assign (.cons (.member (.var "self") "x") .nil) (.cons (.var "self") .nil)) .nil))
    (.cons (.fornum "i" (.var "i") (.num "2") .nil (.cons (.print (.cons (.var "i") .nil)) .nil))
    (.cons (.local_ [("_ENV", none)] (.cons (.table (.named "i" (.var "i") .nil)) .nil))
    (.cons (.assign (.cons (.var "i") .nil) (.cons (.member (.var "_ENV") "i") .nil)) .nil))))).map occOf =
    [.loc 1, .key "a" false, .key "m" false, .bind 2, .bind 3, .loc 3, .key "x" false, .loc 3,
     .bind 4, .glob "i" (some 0), .loc 4, .glob "print" (some 0),
     .bind 5, .key "i" true, .glob "i" (some 0), .glob "i" (some 5), .loc 5, .key "i" true] := by rfl

-- do goto a end ::a:: f=function() goto a ::a:: do goto a ::a:: end end goto b
example : LuaLabels.program (.cons (.do_ (.cons (.goto_ "a") .nil)) (.cons (.label "a")
    (.cons (.assign (.cons (.var "f") .nil) (.cons (.func [] (.cons (.goto_ "a") (.cons (.label "a")
      (.cons (.do_ (.cons (.goto_ "a") (.cons (.label "a") .nil))) .nil)))) .nil)) (.cons (.goto_ "b") .nil)))) =
    [some 0, some 1, some 2, none] := by rfl

-- tokens of:  local x=1 do local x=x end x=x
example : (root .pico8 30 (line 1 [.kLocal, .id "x", .eq, .num "1", .kDo, .kLocal, .id "x", .eq, .id "x", .kEnd, .id "x", .eq, .id "x"])).map
    (fun b => (nodes [] b).map occOf) = some [.bind 1, .bind 2, .loc 1, .loc 1, .loc 1] := by rfl

end Verif.Resolve
