import Verif.LintDup
/-
C70: what the linter warns about.
-/
namespace Verif.Lint
open Syntax LuaLint LuaUses

/-- The linter gives exactly the warnings it should: the `i`th name in the text of a program has a warning just if the rules of `LuaLint` say so, given
how all names are used and which declarations are visible by the rules of Lua. -/
theorem C70_warnings (o : Opts) (lb : List Nm) (b : Block) (i : Nat) (w : Warning) :
    (i, w) ∈ lint o lb b ↔ ∃ a, (LuaUses.program lb b)[i]? = some a ∧ Warns o lb (LuaUses.program lb b) a w :=
  lint_iff o lb b i w

theorem nodup_flat {α : Type} (f : α → List Warning) (h : ∀ a, (f a).Nodup) : ∀ (l : List α) (k : Nat),
    ((l.zipIdx k).flatMap fun p => (f p.1).map fun w => (p.2, w)).Nodup ∧
      ∀ q ∈ (l.zipIdx k).flatMap fun p => (f p.1).map fun w => (p.2, w), k ≤ q.1
  | [], _ => by simp
  | a :: l, k => by
    obtain ⟨h1, h2⟩ := nodup_flat f h l (k + 1)
    rw [List.zipIdx_cons, List.flatMap_cons]
    refine ⟨List.nodup_append.2 ⟨?_, h1, ?_⟩, ?_⟩
    · refine List.Pairwise.map _ ?_ (h a)
      intro x y hxy he
      exact hxy (Prod.mk.inj he).2
    · intro x hx y hy he
      obtain ⟨w, -, rfl⟩ := List.mem_map.1 hx
      have := h2 y hy
      rw [← he] at this
      simp only at this
      omega
    · intro q hq
      rcases List.mem_append.1 hq with hq | hq
      · obtain ⟨w, -, rfl⟩ := List.mem_map.1 hq
        exact Nat.le_refl _
      · have := h2 q hq; omega

/-- No warning is given twice. -/
theorem C70_once (o : Opts) (lb : List Nm) (b : Block) : (lint o lb b).Nodup := by
  refine (nodup_flat (check o (sites lb b) lb) ?_ _ 0).1
  intro p
  have hd : ∀ n v, (dupChecks o (sites lb b) lb n v).Nodup ∧
      ∀ w ∈ dupChecks o (sites lb b) lb n v, w ∈ [Warning.dupGlobal, .dupBuiltin, .dupTop, .dupFunc, .dupScope, .dupSame] := by
    intro n v
    unfold dupChecks dupChecks.global
    split
    · split
      · split_ifs <;> simp
      · split_ifs <;> simp
    · simp
  have hu : ∀ n t v, (unusedChecks o (sites lb b) n t v).Nodup ∧
      ∀ w ∈ unusedChecks o (sites lb b) n t v, w ∈ [Warning.localAssigned, .localUnused] := by
    intro n t v
    unfold unusedChecks
    split_ifs <;> simp
  unfold check
  split
  · rename_i v _
    refine List.nodup_append.2 ⟨(hd _ v).1, (hu _ _ v).1, ?_⟩
    intro x hx y hy he
    subst he
    have h1 := (hd _ v).2 x hx
    have h2 := (hu _ _ v).2 x hy
    cases x <;> simp at h1 h2
  · split
    · unfold globalChecks
      split_ifs <;> simp
    · exact List.nodup_nil

/-- If there are no warnings and undefined names are looked for, then every global that is read is a built-in one, one of the options or one that is
assigned outside functions or in `_init`. -/
theorem C70_clean_defined {o : Opts} {lb : List Nm} {b : Block} (h : lint o lb b = []) (ho : o.undefined = true) {a : At}
    (ha : a ∈ LuaUses.program lb b) (hg : Global lb a) (hr : a.how = .read) :
    a.name ∈ o.builtins ∨ Defined o lb (LuaUses.program lb b) a.name := by
  obtain ⟨i, hi⟩ := List.mem_iff_getElem?.1 ha
  by_cases h1 : a.name ∈ o.builtins
  · exact .inl h1
  · by_cases h2 : Defined o lb (LuaUses.program lb b) a.name
    · exact .inr h2
    · have := (C70_warnings o lb b i .notFound).2 ⟨a, hi, ho, hg, h2, h1, .inl hr⟩
      rw [h] at this
      cases this

/-- If there are no warnings and unused names are looked for, then every local is read somewhere, unless its name starts with `_` or it is a parameter
that can't be left out and is never assigned to. -/
theorem C70_clean_used {o : Opts} {lb : List Nm} {b : Block} (h : lint o lb b = []) (ho : o.unused = true) {a : At} {n : Nat} {l : Bool}
    (ha : a ∈ LuaUses.program lb b) (hd : a.how = .declared n l) :
    LocalRead (LuaUses.program lb b) n ∨ a.name.head? = some 95 ∨ (l = false ∧ ¬ LocalWritten (LuaUses.program lb b) n) := by
  obtain ⟨i, hi⟩ := List.mem_iff_getElem?.1 ha
  have hn : ∀ w, ¬ Warns o lb (LuaUses.program lb b) a w := by
    intro w hw
    have := (C70_warnings o lb b i w).2 ⟨a, hi, hw⟩
    rw [h] at this
    cases this
  by_cases h1 : LocalRead (LuaUses.program lb b) n
  · exact .inl h1
  by_cases h2 : a.name.head? = some 95
  · exact .inr (.inl h2)
  by_cases h3 : LocalWritten (LuaUses.program lb b) n
  · exact absurd ⟨ho, ⟨n, l, hd, h1, h3⟩, h2⟩ (hn .localAssigned)
  · cases l with
    | false => exact .inr (.inr ⟨rfl, h3⟩)
    | true => exact absurd ⟨ho, ⟨n, hd, h1, h3⟩, h2⟩ (hn .localUnused)

/-- If there are no warnings and duplicate names are looked for, then no local hides one that is not of its own function, or of a block around it. -/
theorem C70_clean_distinct {o : Opts} {lb : List Nm} {b : Block} (h : lint o lb b = []) (ho : o.duplicate = true) {a d : At} {n : Nat} {l : Bool}
    (ha : a ∈ LuaUses.program lb b) (hd : a.how = .declared n l) (hn : a.name ∉ [nm "_", nm "_ENV"]) :
    ¬ Hides lb (LuaUses.program lb b) a d := by
  intro hh
  obtain ⟨i, hi⟩ := List.mem_iff_getElem?.1 ha
  have hw : ∀ w, ¬ Warns o lb (LuaUses.program lb b) a w := by
    intro w hw
    have := (C70_warnings o lb b i w).2 ⟨a, hi, hw⟩
    rw [h] at this
    cases this
  by_cases h1 : d.fn < a.fn
  · by_cases h2 : d.fn = 1
    · exact hw .dupTop ⟨ho, ⟨n, l, hd⟩, hn, d, hh, h1, h2⟩
    · exact hw .dupFunc ⟨ho, ⟨n, l, hd⟩, hn, d, hh, h1, h2⟩
  · by_cases h2 : d.depth < a.depth
    · exact hw .dupScope ⟨ho, ⟨n, l, hd⟩, hn, d, hh, h1, h2⟩
    · exact hw .dupSame ⟨ho, ⟨n, l, hd⟩, hn, d, hh, h1, h2⟩

/-! ### Examples -/

def exOpts : Opts := ⟨true, true, true, true, true, ["g"], ["u"], ["print", "t"]⟩

-- function f() x,y=10,20 local z=x+y return z end f()       (README.md 608-613)
example : lint exOpts [] (.cons (.func ⟨"f", [], none⟩ [] (.cons (.assign (.cons (.var "x") (.cons (.var "y") .nil)) (.cons (.num "10") (.cons (.num "20") .nil)))
    (.cons (.local_ [("z", none)] (.cons (.bin .plus (.var "x") (.var "y")) .nil)) (.cons (.return_ (.cons (.var "z") .nil)) .nil))))
    (.cons (.call (.call (.var "f") false .nil)) .nil)) =
    [(1, .notFoundAssigned), (2, .notFoundAssigned), (4, .notFound), (5, .notFound)] := by rfl

-- local function _init() a=g t=a b=1 end _init() function k() t=1 c+=1 end k()       (`t`, `a` are defined; `b` is not used; `c` is not defined)
example : lint exOpts [] (.cons (.localfn "_init" [] (.cons (.assign (.cons (.var "a") .nil) (.cons (.var "g") .nil))
    (.cons (.assign (.cons (.var "t") .nil) (.cons (.var "a") .nil)) (.cons (.assign (.cons (.var "b") .nil) (.cons (.num "1") .nil)) .nil))))
    (.cons (.call (.call (.var "_init") false .nil)) (.cons (.func ⟨"k", [], none⟩ [] (.cons (.assign (.cons (.var "t") .nil) (.cons (.num "1") .nil))
    (.cons (.opassign .plus (.var "c") (.num "1")) .nil))) (.cons (.call (.call (.var "k") false .nil)) .nil)))) =
    [(3, .globalAssigned), (5, .globalAssigned), (8, .globalAssigned), (9, .notFound), (9, .globalAssigned)] := by rfl

-- local x=t do local x=x for _=1,x do local _ end end return function(x,a,b,c) local t=function(b) x=b end local x end
example : lint exOpts [] (.cons (.local_ [("x", none)] (.cons (.var "t") .nil)) (.cons (.do_ (.cons (.local_ [("x", none)] (.cons (.var "x") .nil))
    (.cons (.fornum "_" (.num "1") (.var "x") .nil (.cons (.local_ [("_", none)] .nil) .nil)) .nil)))
    (.cons (.return_ (.cons (.func [some "x", some "a", some "b", some "c"] (.cons (.local_ [("t", none)] (.cons (.func [some "b"]
      (.cons (.assign (.cons (.var "x") .nil) (.cons (.var "b") .nil)) .nil)) .nil)) (.cons (.local_ [("x", none)] .nil) .nil))) .nil)) .nil))) =
    [(2, .dupScope), (7, .dupTop), (7, .localAssigned), (10, .localUnused), (11, .dupBuiltin), (11, .localUnused), (12, .dupFunc),
     (15, .dupSame), (15, .localUnused)] := by rfl

-- `local x,x=1,2 print(x)`: names that are declared together are not compared
example : lint exOpts [] (.cons (.local_ [("x", none), ("x", none)] (.cons (.num "1") (.cons (.num "2") .nil)))
    (.cons (.call (.call (.var "print") false (.cons (.var "x") .nil))) .nil)) = [(0, .localUnused)] := by rfl

-- the hypotheses of C70_clean_…:  local x=t function f(a,b) return b+x end f()
example : lint exOpts [] (.cons (.local_ [("x", none)] (.cons (.var "t") .nil)) (.cons (.func ⟨"f", [], none⟩ [some "a", some "b"]
    (.cons (.return_ (.cons (.bin .plus (.var "b") (.var "x")) .nil)) .nil)) (.cons (.call (.call (.var "f") false .nil)) .nil))) = [] := by rfl

end Verif.Lint
