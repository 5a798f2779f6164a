import Verif.SourceLemmas
import Verif.Minify
import Verif.Spec.LuaGrammar
/-
The tokens in the output of a tree: where line breaks are, that they come from the source, and what minifying does to them.
-/
namespace Verif.Mini
open Syntax
open LuaGrammar
open Paren (Op Lang Ctx)

set_option linter.unusedTactic false
set_option linter.unusedSectionVars false
set_option linter.unusedSimpArgs false

variable (th : K)

/-! ### Line breaks -/

@[simp] theorem quiet_sepEs {es : Exs} : Quiet (sepEs es) := by cases es <;> trivial
@[simp] theorem quiet_sepIts {its : Its} : Quiet (sepIts its) := by cases its <;> trivial
@[simp] theorem quiet_eqEs {es : Exs} : Quiet (eqEs es) := by cases es <;> trivial
@[simp] theorem quiet_names : ∀ {xs : List Nm}, Quiet (prNames xs)
  | [] => trivial
  | [_] => trivial
  | _ :: y :: xs => quiet_names (xs := y :: xs)
@[simp] theorem quiet_attr {a : Option Nm} : Quiet (prAttr a) := by cases a <;> trivial
@[simp] theorem quiet_locals : ∀ {xs : List (Nm × Option Nm)}, Quiet (prLocals xs)
  | [] => trivial
  | [x] => quiet_attr (a := x.2)
  | x :: y :: xs => quiet_append.2 ⟨quiet_attr (a := x.2), quiet_locals (xs := y :: xs)⟩
@[simp] theorem quiet_params : ∀ {ps : List Param}, Quiet (prParams ps)
  | [] => trivial
  | [_] => trivial
  | _ :: y :: ps => quiet_params (ps := y :: ps)
theorem quiet_keys : ∀ {xs : List Nm}, Quiet (xs.flatMap fun x => [.t .dot, .t (.id x)])
  | [] => trivial
  | _ :: xs => quiet_keys (xs := xs)
@[simp] theorem quiet_name {f : FnName} : Quiet (prName f) := by
  refine quiet_append.2 ⟨quiet_keys, ?_⟩
  cases f.meth <;> trivial

mutual
theorem quietE : ∀ (x : Ex), Quiet (prE th true x)
  | .var x => by
    simp_all [prE]
  | .num x => by
    simp_all [prE]
  | .str x => by
    simp_all [prE]
  | .cst x => by
    simp_all [prE]
  | .vararg => by
    simp_all [prE]
  | .func ps b => by
    have ih1 := quietB b
    simp_all [prE]
  | .group e => by
    have ih1 := quietE e
    simp_all [prE]
  | .un o e => by
    have ih1 := quietE e
    simp_all [prE]
  | .bin o l r => by
    have ih1 := quietE l
    have ih2 := quietE r
    simp_all [prE]
  | .member b x => by
    have ih1 := quietE b
    simp_all [prE]
  | .index b k => by
    have ih1 := quietE b
    have ih2 := quietE k
    simp_all [prE]
  | .call b false as => by
    have ih1 := quietE b
    have ih2 := quietEs as
    simp_all [prE]
  | .call b true as => by
    have ih1 := quietE b
    have ih2 := quietEs as
    simp_all [prE]
  | .method b x false as => by
    have ih1 := quietE b
    have ih2 := quietEs as
    simp_all [prE]
  | .method b x true as => by
    have ih1 := quietE b
    have ih2 := quietEs as
    simp_all [prE]
  | .table its => by
    have ih1 := quietIts its
    simp_all [prE]
theorem quietEs : ∀ (x : Exs), Quiet (prEs th true x)
  | .nil => by
    simp_all [prEs]
  | .cons e es => by
    have ih1 := quietE e
    have ih2 := quietEs es
    simp_all [prEs]
theorem quietIts : ∀ (x : Its), Quiet (prIts th true x)
  | .nil => by
    simp_all [prIts]
  | .pos e its => by
    have ih1 := quietE e
    have ih2 := quietIts its
    simp_all [prIts]
  | .named x e its => by
    have ih1 := quietE e
    have ih2 := quietIts its
    simp_all [prIts]
  | .keyed k e its => by
    have ih1 := quietE k
    have ih2 := quietE e
    have ih3 := quietIts its
    simp_all [prIts]
theorem quietS : ∀ (x : St), Quiet (prS th true x)
  | .do_ b => by
    have ih1 := quietB b
    simp_all [prS]
  | .if_ i => by
    have ih1 := quietI i
    simp_all [prS]
  | .while_ e b => by
    have ih1 := quietE e
    have ih2 := quietB b
    simp_all [prS]
  | .whileShort e b d => by
    have ih1 := quietE e
    have ih2 := quietB b
    simp_all [prS, brk]
  | .repeat_ b e => by
    have ih1 := quietB b
    have ih2 := quietE e
    simp_all [prS]
  | .fornum x a b s d => by
    have ih1 := quietE a
    have ih2 := quietE b
    have ih3 := quietEs s
    have ih4 := quietB d
    simp_all [prS]
  | .forin xs es d => by
    have ih1 := quietEs es
    have ih2 := quietB d
    simp_all [prS]
  | .break_ => by
    simp_all [prS]
  | .return_ es => by
    have ih1 := quietEs es
    simp_all [prS]
  | .local_ xs es => by
    have ih1 := quietEs es
    simp_all [prS]
  | .localfn x ps b => by
    have ih1 := quietB b
    simp_all [prS]
  | .goto_ x => by
    simp_all [prS]
  | .label x => by
    simp_all [prS]
  | .func f ps b => by
    have ih1 := quietB b
    simp_all [prS]
  | .assign ts es => by
    have ih1 := quietEs ts
    have ih2 := quietEs es
    simp_all [prS]
  | .opassign o t e => by
    have ih1 := quietE t
    have ih2 := quietE e
    simp_all [prS]
  | .call e => by
    have ih1 := quietE e
    simp_all [prS]
  | .print es => by
    have ih1 := quietEs es
    simp_all [prS, brk]
theorem quietI : ∀ (x : If), Quiet (prI th true x)
  | .long e b t => by
    have ih1 := quietE e
    have ih2 := quietB b
    have ih3 := quietT t
    simp_all [prI]
  | .short e b d => by
    have ih1 := quietE e
    have ih2 := quietB b
    simp_all [prI, brk]
  | .shortElse e b b' d => by
    have ih1 := quietE e
    have ih2 := quietB b
    have ih3 := quietB b'
    simp_all [prI, brk]
theorem quietT : ∀ (x : Syntax.Tail), Quiet (prT th true x)
  | .end_ => by
    simp_all [prT]
  | .else_ b => by
    have ih1 := quietB b
    simp_all [prT]
  | .elseif_ i => by
    have ih1 := quietI i
    simp_all [prT]
theorem quietB : ∀ (x : Block), Quiet (prB th true x)
  | .nil => by
    simp_all [prB]
  | .semi b => by
    have ih1 := quietB b
    simp_all [prB]
  | .cons s b => by
    have ih1 := quietS s
    have ih2 := quietB b
    simp_all [prB]
end

theorem nn_nil {b : Bool} : NN b [] := trivial
theorem nn_t {b : Bool} {k : K} {ms : List M} (h : NN true ms) : NN b (.t k :: ms) := h

mutual
theorem nnE : ∀ (x : Ex) (sh : Bool), NN false (prE th sh x)
  | .var x => by
    intro sh
    simp only [prE]
    repeat' with_reducible first | exact nn_nil | (apply nn_t) | (apply nn_append) | exact nn_mono (ih1 _) | exact nn_mono (ih2 _) | exact nn_mono (ih3 _) | exact nn_mono (ih4 _) | exact (ih1 _) | exact (ih2 _) | exact (ih3 _) | exact quiet_nn (by simp)
  | .num x => by
    intro sh
    simp only [prE]
    repeat' with_reducible first | exact nn_nil | (apply nn_t) | (apply nn_append) | exact nn_mono (ih1 _) | exact nn_mono (ih2 _) | exact nn_mono (ih3 _) | exact nn_mono (ih4 _) | exact (ih1 _) | exact (ih2 _) | exact (ih3 _) | exact quiet_nn (by simp)
  | .str x => by
    intro sh
    simp only [prE]
    repeat' with_reducible first | exact nn_nil | (apply nn_t) | (apply nn_append) | exact nn_mono (ih1 _) | exact nn_mono (ih2 _) | exact nn_mono (ih3 _) | exact nn_mono (ih4 _) | exact (ih1 _) | exact (ih2 _) | exact (ih3 _) | exact quiet_nn (by simp)
  | .cst x => by
    intro sh
    simp only [prE]
    repeat' with_reducible first | exact nn_nil | (apply nn_t) | (apply nn_append) | exact nn_mono (ih1 _) | exact nn_mono (ih2 _) | exact nn_mono (ih3 _) | exact nn_mono (ih4 _) | exact (ih1 _) | exact (ih2 _) | exact (ih3 _) | exact quiet_nn (by simp)
  | .vararg => by
    intro sh
    simp only [prE]
    repeat' with_reducible first | exact nn_nil | (apply nn_t) | (apply nn_append) | exact nn_mono (ih1 _) | exact nn_mono (ih2 _) | exact nn_mono (ih3 _) | exact nn_mono (ih4 _) | exact (ih1 _) | exact (ih2 _) | exact (ih3 _) | exact quiet_nn (by simp)
  | .func ps b => by
    have ih1 := nnB b
    intro sh
    simp only [prE]
    repeat' with_reducible first | exact nn_nil | (apply nn_t) | (apply nn_append) | exact nn_mono (ih1 _) | exact nn_mono (ih2 _) | exact nn_mono (ih3 _) | exact nn_mono (ih4 _) | exact (ih1 _) | exact (ih2 _) | exact (ih3 _) | exact quiet_nn (by simp)
  | .group e => by
    have ih1 := nnE e
    intro sh
    simp only [prE]
    repeat' with_reducible first | exact nn_nil | (apply nn_t) | (apply nn_append) | exact nn_mono (ih1 _) | exact nn_mono (ih2 _) | exact nn_mono (ih3 _) | exact nn_mono (ih4 _) | exact (ih1 _) | exact (ih2 _) | exact (ih3 _) | exact quiet_nn (by simp)
  | .un o e => by
    have ih1 := nnE e
    intro sh
    simp only [prE]
    repeat' with_reducible first | exact nn_nil | (apply nn_t) | (apply nn_append) | exact nn_mono (ih1 _) | exact nn_mono (ih2 _) | exact nn_mono (ih3 _) | exact nn_mono (ih4 _) | exact (ih1 _) | exact (ih2 _) | exact (ih3 _) | exact quiet_nn (by simp)
  | .bin o l r => by
    have ih1 := nnE l
    have ih2 := nnE r
    intro sh
    simp only [prE]
    repeat' with_reducible first | exact nn_nil | (apply nn_t) | (apply nn_append) | exact nn_mono (ih1 _) | exact nn_mono (ih2 _) | exact nn_mono (ih3 _) | exact nn_mono (ih4 _) | exact (ih1 _) | exact (ih2 _) | exact (ih3 _) | exact quiet_nn (by simp)
  | .member b x => by
    have ih1 := nnE b
    intro sh
    simp only [prE]
    repeat' with_reducible first | exact nn_nil | (apply nn_t) | (apply nn_append) | exact nn_mono (ih1 _) | exact nn_mono (ih2 _) | exact nn_mono (ih3 _) | exact nn_mono (ih4 _) | exact (ih1 _) | exact (ih2 _) | exact (ih3 _) | exact quiet_nn (by simp)
  | .index b k => by
    have ih1 := nnE b
    have ih2 := nnE k
    intro sh
    simp only [prE]
    repeat' with_reducible first | exact nn_nil | (apply nn_t) | (apply nn_append) | exact nn_mono (ih1 _) | exact nn_mono (ih2 _) | exact nn_mono (ih3 _) | exact nn_mono (ih4 _) | exact (ih1 _) | exact (ih2 _) | exact (ih3 _) | exact quiet_nn (by simp)
  | .call b false as => by
    have ih1 := nnE b
    have ih2 := nnEs as
    intro sh
    simp only [prE]
    repeat' with_reducible first | exact nn_nil | (apply nn_t) | (apply nn_append) | exact nn_mono (ih1 _) | exact nn_mono (ih2 _) | exact nn_mono (ih3 _) | exact nn_mono (ih4 _) | exact (ih1 _) | exact (ih2 _) | exact (ih3 _) | exact quiet_nn (by simp)
  | .call b true as => by
    have ih1 := nnE b
    have ih2 := nnEs as
    intro sh
    simp only [prE]
    repeat' with_reducible first | exact nn_nil | (apply nn_t) | (apply nn_append) | exact nn_mono (ih1 _) | exact nn_mono (ih2 _) | exact nn_mono (ih3 _) | exact nn_mono (ih4 _) | exact (ih1 _) | exact (ih2 _) | exact (ih3 _) | exact quiet_nn (by simp)
  | .method b x false as => by
    have ih1 := nnE b
    have ih2 := nnEs as
    intro sh
    simp only [prE]
    repeat' with_reducible first | exact nn_nil | (apply nn_t) | (apply nn_append) | exact nn_mono (ih1 _) | exact nn_mono (ih2 _) | exact nn_mono (ih3 _) | exact nn_mono (ih4 _) | exact (ih1 _) | exact (ih2 _) | exact (ih3 _) | exact quiet_nn (by simp)
  | .method b x true as => by
    have ih1 := nnE b
    have ih2 := nnEs as
    intro sh
    simp only [prE]
    repeat' with_reducible first | exact nn_nil | (apply nn_t) | (apply nn_append) | exact nn_mono (ih1 _) | exact nn_mono (ih2 _) | exact nn_mono (ih3 _) | exact nn_mono (ih4 _) | exact (ih1 _) | exact (ih2 _) | exact (ih3 _) | exact quiet_nn (by simp)
  | .table its => by
    have ih1 := nnIts its
    intro sh
    simp only [prE]
    repeat' with_reducible first | exact nn_nil | (apply nn_t) | (apply nn_append) | exact nn_mono (ih1 _) | exact nn_mono (ih2 _) | exact nn_mono (ih3 _) | exact nn_mono (ih4 _) | exact (ih1 _) | exact (ih2 _) | exact (ih3 _) | exact quiet_nn (by simp)
theorem nnEs : ∀ (x : Exs) (sh : Bool), NN false (prEs th sh x)
  | .nil => by
    intro sh
    simp only [prEs]
    repeat' with_reducible first | exact nn_nil | (apply nn_t) | (apply nn_append) | exact nn_mono (ih1 _) | exact nn_mono (ih2 _) | exact nn_mono (ih3 _) | exact nn_mono (ih4 _) | exact (ih1 _) | exact (ih2 _) | exact (ih3 _) | exact quiet_nn (by simp)
  | .cons e es => by
    have ih1 := nnE e
    have ih2 := nnEs es
    intro sh
    simp only [prEs]
    repeat' with_reducible first | exact nn_nil | (apply nn_t) | (apply nn_append) | exact nn_mono (ih1 _) | exact nn_mono (ih2 _) | exact nn_mono (ih3 _) | exact nn_mono (ih4 _) | exact (ih1 _) | exact (ih2 _) | exact (ih3 _) | exact quiet_nn (by simp)
theorem nnIts : ∀ (x : Its) (sh : Bool), NN false (prIts th sh x)
  | .nil => by
    intro sh
    simp only [prIts]
    repeat' with_reducible first | exact nn_nil | (apply nn_t) | (apply nn_append) | exact nn_mono (ih1 _) | exact nn_mono (ih2 _) | exact nn_mono (ih3 _) | exact nn_mono (ih4 _) | exact (ih1 _) | exact (ih2 _) | exact (ih3 _) | exact quiet_nn (by simp)
  | .pos e its => by
    have ih1 := nnE e
    have ih2 := nnIts its
    intro sh
    simp only [prIts]
    repeat' with_reducible first | exact nn_nil | (apply nn_t) | (apply nn_append) | exact nn_mono (ih1 _) | exact nn_mono (ih2 _) | exact nn_mono (ih3 _) | exact nn_mono (ih4 _) | exact (ih1 _) | exact (ih2 _) | exact (ih3 _) | exact quiet_nn (by simp)
  | .named x e its => by
    have ih1 := nnE e
    have ih2 := nnIts its
    intro sh
    simp only [prIts]
    repeat' with_reducible first | exact nn_nil | (apply nn_t) | (apply nn_append) | exact nn_mono (ih1 _) | exact nn_mono (ih2 _) | exact nn_mono (ih3 _) | exact nn_mono (ih4 _) | exact (ih1 _) | exact (ih2 _) | exact (ih3 _) | exact quiet_nn (by simp)
  | .keyed k e its => by
    have ih1 := nnE k
    have ih2 := nnE e
    have ih3 := nnIts its
    intro sh
    simp only [prIts]
    repeat' with_reducible first | exact nn_nil | (apply nn_t) | (apply nn_append) | exact nn_mono (ih1 _) | exact nn_mono (ih2 _) | exact nn_mono (ih3 _) | exact nn_mono (ih4 _) | exact (ih1 _) | exact (ih2 _) | exact (ih3 _) | exact quiet_nn (by simp)
theorem nnS : ∀ (x : St) (sh : Bool), NN false (prS th sh x)
  | .do_ b => by
    have ih1 := nnB b
    intro sh
    simp only [prS]
    repeat' with_reducible first | exact nn_nil | (apply nn_t) | (apply nn_append) | exact nn_mono (ih1 _) | exact nn_mono (ih2 _) | exact nn_mono (ih3 _) | exact nn_mono (ih4 _) | exact (ih1 _) | exact (ih2 _) | exact (ih3 _) | exact quiet_nn (by simp)
  | .if_ i => by
    have ih1 := nnI i
    intro sh
    simp only [prS]
    repeat' with_reducible first | exact nn_nil | (apply nn_t) | (apply nn_append) | exact nn_mono (ih1 _) | exact nn_mono (ih2 _) | exact nn_mono (ih3 _) | exact nn_mono (ih4 _) | exact (ih1 _) | exact (ih2 _) | exact (ih3 _) | exact quiet_nn (by simp)
  | .while_ e b => by
    have ih1 := nnE e
    have ih2 := nnB b
    intro sh
    simp only [prS]
    repeat' with_reducible first | exact nn_nil | (apply nn_t) | (apply nn_append) | exact nn_mono (ih1 _) | exact nn_mono (ih2 _) | exact nn_mono (ih3 _) | exact nn_mono (ih4 _) | exact (ih1 _) | exact (ih2 _) | exact (ih3 _) | exact quiet_nn (by simp)
  | .whileShort e b d => by
    have ih1 := nnE e
    have ih2 := nnB b
    intro sh
    cases sh <;> cases d <;> simp only [prS, brk, Bool.not_true, Bool.not_false, Bool.or_self, Bool.or_false, Bool.or_true, if_true, if_false, Bool.false_eq_true, List.append_nil]
    all_goals refine nn_t ?_
    all_goals first | exact nn_append (nn_mono (ih1 _)) (ih2 _) | exact nn_quiet (quietE th _) (nn_quiet (quietB th _) ⟨rfl, trivial⟩)
  | .repeat_ b e => by
    have ih1 := nnB b
    have ih2 := nnE e
    intro sh
    simp only [prS]
    repeat' with_reducible first | exact nn_nil | (apply nn_t) | (apply nn_append) | exact nn_mono (ih1 _) | exact nn_mono (ih2 _) | exact nn_mono (ih3 _) | exact nn_mono (ih4 _) | exact (ih1 _) | exact (ih2 _) | exact (ih3 _) | exact quiet_nn (by simp)
  | .fornum x a b s d => by
    have ih1 := nnE a
    have ih2 := nnE b
    have ih3 := nnEs s
    have ih4 := nnB d
    intro sh
    simp only [prS]
    repeat' with_reducible first | exact nn_nil | (apply nn_t) | (apply nn_append) | exact nn_mono (ih1 _) | exact nn_mono (ih2 _) | exact nn_mono (ih3 _) | exact nn_mono (ih4 _) | exact (ih1 _) | exact (ih2 _) | exact (ih3 _) | exact quiet_nn (by simp)
  | .forin xs es d => by
    have ih1 := nnEs es
    have ih2 := nnB d
    intro sh
    simp only [prS]
    repeat' with_reducible first | exact nn_nil | (apply nn_t) | (apply nn_append) | exact nn_mono (ih1 _) | exact nn_mono (ih2 _) | exact nn_mono (ih3 _) | exact nn_mono (ih4 _) | exact (ih1 _) | exact (ih2 _) | exact (ih3 _) | exact quiet_nn (by simp)
  | .break_ => by
    intro sh
    simp only [prS]
    repeat' with_reducible first | exact nn_nil | (apply nn_t) | (apply nn_append) | exact nn_mono (ih1 _) | exact nn_mono (ih2 _) | exact nn_mono (ih3 _) | exact nn_mono (ih4 _) | exact (ih1 _) | exact (ih2 _) | exact (ih3 _) | exact quiet_nn (by simp)
  | .return_ es => by
    have ih1 := nnEs es
    intro sh
    simp only [prS]
    repeat' with_reducible first | exact nn_nil | (apply nn_t) | (apply nn_append) | exact nn_mono (ih1 _) | exact nn_mono (ih2 _) | exact nn_mono (ih3 _) | exact nn_mono (ih4 _) | exact (ih1 _) | exact (ih2 _) | exact (ih3 _) | exact quiet_nn (by simp)
  | .local_ xs es => by
    have ih1 := nnEs es
    intro sh
    simp only [prS]
    repeat' with_reducible first | exact nn_nil | (apply nn_t) | (apply nn_append) | exact nn_mono (ih1 _) | exact nn_mono (ih2 _) | exact nn_mono (ih3 _) | exact nn_mono (ih4 _) | exact (ih1 _) | exact (ih2 _) | exact (ih3 _) | exact quiet_nn (by simp)
  | .localfn x ps b => by
    have ih1 := nnB b
    intro sh
    simp only [prS]
    repeat' with_reducible first | exact nn_nil | (apply nn_t) | (apply nn_append) | exact nn_mono (ih1 _) | exact nn_mono (ih2 _) | exact nn_mono (ih3 _) | exact nn_mono (ih4 _) | exact (ih1 _) | exact (ih2 _) | exact (ih3 _) | exact quiet_nn (by simp)
  | .goto_ x => by
    intro sh
    simp only [prS]
    repeat' with_reducible first | exact nn_nil | (apply nn_t) | (apply nn_append) | exact nn_mono (ih1 _) | exact nn_mono (ih2 _) | exact nn_mono (ih3 _) | exact nn_mono (ih4 _) | exact (ih1 _) | exact (ih2 _) | exact (ih3 _) | exact quiet_nn (by simp)
  | .label x => by
    intro sh
    simp only [prS]
    repeat' with_reducible first | exact nn_nil | (apply nn_t) | (apply nn_append) | exact nn_mono (ih1 _) | exact nn_mono (ih2 _) | exact nn_mono (ih3 _) | exact nn_mono (ih4 _) | exact (ih1 _) | exact (ih2 _) | exact (ih3 _) | exact quiet_nn (by simp)
  | .func f ps b => by
    have ih1 := nnB b
    intro sh
    simp only [prS]
    repeat' with_reducible first | exact nn_nil | (apply nn_t) | (apply nn_append) | exact nn_mono (ih1 _) | exact nn_mono (ih2 _) | exact nn_mono (ih3 _) | exact nn_mono (ih4 _) | exact (ih1 _) | exact (ih2 _) | exact (ih3 _) | exact quiet_nn (by simp)
  | .assign ts es => by
    have ih1 := nnEs ts
    have ih2 := nnEs es
    intro sh
    simp only [prS]
    repeat' with_reducible first | exact nn_nil | (apply nn_t) | (apply nn_append) | exact nn_mono (ih1 _) | exact nn_mono (ih2 _) | exact nn_mono (ih3 _) | exact nn_mono (ih4 _) | exact (ih1 _) | exact (ih2 _) | exact (ih3 _) | exact quiet_nn (by simp)
  | .opassign o t e => by
    have ih1 := nnE t
    have ih2 := nnE e
    intro sh
    simp only [prS]
    repeat' with_reducible first | exact nn_nil | (apply nn_t) | (apply nn_append) | exact nn_mono (ih1 _) | exact nn_mono (ih2 _) | exact nn_mono (ih3 _) | exact nn_mono (ih4 _) | exact (ih1 _) | exact (ih2 _) | exact (ih3 _) | exact quiet_nn (by simp)
  | .call e => by
    have ih1 := nnE e
    intro sh
    simp only [prS]
    repeat' with_reducible first | exact nn_nil | (apply nn_t) | (apply nn_append) | exact nn_mono (ih1 _) | exact nn_mono (ih2 _) | exact nn_mono (ih3 _) | exact nn_mono (ih4 _) | exact (ih1 _) | exact (ih2 _) | exact (ih3 _) | exact quiet_nn (by simp)
  | .print es => by
    have ih1 := nnEs es
    intro sh
    cases sh <;> simp only [prS, brk, Bool.true_or, Bool.false_or, if_true, if_false, Bool.false_eq_true, List.append_nil]
    · exact nn_t (nn_quiet (quietEs th _) ⟨rfl, trivial⟩)
    · exact nn_t (nn_mono (ih1 _))
theorem nnI : ∀ (x : If) (sh : Bool), NN true (prI th sh x)
  | .long e b t => by
    have ih1 := nnE e
    have ih2 := nnB b
    have ih3 := nnT t
    intro sh
    simp only [prI]
    repeat' with_reducible first | exact nn_nil | (apply nn_t) | (apply nn_append) | exact nn_mono (ih1 _) | exact nn_mono (ih2 _) | exact nn_mono (ih3 _) | exact nn_mono (ih4 _) | exact (ih1 _) | exact (ih2 _) | exact (ih3 _) | exact quiet_nn (by simp)
  | .short e b d => by
    have ih1 := nnE e
    have ih2 := nnB b
    intro sh
    cases sh <;> cases d <;> simp only [prI, brk, Bool.not_true, Bool.not_false, Bool.or_self, Bool.or_false, Bool.or_true, if_true, if_false, Bool.false_eq_true, List.append_nil]
    all_goals first | exact nn_append (nn_mono (ih1 _)) (ih2 _) | exact nn_quiet (quietE th _) (nn_quiet (quietB th _) ⟨rfl, trivial⟩)
  | .shortElse e b b' d => by
    have ih1 := nnE e
    have ih2 := nnB b
    have ih3 := nnB b'
    intro sh
    cases sh <;> cases d <;> simp only [prI, brk, Bool.not_true, Bool.not_false, Bool.or_self, Bool.or_false, Bool.or_true, if_true, if_false, Bool.false_eq_true, List.append_nil]
    all_goals first | exact nn_append (nn_mono (ih1 _)) (nn_append (ih2 _) (nn_t (nn_mono (ih3 _)))) | exact nn_quiet (quietE th _) (nn_quiet (quietB th _) (nn_t (nn_quiet (quietB th _) ⟨rfl, trivial⟩)))
theorem nnT : ∀ (x : Syntax.Tail) (sh : Bool), NN false (prT th sh x)
  | .end_ => by
    intro sh
    simp only [prT]
    repeat' with_reducible first | exact nn_nil | (apply nn_t) | (apply nn_append) | exact nn_mono (ih1 _) | exact nn_mono (ih2 _) | exact nn_mono (ih3 _) | exact nn_mono (ih4 _) | exact (ih1 _) | exact (ih2 _) | exact (ih3 _) | exact quiet_nn (by simp)
  | .else_ b => by
    have ih1 := nnB b
    intro sh
    simp only [prT]
    repeat' with_reducible first | exact nn_nil | (apply nn_t) | (apply nn_append) | exact nn_mono (ih1 _) | exact nn_mono (ih2 _) | exact nn_mono (ih3 _) | exact nn_mono (ih4 _) | exact (ih1 _) | exact (ih2 _) | exact (ih3 _) | exact quiet_nn (by simp)
  | .elseif_ i => by
    have ih1 := nnI i
    intro sh
    simp only [prT]
    repeat' with_reducible first | exact nn_nil | (apply nn_t) | (apply nn_append) | exact nn_mono (ih1 _) | exact nn_mono (ih2 _) | exact nn_mono (ih3 _) | exact nn_mono (ih4 _) | exact (ih1 _) | exact (ih2 _) | exact (ih3 _) | exact quiet_nn (by simp)
theorem nnB : ∀ (x : Block) (sh : Bool), NN false (prB th sh x)
  | .nil => by
    intro sh
    simp only [prB]
    repeat' with_reducible first | exact nn_nil | (apply nn_t) | (apply nn_append) | exact nn_mono (ih1 _) | exact nn_mono (ih2 _) | exact nn_mono (ih3 _) | exact nn_mono (ih4 _) | exact (ih1 _) | exact (ih2 _) | exact (ih3 _) | exact quiet_nn (by simp)
  | .semi b => by
    have ih1 := nnB b
    intro sh
    simp only [prB]
    repeat' with_reducible first | exact nn_nil | (apply nn_t) | (apply nn_append) | exact nn_mono (ih1 _) | exact nn_mono (ih2 _) | exact nn_mono (ih3 _) | exact nn_mono (ih4 _) | exact (ih1 _) | exact (ih2 _) | exact (ih3 _) | exact quiet_nn (by simp)
  | .cons s b => by
    have ih1 := nnS s
    have ih2 := nnB b
    intro sh
    simp only [prB]
    repeat' with_reducible first | exact nn_nil | (apply nn_t) | (apply nn_append) | exact nn_mono (ih1 _) | exact nn_mono (ih2 _) | exact nn_mono (ih3 _) | exact nn_mono (ih4 _) | exact (ih1 _) | exact (ih2 _) | exact (ih3 _) | exact quiet_nn (by simp)
end

/-! ### Tokens -/

/-- All tokens of an output. -/
def AllT (Q : K → Prop) : List M → Prop
  | [] => True
  | .t k :: ms => Q k ∧ AllT Q ms
  | .nl :: ms => AllT Q ms

/-- All tokens of a source. -/
def AllK (Q : K → Prop) (i : List T) : Prop := ∀ t ∈ i, Q t.k

/-- Tokens without a value. -/
def Fixed : K → Prop
  | .id _ | .num _ | .str _ | .cst _ | .op _ | .opeq _ => False
  | _ => True

section
variable {Q : K → Prop}

@[simp] theorem allT_nil : AllT Q [] = True := rfl
@[simp] theorem allT_t {k : K} {ms : List M} : AllT Q (.t k :: ms) = (Q k ∧ AllT Q ms) := rfl
@[simp] theorem allT_nl {ms : List M} : AllT Q (.nl :: ms) = AllT Q ms := rfl
@[simp] theorem allT_append : ∀ {a b : List M}, AllT Q (a ++ b) ↔ AllT Q a ∧ AllT Q b
  | [], b => by simp
  | .t _ :: a, b => by simp [allT_append (a := a), and_assoc]
  | .nl :: a, b => by simp [allT_append (a := a)]
@[simp] theorem allT_brk {sh : Bool} {d : Nested} : AllT Q (brk sh d) := by unfold brk; split <;> trivial

theorem allT_marks : ∀ {ms : List M} {b : Bool}, AllT Q ms → ∀ p ∈ marks b ms, Q p.1
  | [], _, _ => nofun
  | .t _ :: ms, _, h => by
    intro p hp
    rcases List.mem_cons.1 hp with rfl | hp
    · exact h.1
    · exact allT_marks (ms := ms) h.2 p hp
  | .nl :: ms, _, h => allT_marks (ms := ms) h

@[simp] theorem allK_nil : AllK Q [] = True := by simp [AllK]
@[simp] theorem allK_cons {t : T} {i : List T} : AllK Q (t :: i) = (Q t.k ∧ AllK Q i) := by simp [AllK]

theorem allT_sepEs (hP : ∀ k, Fixed k → Q k) {es : Exs} : AllT Q (sepEs es) := by cases es <;> simp [sepEs, hP _ (show Fixed .comma from trivial)]
theorem allT_sepIts (hP : ∀ k, Fixed k → Q k) {its : Its} : AllT Q (sepIts its) := by cases its <;> simp [sepIts, hP _ (show Fixed .comma from trivial)]
theorem allT_eqEs (hP : ∀ k, Fixed k → Q k) {es : Exs} : AllT Q (eqEs es) := by cases es <;> simp [eqEs, hP _ (show Fixed .eq from trivial)]

/-! #### From the source to the tree -/

theorem all_names : ∀ {i r : List T} {xs : List Nm}, Names i r xs → AllK Q i → AllT Q (prNames xs) ∧ AllK Q r
  | _, _, _, .one, h => by simpa [prNames] using h
  | _, _, _, .cons (xs := []) h', h => by cases h'
  | _, _, _, .cons (xs := _ :: _) h', h => by
    simp only [allK_cons] at h
    have := all_names h' h.2.2
    exact ⟨⟨h.1, h.2.1, this.1⟩, this.2⟩

theorem all_attr {L : Lang} {i r : List T} {a : Option Nm} (h : Attr L i r a) (hi : AllK Q i) : AllT Q (prAttr a) ∧ AllK Q r := by
  cases h with
  | none => exact ⟨trivial, hi⟩
  | some _ _ => simp only [allK_cons] at hi; exact ⟨⟨hi.1, hi.2.1, hi.2.2.1, trivial⟩, hi.2.2.2⟩

theorem all_locals {L : Lang} : ∀ {i r : List T} {xs : List (Nm × Option Nm)}, Locals L i r xs → AllK Q i → AllT Q (prLocals xs) ∧ AllK Q r
  | _, _, _, .one h' _, h => by
    simp only [allK_cons] at h
    have := all_attr h' h.2
    exact ⟨⟨h.1, this.1⟩, this.2⟩
  | _, _, _, .cons (xs := []) _ h', h => by cases h'
  | _, _, _, .cons (xs := _ :: _) ha h', h => by
    simp only [allK_cons] at h
    have h1 := all_attr ha h.2
    simp only [allK_cons] at h1
    have h2 := all_locals h' h1.2.2
    exact ⟨⟨h.1, allT_append.2 ⟨h1.1, h1.2.1, h2.1⟩⟩, h2.2⟩

theorem all_par {i r : List T} {p : Param} (h : Par i r p) (hi : AllK Q i)   : Q (prPar p) ∧ AllK Q r := by
  cases h <;> simpa [prPar] using hi

theorem all_pars : ∀ {i r : List T} {ps : List Param}, Pars i r ps → AllK Q i → AllT Q (prParams ps) ∧ AllK Q r
  | _, _, _, .one h', h => by
    have := all_par h' h
    simp only [allK_cons] at this
    exact ⟨⟨this.1, this.2.1, trivial⟩, this.2.2⟩
  | _, _, _, .cons (ps := []) _ h', h => by cases h'
  | _, _, _, .cons (ps := _ :: _) ha h', h => by
    have h1 := all_par ha h
    simp only [allK_cons] at h1
    have h2 := all_pars h' h1.2.2
    exact ⟨⟨h1.1, h1.2.1, h2.1⟩, h2.2⟩

theorem all_params {i r : List T} {ps : List Param} (h : Params i r ps) (hi : AllK Q i) : AllT Q (prParams ps) ∧ AllK Q r := by
  cases h with
  | nil => simpa [prParams] using hi
  | some h => exact all_pars h hi

theorem all_keys : ∀ {i r : List T} {xs : List Nm}, Keys i r xs → AllK Q i → AllT Q (xs.flatMap fun x => [.t .dot, .t (.id x)]) ∧ AllK Q r
  | _, _, _, .nil _, h => ⟨trivial, h⟩
  | _, _, _, .cons h', h => by
    simp only [allK_cons] at h
    have := all_keys h' h.2.2
    exact ⟨⟨h.1, h.2.1, this.1⟩, this.2⟩

theorem all_name {i r : List T} {f : FnName} (h : Name i r f) (hi : AllK Q i) : AllT Q (prName f) ∧ AllK Q r := by
  cases h with
  | func h' _ =>
    simp only [allK_cons] at hi
    have := all_keys h' hi.2
    exact ⟨⟨hi.1, allT_append.2 ⟨this.1, trivial⟩⟩, this.2⟩
  | method h' =>
    simp only [allK_cons] at hi
    have := all_keys h' hi.2
    simp only [allK_cons] at this
    exact ⟨⟨hi.1, allT_append.2 ⟨this.1, this.2.1, this.2.2.1, trivial⟩⟩, this.2.2.2⟩

variable (hP : ∀ k, Fixed k → Q k) (hth : Fixed th)
variable {L : Lang}
include hP hth

mutual
theorem aE : ∀ {k : Nat} {i r : List T} {e : Ex} {sh : Bool}, E L k i r e → AllK Q i → AllT Q (prE th sh e) ∧ AllK Q r
  | _, _, _, _, sh, .up h0, h => by
    try simp only [allK_cons] at h
    have q0 := aE (sh := sh) h0 (by simp_all)
    try simp only [allK_cons] at q0
    simp_all [prE, prEs, prIts, prS, prI, prT, prB, allT_sepEs hP, allT_sepIts hP, allT_eqEs hP, hP .comma trivial, hP .eq trivial, hP .lp trivial, hP .rp trivial, hP .lb trivial, hP .rb trivial, hP .lc trivial, hP .rc trivial, hP .dots trivial, hP .semi trivial, hP .dot trivial, hP .colon trivial, hP .dcolon trivial, hP .quest trivial, hP .kDo trivial, hP .kIf trivial, hP .kElse trivial, hP .kElseif trivial, hP .kEnd trivial, hP .kWhile trivial, hP .kRepeat trivial, hP .kUntil trivial, hP .kFor trivial, hP .kIn trivial, hP .kFunction trivial, hP .kBreak trivial, hP .kReturn trivial, hP .kLocal trivial, hP .kGoto trivial, hP th hth]
  | _, _, _, _, sh, .left _ _ h2 h3, h => by
    try simp only [allK_cons] at h
    have q2 := aE (sh := sh) h2 (by simp_all)
    try simp only [allK_cons] at q2
    have q3 := aE (sh := sh) h3 (by simp_all)
    try simp only [allK_cons] at q3
    simp_all [prE, prEs, prIts, prS, prI, prT, prB, allT_sepEs hP, allT_sepIts hP, allT_eqEs hP, hP .comma trivial, hP .eq trivial, hP .lp trivial, hP .rp trivial, hP .lb trivial, hP .rb trivial, hP .lc trivial, hP .rc trivial, hP .dots trivial, hP .semi trivial, hP .dot trivial, hP .colon trivial, hP .dcolon trivial, hP .quest trivial, hP .kDo trivial, hP .kIf trivial, hP .kElse trivial, hP .kElseif trivial, hP .kEnd trivial, hP .kWhile trivial, hP .kRepeat trivial, hP .kUntil trivial, hP .kFor trivial, hP .kIn trivial, hP .kFunction trivial, hP .kBreak trivial, hP .kReturn trivial, hP .kLocal trivial, hP .kGoto trivial, hP th hth]
  | _, _, _, _, sh, .concat h0 h1, h => by
    try simp only [allK_cons] at h
    have q0 := aE (sh := sh) h0 (by simp_all)
    try simp only [allK_cons] at q0
    have q1 := aE (sh := sh) h1 (by simp_all)
    try simp only [allK_cons] at q1
    simp_all [prE, prEs, prIts, prS, prI, prT, prB, allT_sepEs hP, allT_sepIts hP, allT_eqEs hP, hP .comma trivial, hP .eq trivial, hP .lp trivial, hP .rp trivial, hP .lb trivial, hP .rb trivial, hP .lc trivial, hP .rc trivial, hP .dots trivial, hP .semi trivial, hP .dot trivial, hP .colon trivial, hP .dcolon trivial, hP .quest trivial, hP .kDo trivial, hP .kIf trivial, hP .kElse trivial, hP .kElseif trivial, hP .kEnd trivial, hP .kWhile trivial, hP .kRepeat trivial, hP .kUntil trivial, hP .kFor trivial, hP .kIn trivial, hP .kFunction trivial, hP .kBreak trivial, hP .kReturn trivial, hP .kLocal trivial, hP .kGoto trivial, hP th hth]
  | _, _, _, _, sh, .un _ h1, h => by
    try simp only [allK_cons] at h
    have q1 := aE (sh := sh) h1 (by simp_all)
    try simp only [allK_cons] at q1
    simp_all [prE, prEs, prIts, prS, prI, prT, prB, allT_sepEs hP, allT_sepIts hP, allT_eqEs hP, hP .comma trivial, hP .eq trivial, hP .lp trivial, hP .rp trivial, hP .lb trivial, hP .rb trivial, hP .lc trivial, hP .rc trivial, hP .dots trivial, hP .semi trivial, hP .dot trivial, hP .colon trivial, hP .dcolon trivial, hP .quest trivial, hP .kDo trivial, hP .kIf trivial, hP .kElse trivial, hP .kElseif trivial, hP .kEnd trivial, hP .kWhile trivial, hP .kRepeat trivial, hP .kUntil trivial, hP .kFor trivial, hP .kIn trivial, hP .kFunction trivial, hP .kBreak trivial, hP .kReturn trivial, hP .kLocal trivial, hP .kGoto trivial, hP th hth]
  | _, _, _, _, sh, .pow h0 h1, h => by
    try simp only [allK_cons] at h
    have q0 := aE (sh := sh) h0 (by simp_all)
    try simp only [allK_cons] at q0
    have q1 := aE (sh := sh) h1 (by simp_all)
    try simp only [allK_cons] at q1
    simp_all [prE, prEs, prIts, prS, prI, prT, prB, allT_sepEs hP, allT_sepIts hP, allT_eqEs hP, hP .comma trivial, hP .eq trivial, hP .lp trivial, hP .rp trivial, hP .lb trivial, hP .rb trivial, hP .lc trivial, hP .rc trivial, hP .dots trivial, hP .semi trivial, hP .dot trivial, hP .colon trivial, hP .dcolon trivial, hP .quest trivial, hP .kDo trivial, hP .kIf trivial, hP .kElse trivial, hP .kElseif trivial, hP .kEnd trivial, hP .kWhile trivial, hP .kRepeat trivial, hP .kUntil trivial, hP .kFor trivial, hP .kIn trivial, hP .kFunction trivial, hP .kBreak trivial, hP .kReturn trivial, hP .kLocal trivial, hP .kGoto trivial, hP th hth]
  | _, _, _, _, sh, .cst, h => by
    try simp only [allK_cons] at h
    simp_all [prE, prEs, prIts, prS, prI, prT, prB, allT_sepEs hP, allT_sepIts hP, allT_eqEs hP, hP .comma trivial, hP .eq trivial, hP .lp trivial, hP .rp trivial, hP .lb trivial, hP .rb trivial, hP .lc trivial, hP .rc trivial, hP .dots trivial, hP .semi trivial, hP .dot trivial, hP .colon trivial, hP .dcolon trivial, hP .quest trivial, hP .kDo trivial, hP .kIf trivial, hP .kElse trivial, hP .kElseif trivial, hP .kEnd trivial, hP .kWhile trivial, hP .kRepeat trivial, hP .kUntil trivial, hP .kFor trivial, hP .kIn trivial, hP .kFunction trivial, hP .kBreak trivial, hP .kReturn trivial, hP .kLocal trivial, hP .kGoto trivial, hP th hth]
  | _, _, _, _, sh, .num, h => by
    try simp only [allK_cons] at h
    simp_all [prE, prEs, prIts, prS, prI, prT, prB, allT_sepEs hP, allT_sepIts hP, allT_eqEs hP, hP .comma trivial, hP .eq trivial, hP .lp trivial, hP .rp trivial, hP .lb trivial, hP .rb trivial, hP .lc trivial, hP .rc trivial, hP .dots trivial, hP .semi trivial, hP .dot trivial, hP .colon trivial, hP .dcolon trivial, hP .quest trivial, hP .kDo trivial, hP .kIf trivial, hP .kElse trivial, hP .kElseif trivial, hP .kEnd trivial, hP .kWhile trivial, hP .kRepeat trivial, hP .kUntil trivial, hP .kFor trivial, hP .kIn trivial, hP .kFunction trivial, hP .kBreak trivial, hP .kReturn trivial, hP .kLocal trivial, hP .kGoto trivial, hP th hth]
  | _, _, _, _, sh, .str, h => by
    try simp only [allK_cons] at h
    simp_all [prE, prEs, prIts, prS, prI, prT, prB, allT_sepEs hP, allT_sepIts hP, allT_eqEs hP, hP .comma trivial, hP .eq trivial, hP .lp trivial, hP .rp trivial, hP .lb trivial, hP .rb trivial, hP .lc trivial, hP .rc trivial, hP .dots trivial, hP .semi trivial, hP .dot trivial, hP .colon trivial, hP .dcolon trivial, hP .quest trivial, hP .kDo trivial, hP .kIf trivial, hP .kElse trivial, hP .kElseif trivial, hP .kEnd trivial, hP .kWhile trivial, hP .kRepeat trivial, hP .kUntil trivial, hP .kFor trivial, hP .kIn trivial, hP .kFunction trivial, hP .kBreak trivial, hP .kReturn trivial, hP .kLocal trivial, hP .kGoto trivial, hP th hth]
  | _, _, _, _, sh, .dots, h => by
    try simp only [allK_cons] at h
    simp_all [prE, prEs, prIts, prS, prI, prT, prB, allT_sepEs hP, allT_sepIts hP, allT_eqEs hP, hP .comma trivial, hP .eq trivial, hP .lp trivial, hP .rp trivial, hP .lb trivial, hP .rb trivial, hP .lc trivial, hP .rc trivial, hP .dots trivial, hP .semi trivial, hP .dot trivial, hP .colon trivial, hP .dcolon trivial, hP .quest trivial, hP .kDo trivial, hP .kIf trivial, hP .kElse trivial, hP .kElseif trivial, hP .kEnd trivial, hP .kWhile trivial, hP .kRepeat trivial, hP .kUntil trivial, hP .kFor trivial, hP .kIn trivial, hP .kFunction trivial, hP .kBreak trivial, hP .kReturn trivial, hP .kLocal trivial, hP .kGoto trivial, hP th hth]
  | _, _, _, _, sh, .table h0, h => by
    try simp only [allK_cons] at h
    have q0 := aItems (sh := sh) h0 (by simp_all)
    try simp only [allK_cons] at q0
    simp_all [prE, prEs, prIts, prS, prI, prT, prB, allT_sepEs hP, allT_sepIts hP, allT_eqEs hP, hP .comma trivial, hP .eq trivial, hP .lp trivial, hP .rp trivial, hP .lb trivial, hP .rb trivial, hP .lc trivial, hP .rc trivial, hP .dots trivial, hP .semi trivial, hP .dot trivial, hP .colon trivial, hP .dcolon trivial, hP .quest trivial, hP .kDo trivial, hP .kIf trivial, hP .kElse trivial, hP .kElseif trivial, hP .kEnd trivial, hP .kWhile trivial, hP .kRepeat trivial, hP .kUntil trivial, hP .kFor trivial, hP .kIn trivial, hP .kFunction trivial, hP .kBreak trivial, hP .kReturn trivial, hP .kLocal trivial, hP .kGoto trivial, hP th hth]
  | _, _, _, _, sh, .func h0, h => by
    try simp only [allK_cons] at h
    have q0 := aBody (sh := sh) h0 (by simp_all)
    try simp only [allK_cons] at q0
    simp_all [prE, prEs, prIts, prS, prI, prT, prB, allT_sepEs hP, allT_sepIts hP, allT_eqEs hP, hP .comma trivial, hP .eq trivial, hP .lp trivial, hP .rp trivial, hP .lb trivial, hP .rb trivial, hP .lc trivial, hP .rc trivial, hP .dots trivial, hP .semi trivial, hP .dot trivial, hP .colon trivial, hP .dcolon trivial, hP .quest trivial, hP .kDo trivial, hP .kIf trivial, hP .kElse trivial, hP .kElseif trivial, hP .kEnd trivial, hP .kWhile trivial, hP .kRepeat trivial, hP .kUntil trivial, hP .kFor trivial, hP .kIn trivial, hP .kFunction trivial, hP .kBreak trivial, hP .kReturn trivial, hP .kLocal trivial, hP .kGoto trivial, hP th hth]
  | _, _, _, _, sh, .pre h0, h => by
    try simp only [allK_cons] at h
    have q0 := aP (sh := sh) h0 (by simp_all)
    try simp only [allK_cons] at q0
    simp_all [prE, prEs, prIts, prS, prI, prT, prB, allT_sepEs hP, allT_sepIts hP, allT_eqEs hP, hP .comma trivial, hP .eq trivial, hP .lp trivial, hP .rp trivial, hP .lb trivial, hP .rb trivial, hP .lc trivial, hP .rc trivial, hP .dots trivial, hP .semi trivial, hP .dot trivial, hP .colon trivial, hP .dcolon trivial, hP .quest trivial, hP .kDo trivial, hP .kIf trivial, hP .kElse trivial, hP .kElseif trivial, hP .kEnd trivial, hP .kWhile trivial, hP .kRepeat trivial, hP .kUntil trivial, hP .kFor trivial, hP .kIn trivial, hP .kFunction trivial, hP .kBreak trivial, hP .kReturn trivial, hP .kLocal trivial, hP .kGoto trivial, hP th hth]
theorem aP : ∀ {i r : List T} {e : Ex} {sh : Bool}, P L i r e → AllK Q i → AllT Q (prE th sh e) ∧ AllK Q r
  | _, _, _, sh, .var, h => by
    try simp only [allK_cons] at h
    simp_all [prE, prEs, prIts, prS, prI, prT, prB, allT_sepEs hP, allT_sepIts hP, allT_eqEs hP, hP .comma trivial, hP .eq trivial, hP .lp trivial, hP .rp trivial, hP .lb trivial, hP .rb trivial, hP .lc trivial, hP .rc trivial, hP .dots trivial, hP .semi trivial, hP .dot trivial, hP .colon trivial, hP .dcolon trivial, hP .quest trivial, hP .kDo trivial, hP .kIf trivial, hP .kElse trivial, hP .kElseif trivial, hP .kEnd trivial, hP .kWhile trivial, hP .kRepeat trivial, hP .kUntil trivial, hP .kFor trivial, hP .kIn trivial, hP .kFunction trivial, hP .kBreak trivial, hP .kReturn trivial, hP .kLocal trivial, hP .kGoto trivial, hP th hth]
  | _, _, _, sh, .group h0, h => by
    try simp only [allK_cons] at h
    have q0 := aE (sh := sh) h0 (by simp_all)
    try simp only [allK_cons] at q0
    simp_all [prE, prEs, prIts, prS, prI, prT, prB, allT_sepEs hP, allT_sepIts hP, allT_eqEs hP, hP .comma trivial, hP .eq trivial, hP .lp trivial, hP .rp trivial, hP .lb trivial, hP .rb trivial, hP .lc trivial, hP .rc trivial, hP .dots trivial, hP .semi trivial, hP .dot trivial, hP .colon trivial, hP .dcolon trivial, hP .quest trivial, hP .kDo trivial, hP .kIf trivial, hP .kElse trivial, hP .kElseif trivial, hP .kEnd trivial, hP .kWhile trivial, hP .kRepeat trivial, hP .kUntil trivial, hP .kFor trivial, hP .kIn trivial, hP .kFunction trivial, hP .kBreak trivial, hP .kReturn trivial, hP .kLocal trivial, hP .kGoto trivial, hP th hth]
  | _, _, _, sh, .member h0, h => by
    try simp only [allK_cons] at h
    have q0 := aP (sh := sh) h0 (by simp_all)
    try simp only [allK_cons] at q0
    simp_all [prE, prEs, prIts, prS, prI, prT, prB, allT_sepEs hP, allT_sepIts hP, allT_eqEs hP, hP .comma trivial, hP .eq trivial, hP .lp trivial, hP .rp trivial, hP .lb trivial, hP .rb trivial, hP .lc trivial, hP .rc trivial, hP .dots trivial, hP .semi trivial, hP .dot trivial, hP .colon trivial, hP .dcolon trivial, hP .quest trivial, hP .kDo trivial, hP .kIf trivial, hP .kElse trivial, hP .kElseif trivial, hP .kEnd trivial, hP .kWhile trivial, hP .kRepeat trivial, hP .kUntil trivial, hP .kFor trivial, hP .kIn trivial, hP .kFunction trivial, hP .kBreak trivial, hP .kReturn trivial, hP .kLocal trivial, hP .kGoto trivial, hP th hth]
  | _, _, _, sh, .index h0 h1, h => by
    try simp only [allK_cons] at h
    have q0 := aP (sh := sh) h0 (by simp_all)
    try simp only [allK_cons] at q0
    have q1 := aE (sh := sh) h1 (by simp_all)
    try simp only [allK_cons] at q1
    simp_all [prE, prEs, prIts, prS, prI, prT, prB, allT_sepEs hP, allT_sepIts hP, allT_eqEs hP, hP .comma trivial, hP .eq trivial, hP .lp trivial, hP .rp trivial, hP .lb trivial, hP .rb trivial, hP .lc trivial, hP .rc trivial, hP .dots trivial, hP .semi trivial, hP .dot trivial, hP .colon trivial, hP .dcolon trivial, hP .quest trivial, hP .kDo trivial, hP .kIf trivial, hP .kElse trivial, hP .kElseif trivial, hP .kEnd trivial, hP .kWhile trivial, hP .kRepeat trivial, hP .kUntil trivial, hP .kFor trivial, hP .kIn trivial, hP .kFunction trivial, hP .kBreak trivial, hP .kReturn trivial, hP .kLocal trivial, hP .kGoto trivial, hP th hth]
  | _, _, _, sh, .call h0 h1, h => by
    try simp only [allK_cons] at h
    have q0 := aP (sh := sh) h0 (by simp_all)
    try simp only [allK_cons] at q0
    have q1 := aArgs (sh := sh) h1 (by simp_all)
    try simp only [allK_cons] at q1
    simp_all [prE, prEs, prIts, prS, prI, prT, prB, allT_sepEs hP, allT_sepIts hP, allT_eqEs hP, hP .comma trivial, hP .eq trivial, hP .lp trivial, hP .rp trivial, hP .lb trivial, hP .rb trivial, hP .lc trivial, hP .rc trivial, hP .dots trivial, hP .semi trivial, hP .dot trivial, hP .colon trivial, hP .dcolon trivial, hP .quest trivial, hP .kDo trivial, hP .kIf trivial, hP .kElse trivial, hP .kElseif trivial, hP .kEnd trivial, hP .kWhile trivial, hP .kRepeat trivial, hP .kUntil trivial, hP .kFor trivial, hP .kIn trivial, hP .kFunction trivial, hP .kBreak trivial, hP .kReturn trivial, hP .kLocal trivial, hP .kGoto trivial, hP th hth]
  | _, _, _, sh, .callBare h0 h1, h => by
    try simp only [allK_cons] at h
    have q0 := aP (sh := sh) h0 (by simp_all)
    try simp only [allK_cons] at q0
    have q1 := aBare (sh := sh) h1 (by simp_all)
    try simp only [allK_cons] at q1
    simp_all [prE, prEs, prIts, prS, prI, prT, prB, allT_sepEs hP, allT_sepIts hP, allT_eqEs hP, hP .comma trivial, hP .eq trivial, hP .lp trivial, hP .rp trivial, hP .lb trivial, hP .rb trivial, hP .lc trivial, hP .rc trivial, hP .dots trivial, hP .semi trivial, hP .dot trivial, hP .colon trivial, hP .dcolon trivial, hP .quest trivial, hP .kDo trivial, hP .kIf trivial, hP .kElse trivial, hP .kElseif trivial, hP .kEnd trivial, hP .kWhile trivial, hP .kRepeat trivial, hP .kUntil trivial, hP .kFor trivial, hP .kIn trivial, hP .kFunction trivial, hP .kBreak trivial, hP .kReturn trivial, hP .kLocal trivial, hP .kGoto trivial, hP th hth]
  | _, _, _, sh, .method h0 h1, h => by
    try simp only [allK_cons] at h
    have q0 := aP (sh := sh) h0 (by simp_all)
    try simp only [allK_cons] at q0
    have q1 := aArgs (sh := sh) h1 (by simp_all)
    try simp only [allK_cons] at q1
    simp_all [prE, prEs, prIts, prS, prI, prT, prB, allT_sepEs hP, allT_sepIts hP, allT_eqEs hP, hP .comma trivial, hP .eq trivial, hP .lp trivial, hP .rp trivial, hP .lb trivial, hP .rb trivial, hP .lc trivial, hP .rc trivial, hP .dots trivial, hP .semi trivial, hP .dot trivial, hP .colon trivial, hP .dcolon trivial, hP .quest trivial, hP .kDo trivial, hP .kIf trivial, hP .kElse trivial, hP .kElseif trivial, hP .kEnd trivial, hP .kWhile trivial, hP .kRepeat trivial, hP .kUntil trivial, hP .kFor trivial, hP .kIn trivial, hP .kFunction trivial, hP .kBreak trivial, hP .kReturn trivial, hP .kLocal trivial, hP .kGoto trivial, hP th hth]
  | _, _, _, sh, .methodBare h0 h1, h => by
    try simp only [allK_cons] at h
    have q0 := aP (sh := sh) h0 (by simp_all)
    try simp only [allK_cons] at q0
    have q1 := aBare (sh := sh) h1 (by simp_all)
    try simp only [allK_cons] at q1
    simp_all [prE, prEs, prIts, prS, prI, prT, prB, allT_sepEs hP, allT_sepIts hP, allT_eqEs hP, hP .comma trivial, hP .eq trivial, hP .lp trivial, hP .rp trivial, hP .lb trivial, hP .rb trivial, hP .lc trivial, hP .rc trivial, hP .dots trivial, hP .semi trivial, hP .dot trivial, hP .colon trivial, hP .dcolon trivial, hP .quest trivial, hP .kDo trivial, hP .kIf trivial, hP .kElse trivial, hP .kElseif trivial, hP .kEnd trivial, hP .kWhile trivial, hP .kRepeat trivial, hP .kUntil trivial, hP .kFor trivial, hP .kIn trivial, hP .kFunction trivial, hP .kBreak trivial, hP .kReturn trivial, hP .kLocal trivial, hP .kGoto trivial, hP th hth]
theorem aBare : ∀ {i r : List T} {e : Ex} {sh : Bool}, Bare L i r e → AllK Q i → AllT Q (prE th sh e) ∧ AllK Q r
  | _, _, _, sh, .str, h => by
    try simp only [allK_cons] at h
    simp_all [prE, prEs, prIts, prS, prI, prT, prB, allT_sepEs hP, allT_sepIts hP, allT_eqEs hP, hP .comma trivial, hP .eq trivial, hP .lp trivial, hP .rp trivial, hP .lb trivial, hP .rb trivial, hP .lc trivial, hP .rc trivial, hP .dots trivial, hP .semi trivial, hP .dot trivial, hP .colon trivial, hP .dcolon trivial, hP .quest trivial, hP .kDo trivial, hP .kIf trivial, hP .kElse trivial, hP .kElseif trivial, hP .kEnd trivial, hP .kWhile trivial, hP .kRepeat trivial, hP .kUntil trivial, hP .kFor trivial, hP .kIn trivial, hP .kFunction trivial, hP .kBreak trivial, hP .kReturn trivial, hP .kLocal trivial, hP .kGoto trivial, hP th hth]
  | _, _, _, sh, .table h0, h => by
    try simp only [allK_cons] at h
    have q0 := aItems (sh := sh) h0 (by simp_all)
    try simp only [allK_cons] at q0
    simp_all [prE, prEs, prIts, prS, prI, prT, prB, allT_sepEs hP, allT_sepIts hP, allT_eqEs hP, hP .comma trivial, hP .eq trivial, hP .lp trivial, hP .rp trivial, hP .lb trivial, hP .rb trivial, hP .lc trivial, hP .rc trivial, hP .dots trivial, hP .semi trivial, hP .dot trivial, hP .colon trivial, hP .dcolon trivial, hP .quest trivial, hP .kDo trivial, hP .kIf trivial, hP .kElse trivial, hP .kElseif trivial, hP .kEnd trivial, hP .kWhile trivial, hP .kRepeat trivial, hP .kUntil trivial, hP .kFor trivial, hP .kIn trivial, hP .kFunction trivial, hP .kBreak trivial, hP .kReturn trivial, hP .kLocal trivial, hP .kGoto trivial, hP th hth]
theorem aArgs : ∀ {i r : List T} {e : Exs} {sh : Bool}, Args L i r e → AllK Q i → AllT Q (prEs th sh e) ∧ AllK Q r
  | _, _, _, sh, .nil, h => by
    try simp only [allK_cons] at h
    simp_all [prE, prEs, prIts, prS, prI, prT, prB, allT_sepEs hP, allT_sepIts hP, allT_eqEs hP, hP .comma trivial, hP .eq trivial, hP .lp trivial, hP .rp trivial, hP .lb trivial, hP .rb trivial, hP .lc trivial, hP .rc trivial, hP .dots trivial, hP .semi trivial, hP .dot trivial, hP .colon trivial, hP .dcolon trivial, hP .quest trivial, hP .kDo trivial, hP .kIf trivial, hP .kElse trivial, hP .kElseif trivial, hP .kEnd trivial, hP .kWhile trivial, hP .kRepeat trivial, hP .kUntil trivial, hP .kFor trivial, hP .kIn trivial, hP .kFunction trivial, hP .kBreak trivial, hP .kReturn trivial, hP .kLocal trivial, hP .kGoto trivial, hP th hth]
  | _, _, _, sh, .some h0, h => by
    try simp only [allK_cons] at h
    have q0 := aEs (sh := sh) h0 (by simp_all)
    try simp only [allK_cons] at q0
    simp_all [prE, prEs, prIts, prS, prI, prT, prB, allT_sepEs hP, allT_sepIts hP, allT_eqEs hP, hP .comma trivial, hP .eq trivial, hP .lp trivial, hP .rp trivial, hP .lb trivial, hP .rb trivial, hP .lc trivial, hP .rc trivial, hP .dots trivial, hP .semi trivial, hP .dot trivial, hP .colon trivial, hP .dcolon trivial, hP .quest trivial, hP .kDo trivial, hP .kIf trivial, hP .kElse trivial, hP .kElseif trivial, hP .kEnd trivial, hP .kWhile trivial, hP .kRepeat trivial, hP .kUntil trivial, hP .kFor trivial, hP .kIn trivial, hP .kFunction trivial, hP .kBreak trivial, hP .kReturn trivial, hP .kLocal trivial, hP .kGoto trivial, hP th hth]
theorem aEs : ∀ {i r : List T} {e : Exs} {sh : Bool}, Es L i r e → AllK Q i → AllT Q (prEs th sh e) ∧ AllK Q r
  | _, _, _, sh, .one h0, h => by
    try simp only [allK_cons] at h
    have q0 := aE (sh := sh) h0 (by simp_all)
    try simp only [allK_cons] at q0
    simp_all [prE, prEs, prIts, prS, prI, prT, prB, allT_sepEs hP, allT_sepIts hP, allT_eqEs hP, hP .comma trivial, hP .eq trivial, hP .lp trivial, hP .rp trivial, hP .lb trivial, hP .rb trivial, hP .lc trivial, hP .rc trivial, hP .dots trivial, hP .semi trivial, hP .dot trivial, hP .colon trivial, hP .dcolon trivial, hP .quest trivial, hP .kDo trivial, hP .kIf trivial, hP .kElse trivial, hP .kElseif trivial, hP .kEnd trivial, hP .kWhile trivial, hP .kRepeat trivial, hP .kUntil trivial, hP .kFor trivial, hP .kIn trivial, hP .kFunction trivial, hP .kBreak trivial, hP .kReturn trivial, hP .kLocal trivial, hP .kGoto trivial, hP th hth]
  | _, _, _, sh, .cons h0 h1, h => by
    try simp only [allK_cons] at h
    have q0 := aE (sh := sh) h0 (by simp_all)
    try simp only [allK_cons] at q0
    have q1 := aEs (sh := sh) h1 (by simp_all)
    try simp only [allK_cons] at q1
    simp_all [prE, prEs, prIts, prS, prI, prT, prB, allT_sepEs hP, allT_sepIts hP, allT_eqEs hP, hP .comma trivial, hP .eq trivial, hP .lp trivial, hP .rp trivial, hP .lb trivial, hP .rb trivial, hP .lc trivial, hP .rc trivial, hP .dots trivial, hP .semi trivial, hP .dot trivial, hP .colon trivial, hP .dcolon trivial, hP .quest trivial, hP .kDo trivial, hP .kIf trivial, hP .kElse trivial, hP .kElseif trivial, hP .kEnd trivial, hP .kWhile trivial, hP .kRepeat trivial, hP .kUntil trivial, hP .kFor trivial, hP .kIn trivial, hP .kFunction trivial, hP .kBreak trivial, hP .kReturn trivial, hP .kLocal trivial, hP .kGoto trivial, hP th hth]
theorem aItems : ∀ {i r : List T} {e : Its} {sh : Bool}, Items L i r e → AllK Q i → AllT Q (prIts th sh e) ∧ AllK Q r
  | _, _, _, sh, .nil, h => by
    try simp only [allK_cons] at h
    simp_all [prE, prEs, prIts, prS, prI, prT, prB, allT_sepEs hP, allT_sepIts hP, allT_eqEs hP, hP .comma trivial, hP .eq trivial, hP .lp trivial, hP .rp trivial, hP .lb trivial, hP .rb trivial, hP .lc trivial, hP .rc trivial, hP .dots trivial, hP .semi trivial, hP .dot trivial, hP .colon trivial, hP .dcolon trivial, hP .quest trivial, hP .kDo trivial, hP .kIf trivial, hP .kElse trivial, hP .kElseif trivial, hP .kEnd trivial, hP .kWhile trivial, hP .kRepeat trivial, hP .kUntil trivial, hP .kFor trivial, hP .kIn trivial, hP .kFunction trivial, hP .kBreak trivial, hP .kReturn trivial, hP .kLocal trivial, hP .kGoto trivial, hP th hth]
  | _, _, _, sh, .pos h0 h1, h => by
    try simp only [allK_cons] at h
    have q0 := aE (sh := sh) h0 (by simp_all)
    try simp only [allK_cons] at q0
    have q1 := aAfter (sh := sh) h1 (by simp_all)
    try simp only [allK_cons] at q1
    simp_all [prE, prEs, prIts, prS, prI, prT, prB, allT_sepEs hP, allT_sepIts hP, allT_eqEs hP, hP .comma trivial, hP .eq trivial, hP .lp trivial, hP .rp trivial, hP .lb trivial, hP .rb trivial, hP .lc trivial, hP .rc trivial, hP .dots trivial, hP .semi trivial, hP .dot trivial, hP .colon trivial, hP .dcolon trivial, hP .quest trivial, hP .kDo trivial, hP .kIf trivial, hP .kElse trivial, hP .kElseif trivial, hP .kEnd trivial, hP .kWhile trivial, hP .kRepeat trivial, hP .kUntil trivial, hP .kFor trivial, hP .kIn trivial, hP .kFunction trivial, hP .kBreak trivial, hP .kReturn trivial, hP .kLocal trivial, hP .kGoto trivial, hP th hth]
  | _, _, _, sh, .named h0 h1, h => by
    try simp only [allK_cons] at h
    have q0 := aE (sh := sh) h0 (by simp_all)
    try simp only [allK_cons] at q0
    have q1 := aAfter (sh := sh) h1 (by simp_all)
    try simp only [allK_cons] at q1
    simp_all [prE, prEs, prIts, prS, prI, prT, prB, allT_sepEs hP, allT_sepIts hP, allT_eqEs hP, hP .comma trivial, hP .eq trivial, hP .lp trivial, hP .rp trivial, hP .lb trivial, hP .rb trivial, hP .lc trivial, hP .rc trivial, hP .dots trivial, hP .semi trivial, hP .dot trivial, hP .colon trivial, hP .dcolon trivial, hP .quest trivial, hP .kDo trivial, hP .kIf trivial, hP .kElse trivial, hP .kElseif trivial, hP .kEnd trivial, hP .kWhile trivial, hP .kRepeat trivial, hP .kUntil trivial, hP .kFor trivial, hP .kIn trivial, hP .kFunction trivial, hP .kBreak trivial, hP .kReturn trivial, hP .kLocal trivial, hP .kGoto trivial, hP th hth]
  | _, _, _, sh, .keyed h0 h1 h2, h => by
    try simp only [allK_cons] at h
    have q0 := aE (sh := sh) h0 (by simp_all)
    try simp only [allK_cons] at q0
    have q1 := aE (sh := sh) h1 (by simp_all)
    try simp only [allK_cons] at q1
    have q2 := aAfter (sh := sh) h2 (by simp_all)
    try simp only [allK_cons] at q2
    simp_all [prE, prEs, prIts, prS, prI, prT, prB, allT_sepEs hP, allT_sepIts hP, allT_eqEs hP, hP .comma trivial, hP .eq trivial, hP .lp trivial, hP .rp trivial, hP .lb trivial, hP .rb trivial, hP .lc trivial, hP .rc trivial, hP .dots trivial, hP .semi trivial, hP .dot trivial, hP .colon trivial, hP .dcolon trivial, hP .quest trivial, hP .kDo trivial, hP .kIf trivial, hP .kElse trivial, hP .kElseif trivial, hP .kEnd trivial, hP .kWhile trivial, hP .kRepeat trivial, hP .kUntil trivial, hP .kFor trivial, hP .kIn trivial, hP .kFunction trivial, hP .kBreak trivial, hP .kReturn trivial, hP .kLocal trivial, hP .kGoto trivial, hP th hth]
theorem aAfter : ∀ {i r : List T} {e : Its} {sh : Bool}, After L i r e → AllK Q i → AllT Q (prIts th sh e) ∧ AllK Q r
  | _, _, _, sh, .close, h => by
    try simp only [allK_cons] at h
    simp_all [prE, prEs, prIts, prS, prI, prT, prB, allT_sepEs hP, allT_sepIts hP, allT_eqEs hP, hP .comma trivial, hP .eq trivial, hP .lp trivial, hP .rp trivial, hP .lb trivial, hP .rb trivial, hP .lc trivial, hP .rc trivial, hP .dots trivial, hP .semi trivial, hP .dot trivial, hP .colon trivial, hP .dcolon trivial, hP .quest trivial, hP .kDo trivial, hP .kIf trivial, hP .kElse trivial, hP .kElseif trivial, hP .kEnd trivial, hP .kWhile trivial, hP .kRepeat trivial, hP .kUntil trivial, hP .kFor trivial, hP .kIn trivial, hP .kFunction trivial, hP .kBreak trivial, hP .kReturn trivial, hP .kLocal trivial, hP .kGoto trivial, hP th hth]
  | _, _, _, sh, .semi h0, h => by
    try simp only [allK_cons] at h
    have q0 := aItems (sh := sh) h0 (by simp_all)
    try simp only [allK_cons] at q0
    simp_all [prE, prEs, prIts, prS, prI, prT, prB, allT_sepEs hP, allT_sepIts hP, allT_eqEs hP, hP .comma trivial, hP .eq trivial, hP .lp trivial, hP .rp trivial, hP .lb trivial, hP .rb trivial, hP .lc trivial, hP .rc trivial, hP .dots trivial, hP .semi trivial, hP .dot trivial, hP .colon trivial, hP .dcolon trivial, hP .quest trivial, hP .kDo trivial, hP .kIf trivial, hP .kElse trivial, hP .kElseif trivial, hP .kEnd trivial, hP .kWhile trivial, hP .kRepeat trivial, hP .kUntil trivial, hP .kFor trivial, hP .kIn trivial, hP .kFunction trivial, hP .kBreak trivial, hP .kReturn trivial, hP .kLocal trivial, hP .kGoto trivial, hP th hth]
  | _, _, _, sh, .comma h0, h => by
    try simp only [allK_cons] at h
    have q0 := aItems (sh := sh) h0 (by simp_all)
    try simp only [allK_cons] at q0
    simp_all [prE, prEs, prIts, prS, prI, prT, prB, allT_sepEs hP, allT_sepIts hP, allT_eqEs hP, hP .comma trivial, hP .eq trivial, hP .lp trivial, hP .rp trivial, hP .lb trivial, hP .rb trivial, hP .lc trivial, hP .rc trivial, hP .dots trivial, hP .semi trivial, hP .dot trivial, hP .colon trivial, hP .dcolon trivial, hP .quest trivial, hP .kDo trivial, hP .kIf trivial, hP .kElse trivial, hP .kElseif trivial, hP .kEnd trivial, hP .kWhile trivial, hP .kRepeat trivial, hP .kUntil trivial, hP .kFor trivial, hP .kIn trivial, hP .kFunction trivial, hP .kBreak trivial, hP .kReturn trivial, hP .kLocal trivial, hP .kGoto trivial, hP th hth]
theorem aBody : ∀ {i r : List T} {ps : List Param} {b : Block} {sh : Bool}, Body L i r ps b → AllK Q i → (AllT Q (prParams ps) ∧ AllT Q (prB th sh b)) ∧ AllK Q r
  | _, _, _, _, sh, .mk h0 h1, h => by
    try simp only [allK_cons] at h
    have q0 := all_params (Q := Q) h0 (by simp_all)
    try simp only [allK_cons] at q0
    have q1 := aB (sh := sh) h1 (by simp_all)
    try simp only [allK_cons] at q1
    simp_all [prE, prEs, prIts, prS, prI, prT, prB, allT_sepEs hP, allT_sepIts hP, allT_eqEs hP, hP .comma trivial, hP .eq trivial, hP .lp trivial, hP .rp trivial, hP .lb trivial, hP .rb trivial, hP .lc trivial, hP .rc trivial, hP .dots trivial, hP .semi trivial, hP .dot trivial, hP .colon trivial, hP .dcolon trivial, hP .quest trivial, hP .kDo trivial, hP .kIf trivial, hP .kElse trivial, hP .kElseif trivial, hP .kEnd trivial, hP .kWhile trivial, hP .kRepeat trivial, hP .kUntil trivial, hP .kFor trivial, hP .kIn trivial, hP .kFunction trivial, hP .kBreak trivial, hP .kReturn trivial, hP .kLocal trivial, hP .kGoto trivial, hP th hth]
theorem aB : ∀ {v : Option Nat} {i r : List T} {b : Block} {sh : Bool}, B L v i r b → AllK Q i → AllT Q (prB th sh b) ∧ AllK Q r
  | _, _, _, _, sh, .nil _, h => by
    try simp only [allK_cons] at h
    simp_all [prE, prEs, prIts, prS, prI, prT, prB, allT_sepEs hP, allT_sepIts hP, allT_eqEs hP, hP .comma trivial, hP .eq trivial, hP .lp trivial, hP .rp trivial, hP .lb trivial, hP .rb trivial, hP .lc trivial, hP .rc trivial, hP .dots trivial, hP .semi trivial, hP .dot trivial, hP .colon trivial, hP .dcolon trivial, hP .quest trivial, hP .kDo trivial, hP .kIf trivial, hP .kElse trivial, hP .kElseif trivial, hP .kEnd trivial, hP .kWhile trivial, hP .kRepeat trivial, hP .kUntil trivial, hP .kFor trivial, hP .kIn trivial, hP .kFunction trivial, hP .kBreak trivial, hP .kReturn trivial, hP .kLocal trivial, hP .kGoto trivial, hP th hth]
  | _, _, _, _, sh, .semi _ h1, h => by
    try simp only [allK_cons] at h
    have q1 := aB (sh := sh) h1 (by simp_all)
    try simp only [allK_cons] at q1
    simp_all [prE, prEs, prIts, prS, prI, prT, prB, allT_sepEs hP, allT_sepIts hP, allT_eqEs hP, hP .comma trivial, hP .eq trivial, hP .lp trivial, hP .rp trivial, hP .lb trivial, hP .rb trivial, hP .lc trivial, hP .rc trivial, hP .dots trivial, hP .semi trivial, hP .dot trivial, hP .colon trivial, hP .dcolon trivial, hP .quest trivial, hP .kDo trivial, hP .kIf trivial, hP .kElse trivial, hP .kElseif trivial, hP .kEnd trivial, hP .kWhile trivial, hP .kRepeat trivial, hP .kUntil trivial, hP .kFor trivial, hP .kIn trivial, hP .kFunction trivial, hP .kBreak trivial, hP .kReturn trivial, hP .kLocal trivial, hP .kGoto trivial, hP th hth]
  | _, _, _, _, sh, .cons _ h1 h2, h => by
    try simp only [allK_cons] at h
    have q1 := aS (sh := sh) h1 (by simp_all)
    try simp only [allK_cons] at q1
    have q2 := aB (sh := sh) h2 (by simp_all)
    try simp only [allK_cons] at q2
    simp_all [prE, prEs, prIts, prS, prI, prT, prB, allT_sepEs hP, allT_sepIts hP, allT_eqEs hP, hP .comma trivial, hP .eq trivial, hP .lp trivial, hP .rp trivial, hP .lb trivial, hP .rb trivial, hP .lc trivial, hP .rc trivial, hP .dots trivial, hP .semi trivial, hP .dot trivial, hP .colon trivial, hP .dcolon trivial, hP .quest trivial, hP .kDo trivial, hP .kIf trivial, hP .kElse trivial, hP .kElseif trivial, hP .kEnd trivial, hP .kWhile trivial, hP .kRepeat trivial, hP .kUntil trivial, hP .kFor trivial, hP .kIn trivial, hP .kFunction trivial, hP .kBreak trivial, hP .kReturn trivial, hP .kLocal trivial, hP .kGoto trivial, hP th hth]
theorem aS : ∀ {v : Option Nat} {i r : List T} {s : St} {sh : Bool}, S L v i r s → AllK Q i → AllT Q (prS th sh s) ∧ AllK Q r
  | _, _, _, _, sh, .do_ h0, h => by
    try simp only [allK_cons] at h
    have q0 := aB (sh := sh) h0 (by simp_all)
    try simp only [allK_cons] at q0
    simp_all [prE, prEs, prIts, prS, prI, prT, prB, allT_sepEs hP, allT_sepIts hP, allT_eqEs hP, hP .comma trivial, hP .eq trivial, hP .lp trivial, hP .rp trivial, hP .lb trivial, hP .rb trivial, hP .lc trivial, hP .rc trivial, hP .dots trivial, hP .semi trivial, hP .dot trivial, hP .colon trivial, hP .dcolon trivial, hP .quest trivial, hP .kDo trivial, hP .kIf trivial, hP .kElse trivial, hP .kElseif trivial, hP .kEnd trivial, hP .kWhile trivial, hP .kRepeat trivial, hP .kUntil trivial, hP .kFor trivial, hP .kIn trivial, hP .kFunction trivial, hP .kBreak trivial, hP .kReturn trivial, hP .kLocal trivial, hP .kGoto trivial, hP th hth]
  | _, _, _, _, sh, .if_ h0, h => by
    try simp only [allK_cons] at h
    have q0 := aI (sh := sh) h0 (by simp_all)
    try simp only [allK_cons] at q0
    simp_all [prE, prEs, prIts, prS, prI, prT, prB, allT_sepEs hP, allT_sepIts hP, allT_eqEs hP, hP .comma trivial, hP .eq trivial, hP .lp trivial, hP .rp trivial, hP .lb trivial, hP .rb trivial, hP .lc trivial, hP .rc trivial, hP .dots trivial, hP .semi trivial, hP .dot trivial, hP .colon trivial, hP .dcolon trivial, hP .quest trivial, hP .kDo trivial, hP .kIf trivial, hP .kElse trivial, hP .kElseif trivial, hP .kEnd trivial, hP .kWhile trivial, hP .kRepeat trivial, hP .kUntil trivial, hP .kFor trivial, hP .kIn trivial, hP .kFunction trivial, hP .kBreak trivial, hP .kReturn trivial, hP .kLocal trivial, hP .kGoto trivial, hP th hth]
  | _, _, _, _, sh, .while_ h0 h1, h => by
    try simp only [allK_cons] at h
    have q0 := aE (sh := sh) h0 (by simp_all)
    try simp only [allK_cons] at q0
    have q1 := aB (sh := sh) h1 (by simp_all)
    try simp only [allK_cons] at q1
    simp_all [prE, prEs, prIts, prS, prI, prT, prB, allT_sepEs hP, allT_sepIts hP, allT_eqEs hP, hP .comma trivial, hP .eq trivial, hP .lp trivial, hP .rp trivial, hP .lb trivial, hP .rb trivial, hP .lc trivial, hP .rc trivial, hP .dots trivial, hP .semi trivial, hP .dot trivial, hP .colon trivial, hP .dcolon trivial, hP .quest trivial, hP .kDo trivial, hP .kIf trivial, hP .kElse trivial, hP .kElseif trivial, hP .kEnd trivial, hP .kWhile trivial, hP .kRepeat trivial, hP .kUntil trivial, hP .kFor trivial, hP .kIn trivial, hP .kFunction trivial, hP .kBreak trivial, hP .kReturn trivial, hP .kLocal trivial, hP .kGoto trivial, hP th hth]
  | _, _, _, _, sh, .whileShort (d := d) h0 _ _ _ h4 _, h => by
    try simp only [allK_cons] at h
    have q0 := aE (sh := (sh || !d)) h0 (by simp_all)
    try simp only [allK_cons] at q0
    have q4 := aB (sh := (sh || !d)) h4 (by simp_all)
    try simp only [allK_cons] at q4
    simp_all [prE, prEs, prIts, prS, prI, prT, prB, allT_sepEs hP, allT_sepIts hP, allT_eqEs hP, hP .comma trivial, hP .eq trivial, hP .lp trivial, hP .rp trivial, hP .lb trivial, hP .rb trivial, hP .lc trivial, hP .rc trivial, hP .dots trivial, hP .semi trivial, hP .dot trivial, hP .colon trivial, hP .dcolon trivial, hP .quest trivial, hP .kDo trivial, hP .kIf trivial, hP .kElse trivial, hP .kElseif trivial, hP .kEnd trivial, hP .kWhile trivial, hP .kRepeat trivial, hP .kUntil trivial, hP .kFor trivial, hP .kIn trivial, hP .kFunction trivial, hP .kBreak trivial, hP .kReturn trivial, hP .kLocal trivial, hP .kGoto trivial, hP th hth]
  | _, _, _, _, sh, .repeat_ h0 h1 _, h => by
    try simp only [allK_cons] at h
    have q0 := aB (sh := sh) h0 (by simp_all)
    try simp only [allK_cons] at q0
    have q1 := aE (sh := sh) h1 (by simp_all)
    try simp only [allK_cons] at q1
    simp_all [prE, prEs, prIts, prS, prI, prT, prB, allT_sepEs hP, allT_sepIts hP, allT_eqEs hP, hP .comma trivial, hP .eq trivial, hP .lp trivial, hP .rp trivial, hP .lb trivial, hP .rb trivial, hP .lc trivial, hP .rc trivial, hP .dots trivial, hP .semi trivial, hP .dot trivial, hP .colon trivial, hP .dcolon trivial, hP .quest trivial, hP .kDo trivial, hP .kIf trivial, hP .kElse trivial, hP .kElseif trivial, hP .kEnd trivial, hP .kWhile trivial, hP .kRepeat trivial, hP .kUntil trivial, hP .kFor trivial, hP .kIn trivial, hP .kFunction trivial, hP .kBreak trivial, hP .kReturn trivial, hP .kLocal trivial, hP .kGoto trivial, hP th hth]
  | _, _, _, _, sh, .fornum h0 h1 h2, h => by
    try simp only [allK_cons] at h
    have q0 := aE (sh := sh) h0 (by simp_all)
    try simp only [allK_cons] at q0
    have q1 := aE (sh := sh) h1 (by simp_all)
    try simp only [allK_cons] at q1
    have q2 := aB (sh := sh) h2 (by simp_all)
    try simp only [allK_cons] at q2
    simp_all [prE, prEs, prIts, prS, prI, prT, prB, allT_sepEs hP, allT_sepIts hP, allT_eqEs hP, hP .comma trivial, hP .eq trivial, hP .lp trivial, hP .rp trivial, hP .lb trivial, hP .rb trivial, hP .lc trivial, hP .rc trivial, hP .dots trivial, hP .semi trivial, hP .dot trivial, hP .colon trivial, hP .dcolon trivial, hP .quest trivial, hP .kDo trivial, hP .kIf trivial, hP .kElse trivial, hP .kElseif trivial, hP .kEnd trivial, hP .kWhile trivial, hP .kRepeat trivial, hP .kUntil trivial, hP .kFor trivial, hP .kIn trivial, hP .kFunction trivial, hP .kBreak trivial, hP .kReturn trivial, hP .kLocal trivial, hP .kGoto trivial, hP th hth]
  | _, _, _, _, sh, .forstep h0 h1 h2 h3, h => by
    try simp only [allK_cons] at h
    have q0 := aE (sh := sh) h0 (by simp_all)
    try simp only [allK_cons] at q0
    have q1 := aE (sh := sh) h1 (by simp_all)
    try simp only [allK_cons] at q1
    have q2 := aE (sh := sh) h2 (by simp_all)
    try simp only [allK_cons] at q2
    have q3 := aB (sh := sh) h3 (by simp_all)
    try simp only [allK_cons] at q3
    simp_all [prE, prEs, prIts, prS, prI, prT, prB, allT_sepEs hP, allT_sepIts hP, allT_eqEs hP, hP .comma trivial, hP .eq trivial, hP .lp trivial, hP .rp trivial, hP .lb trivial, hP .rb trivial, hP .lc trivial, hP .rc trivial, hP .dots trivial, hP .semi trivial, hP .dot trivial, hP .colon trivial, hP .dcolon trivial, hP .quest trivial, hP .kDo trivial, hP .kIf trivial, hP .kElse trivial, hP .kElseif trivial, hP .kEnd trivial, hP .kWhile trivial, hP .kRepeat trivial, hP .kUntil trivial, hP .kFor trivial, hP .kIn trivial, hP .kFunction trivial, hP .kBreak trivial, hP .kReturn trivial, hP .kLocal trivial, hP .kGoto trivial, hP th hth]
  | _, _, _, _, sh, .forin h0 h1 h2, h => by
    try simp only [allK_cons] at h
    have q0 := all_names (Q := Q) h0 (by simp_all)
    try simp only [allK_cons] at q0
    have q1 := aEs (sh := sh) h1 (by simp_all)
    try simp only [allK_cons] at q1
    have q2 := aB (sh := sh) h2 (by simp_all)
    try simp only [allK_cons] at q2
    simp_all [prE, prEs, prIts, prS, prI, prT, prB, allT_sepEs hP, allT_sepIts hP, allT_eqEs hP, hP .comma trivial, hP .eq trivial, hP .lp trivial, hP .rp trivial, hP .lb trivial, hP .rb trivial, hP .lc trivial, hP .rc trivial, hP .dots trivial, hP .semi trivial, hP .dot trivial, hP .colon trivial, hP .dcolon trivial, hP .quest trivial, hP .kDo trivial, hP .kIf trivial, hP .kElse trivial, hP .kElseif trivial, hP .kEnd trivial, hP .kWhile trivial, hP .kRepeat trivial, hP .kUntil trivial, hP .kFor trivial, hP .kIn trivial, hP .kFunction trivial, hP .kBreak trivial, hP .kReturn trivial, hP .kLocal trivial, hP .kGoto trivial, hP th hth]
  | _, _, _, _, sh, .break_, h => by
    try simp only [allK_cons] at h
    simp_all [prE, prEs, prIts, prS, prI, prT, prB, allT_sepEs hP, allT_sepIts hP, allT_eqEs hP, hP .comma trivial, hP .eq trivial, hP .lp trivial, hP .rp trivial, hP .lb trivial, hP .rb trivial, hP .lc trivial, hP .rc trivial, hP .dots trivial, hP .semi trivial, hP .dot trivial, hP .colon trivial, hP .dcolon trivial, hP .quest trivial, hP .kDo trivial, hP .kIf trivial, hP .kElse trivial, hP .kElseif trivial, hP .kEnd trivial, hP .kWhile trivial, hP .kRepeat trivial, hP .kUntil trivial, hP .kFor trivial, hP .kIn trivial, hP .kFunction trivial, hP .kBreak trivial, hP .kReturn trivial, hP .kLocal trivial, hP .kGoto trivial, hP th hth]
  | _, _, _, _, sh, .returnNone _, h => by
    try simp only [allK_cons] at h
    simp_all [prE, prEs, prIts, prS, prI, prT, prB, allT_sepEs hP, allT_sepIts hP, allT_eqEs hP, hP .comma trivial, hP .eq trivial, hP .lp trivial, hP .rp trivial, hP .lb trivial, hP .rb trivial, hP .lc trivial, hP .rc trivial, hP .dots trivial, hP .semi trivial, hP .dot trivial, hP .colon trivial, hP .dcolon trivial, hP .quest trivial, hP .kDo trivial, hP .kIf trivial, hP .kElse trivial, hP .kElseif trivial, hP .kEnd trivial, hP .kWhile trivial, hP .kRepeat trivial, hP .kUntil trivial, hP .kFor trivial, hP .kIn trivial, hP .kFunction trivial, hP .kBreak trivial, hP .kReturn trivial, hP .kLocal trivial, hP .kGoto trivial, hP th hth]
  | _, _, _, _, sh, .return_ _ h1 _, h => by
    try simp only [allK_cons] at h
    have q1 := aEs (sh := sh) h1 (by simp_all)
    try simp only [allK_cons] at q1
    simp_all [prE, prEs, prIts, prS, prI, prT, prB, allT_sepEs hP, allT_sepIts hP, allT_eqEs hP, hP .comma trivial, hP .eq trivial, hP .lp trivial, hP .rp trivial, hP .lb trivial, hP .rb trivial, hP .lc trivial, hP .rc trivial, hP .dots trivial, hP .semi trivial, hP .dot trivial, hP .colon trivial, hP .dcolon trivial, hP .quest trivial, hP .kDo trivial, hP .kIf trivial, hP .kElse trivial, hP .kElseif trivial, hP .kEnd trivial, hP .kWhile trivial, hP .kRepeat trivial, hP .kUntil trivial, hP .kFor trivial, hP .kIn trivial, hP .kFunction trivial, hP .kBreak trivial, hP .kReturn trivial, hP .kLocal trivial, hP .kGoto trivial, hP th hth]
  | _, _, _, _, sh, .local_ h0 _, h => by
    try simp only [allK_cons] at h
    have q0 := all_locals (Q := Q) h0 (by simp_all)
    try simp only [allK_cons] at q0
    simp_all [prE, prEs, prIts, prS, prI, prT, prB, allT_sepEs hP, allT_sepIts hP, allT_eqEs hP, hP .comma trivial, hP .eq trivial, hP .lp trivial, hP .rp trivial, hP .lb trivial, hP .rb trivial, hP .lc trivial, hP .rc trivial, hP .dots trivial, hP .semi trivial, hP .dot trivial, hP .colon trivial, hP .dcolon trivial, hP .quest trivial, hP .kDo trivial, hP .kIf trivial, hP .kElse trivial, hP .kElseif trivial, hP .kEnd trivial, hP .kWhile trivial, hP .kRepeat trivial, hP .kUntil trivial, hP .kFor trivial, hP .kIn trivial, hP .kFunction trivial, hP .kBreak trivial, hP .kReturn trivial, hP .kLocal trivial, hP .kGoto trivial, hP th hth]
  | _, _, _, _, sh, .localAssign h0 h1 _, h => by
    try simp only [allK_cons] at h
    have q0 := all_locals (Q := Q) h0 (by simp_all)
    try simp only [allK_cons] at q0
    have q1 := aEs (sh := sh) h1 (by simp_all)
    try simp only [allK_cons] at q1
    simp_all [prE, prEs, prIts, prS, prI, prT, prB, allT_sepEs hP, allT_sepIts hP, allT_eqEs hP, hP .comma trivial, hP .eq trivial, hP .lp trivial, hP .rp trivial, hP .lb trivial, hP .rb trivial, hP .lc trivial, hP .rc trivial, hP .dots trivial, hP .semi trivial, hP .dot trivial, hP .colon trivial, hP .dcolon trivial, hP .quest trivial, hP .kDo trivial, hP .kIf trivial, hP .kElse trivial, hP .kElseif trivial, hP .kEnd trivial, hP .kWhile trivial, hP .kRepeat trivial, hP .kUntil trivial, hP .kFor trivial, hP .kIn trivial, hP .kFunction trivial, hP .kBreak trivial, hP .kReturn trivial, hP .kLocal trivial, hP .kGoto trivial, hP th hth]
  | _, _, _, _, sh, .localfn h0, h => by
    try simp only [allK_cons] at h
    have q0 := aBody (sh := sh) h0 (by simp_all)
    try simp only [allK_cons] at q0
    simp_all [prE, prEs, prIts, prS, prI, prT, prB, allT_sepEs hP, allT_sepIts hP, allT_eqEs hP, hP .comma trivial, hP .eq trivial, hP .lp trivial, hP .rp trivial, hP .lb trivial, hP .rb trivial, hP .lc trivial, hP .rc trivial, hP .dots trivial, hP .semi trivial, hP .dot trivial, hP .colon trivial, hP .dcolon trivial, hP .quest trivial, hP .kDo trivial, hP .kIf trivial, hP .kElse trivial, hP .kElseif trivial, hP .kEnd trivial, hP .kWhile trivial, hP .kRepeat trivial, hP .kUntil trivial, hP .kFor trivial, hP .kIn trivial, hP .kFunction trivial, hP .kBreak trivial, hP .kReturn trivial, hP .kLocal trivial, hP .kGoto trivial, hP th hth]
  | _, _, _, _, sh, .goto_, h => by
    try simp only [allK_cons] at h
    simp_all [prE, prEs, prIts, prS, prI, prT, prB, allT_sepEs hP, allT_sepIts hP, allT_eqEs hP, hP .comma trivial, hP .eq trivial, hP .lp trivial, hP .rp trivial, hP .lb trivial, hP .rb trivial, hP .lc trivial, hP .rc trivial, hP .dots trivial, hP .semi trivial, hP .dot trivial, hP .colon trivial, hP .dcolon trivial, hP .quest trivial, hP .kDo trivial, hP .kIf trivial, hP .kElse trivial, hP .kElseif trivial, hP .kEnd trivial, hP .kWhile trivial, hP .kRepeat trivial, hP .kUntil trivial, hP .kFor trivial, hP .kIn trivial, hP .kFunction trivial, hP .kBreak trivial, hP .kReturn trivial, hP .kLocal trivial, hP .kGoto trivial, hP th hth]
  | _, _, _, _, sh, .label, h => by
    try simp only [allK_cons] at h
    simp_all [prE, prEs, prIts, prS, prI, prT, prB, allT_sepEs hP, allT_sepIts hP, allT_eqEs hP, hP .comma trivial, hP .eq trivial, hP .lp trivial, hP .rp trivial, hP .lb trivial, hP .rb trivial, hP .lc trivial, hP .rc trivial, hP .dots trivial, hP .semi trivial, hP .dot trivial, hP .colon trivial, hP .dcolon trivial, hP .quest trivial, hP .kDo trivial, hP .kIf trivial, hP .kElse trivial, hP .kElseif trivial, hP .kEnd trivial, hP .kWhile trivial, hP .kRepeat trivial, hP .kUntil trivial, hP .kFor trivial, hP .kIn trivial, hP .kFunction trivial, hP .kBreak trivial, hP .kReturn trivial, hP .kLocal trivial, hP .kGoto trivial, hP th hth]
  | _, _, _, _, sh, .func h0 h1, h => by
    try simp only [allK_cons] at h
    have q0 := all_name (Q := Q) h0 (by simp_all)
    try simp only [allK_cons] at q0
    have q1 := aBody (sh := sh) h1 (by simp_all)
    try simp only [allK_cons] at q1
    simp_all [prE, prEs, prIts, prS, prI, prT, prB, allT_sepEs hP, allT_sepIts hP, allT_eqEs hP, hP .comma trivial, hP .eq trivial, hP .lp trivial, hP .rp trivial, hP .lb trivial, hP .rb trivial, hP .lc trivial, hP .rc trivial, hP .dots trivial, hP .semi trivial, hP .dot trivial, hP .colon trivial, hP .dcolon trivial, hP .quest trivial, hP .kDo trivial, hP .kIf trivial, hP .kElse trivial, hP .kElseif trivial, hP .kEnd trivial, hP .kWhile trivial, hP .kRepeat trivial, hP .kUntil trivial, hP .kFor trivial, hP .kIn trivial, hP .kFunction trivial, hP .kBreak trivial, hP .kReturn trivial, hP .kLocal trivial, hP .kGoto trivial, hP th hth]
  | _, _, _, _, sh, .assign _ h1 h2 _, h => by
    try simp only [allK_cons] at h
    have q1 := aEs (sh := sh) h1 (by simp_all)
    try simp only [allK_cons] at q1
    have q2 := aEs (sh := sh) h2 (by simp_all)
    try simp only [allK_cons] at q2
    simp_all [prE, prEs, prIts, prS, prI, prT, prB, allT_sepEs hP, allT_sepIts hP, allT_eqEs hP, hP .comma trivial, hP .eq trivial, hP .lp trivial, hP .rp trivial, hP .lb trivial, hP .rb trivial, hP .lc trivial, hP .rc trivial, hP .dots trivial, hP .semi trivial, hP .dot trivial, hP .colon trivial, hP .dcolon trivial, hP .quest trivial, hP .kDo trivial, hP .kIf trivial, hP .kElse trivial, hP .kElseif trivial, hP .kEnd trivial, hP .kWhile trivial, hP .kRepeat trivial, hP .kUntil trivial, hP .kFor trivial, hP .kIn trivial, hP .kFunction trivial, hP .kBreak trivial, hP .kReturn trivial, hP .kLocal trivial, hP .kGoto trivial, hP th hth]
  | _, _, _, _, sh, .opassign _ h1 h2 _, h => by
    try simp only [allK_cons] at h
    have q1 := aE (sh := sh) h1 (by simp_all)
    try simp only [allK_cons] at q1
    have q2 := aE (sh := sh) h2 (by simp_all)
    try simp only [allK_cons] at q2
    simp_all [prE, prEs, prIts, prS, prI, prT, prB, allT_sepEs hP, allT_sepIts hP, allT_eqEs hP, hP .comma trivial, hP .eq trivial, hP .lp trivial, hP .rp trivial, hP .lb trivial, hP .rb trivial, hP .lc trivial, hP .rc trivial, hP .dots trivial, hP .semi trivial, hP .dot trivial, hP .colon trivial, hP .dcolon trivial, hP .quest trivial, hP .kDo trivial, hP .kIf trivial, hP .kElse trivial, hP .kElseif trivial, hP .kEnd trivial, hP .kWhile trivial, hP .kRepeat trivial, hP .kUntil trivial, hP .kFor trivial, hP .kIn trivial, hP .kFunction trivial, hP .kBreak trivial, hP .kReturn trivial, hP .kLocal trivial, hP .kGoto trivial, hP th hth]
  | _, _, _, _, sh, .call h0 _ _, h => by
    try simp only [allK_cons] at h
    have q0 := aP (sh := sh) h0 (by simp_all)
    try simp only [allK_cons] at q0
    simp_all [prE, prEs, prIts, prS, prI, prT, prB, allT_sepEs hP, allT_sepIts hP, allT_eqEs hP, hP .comma trivial, hP .eq trivial, hP .lp trivial, hP .rp trivial, hP .lb trivial, hP .rb trivial, hP .lc trivial, hP .rc trivial, hP .dots trivial, hP .semi trivial, hP .dot trivial, hP .colon trivial, hP .dcolon trivial, hP .quest trivial, hP .kDo trivial, hP .kIf trivial, hP .kElse trivial, hP .kElseif trivial, hP .kEnd trivial, hP .kWhile trivial, hP .kRepeat trivial, hP .kUntil trivial, hP .kFor trivial, hP .kIn trivial, hP .kFunction trivial, hP .kBreak trivial, hP .kReturn trivial, hP .kLocal trivial, hP .kGoto trivial, hP th hth]
  | _, _, _, _, sh, .method h0 _ _, h => by
    try simp only [allK_cons] at h
    have q0 := aP (sh := sh) h0 (by simp_all)
    try simp only [allK_cons] at q0
    simp_all [prE, prEs, prIts, prS, prI, prT, prB, allT_sepEs hP, allT_sepIts hP, allT_eqEs hP, hP .comma trivial, hP .eq trivial, hP .lp trivial, hP .rp trivial, hP .lb trivial, hP .rb trivial, hP .lc trivial, hP .rc trivial, hP .dots trivial, hP .semi trivial, hP .dot trivial, hP .colon trivial, hP .dcolon trivial, hP .quest trivial, hP .kDo trivial, hP .kIf trivial, hP .kElse trivial, hP .kElseif trivial, hP .kEnd trivial, hP .kWhile trivial, hP .kRepeat trivial, hP .kUntil trivial, hP .kFor trivial, hP .kIn trivial, hP .kFunction trivial, hP .kBreak trivial, hP .kReturn trivial, hP .kLocal trivial, hP .kGoto trivial, hP th hth]
  | _, _, _, _, sh, .print h0 _, h => by
    try simp only [allK_cons] at h
    have q0 := aEs (sh := true) h0 (by simp_all)
    try simp only [allK_cons] at q0
    simp_all [prE, prEs, prIts, prS, prI, prT, prB, allT_sepEs hP, allT_sepIts hP, allT_eqEs hP, hP .comma trivial, hP .eq trivial, hP .lp trivial, hP .rp trivial, hP .lb trivial, hP .rb trivial, hP .lc trivial, hP .rc trivial, hP .dots trivial, hP .semi trivial, hP .dot trivial, hP .colon trivial, hP .dcolon trivial, hP .quest trivial, hP .kDo trivial, hP .kIf trivial, hP .kElse trivial, hP .kElseif trivial, hP .kEnd trivial, hP .kWhile trivial, hP .kRepeat trivial, hP .kUntil trivial, hP .kFor trivial, hP .kIn trivial, hP .kFunction trivial, hP .kBreak trivial, hP .kReturn trivial, hP .kLocal trivial, hP .kGoto trivial, hP th hth]
theorem aI : ∀ {i r : List T} {s : If} {sh : Bool}, I L i r s → AllK Q i → AllT Q (prI th sh s) ∧ AllK Q r
  | _, _, _, sh, .long h0 _ h2 h3, h => by
    try simp only [allK_cons] at h
    have q0 := aE (sh := sh) h0 (by simp_all)
    try simp only [allK_cons] at q0
    have q2 := aB (sh := sh) h2 (by simp_all)
    try simp only [allK_cons] at q2
    have q3 := aTl (sh := sh) h3 (by simp_all)
    try simp only [allK_cons] at q3
    simp_all [prE, prEs, prIts, prS, prI, prT, prB, allT_sepEs hP, allT_sepIts hP, allT_eqEs hP, hP .comma trivial, hP .eq trivial, hP .lp trivial, hP .rp trivial, hP .lb trivial, hP .rb trivial, hP .lc trivial, hP .rc trivial, hP .dots trivial, hP .semi trivial, hP .dot trivial, hP .colon trivial, hP .dcolon trivial, hP .quest trivial, hP .kDo trivial, hP .kIf trivial, hP .kElse trivial, hP .kElseif trivial, hP .kEnd trivial, hP .kWhile trivial, hP .kRepeat trivial, hP .kUntil trivial, hP .kFor trivial, hP .kIn trivial, hP .kFunction trivial, hP .kBreak trivial, hP .kReturn trivial, hP .kLocal trivial, hP .kGoto trivial, hP th hth]
  | _, _, _, sh, .short (d := d) h0 _ _ _ h4 _ _, h => by
    try simp only [allK_cons] at h
    have q0 := aE (sh := (sh || !d)) h0 (by simp_all)
    try simp only [allK_cons] at q0
    have q4 := aB (sh := (sh || !d)) h4 (by simp_all)
    try simp only [allK_cons] at q4
    simp_all [prE, prEs, prIts, prS, prI, prT, prB, allT_sepEs hP, allT_sepIts hP, allT_eqEs hP, hP .comma trivial, hP .eq trivial, hP .lp trivial, hP .rp trivial, hP .lb trivial, hP .rb trivial, hP .lc trivial, hP .rc trivial, hP .dots trivial, hP .semi trivial, hP .dot trivial, hP .colon trivial, hP .dcolon trivial, hP .quest trivial, hP .kDo trivial, hP .kIf trivial, hP .kElse trivial, hP .kElseif trivial, hP .kEnd trivial, hP .kWhile trivial, hP .kRepeat trivial, hP .kUntil trivial, hP .kFor trivial, hP .kIn trivial, hP .kFunction trivial, hP .kBreak trivial, hP .kReturn trivial, hP .kLocal trivial, hP .kGoto trivial, hP th hth]
  | _, _, _, sh, .shortElse (d := d) h0 _ _ _ h4 h5 _, h => by
    try simp only [allK_cons] at h
    have q0 := aE (sh := (sh || !d)) h0 (by simp_all)
    try simp only [allK_cons] at q0
    have q4 := aB (sh := (sh || !d)) h4 (by simp_all)
    try simp only [allK_cons] at q4
    have q5 := aB (sh := (sh || !d)) h5 (by simp_all)
    try simp only [allK_cons] at q5
    simp_all [prE, prEs, prIts, prS, prI, prT, prB, allT_sepEs hP, allT_sepIts hP, allT_eqEs hP, hP .comma trivial, hP .eq trivial, hP .lp trivial, hP .rp trivial, hP .lb trivial, hP .rb trivial, hP .lc trivial, hP .rc trivial, hP .dots trivial, hP .semi trivial, hP .dot trivial, hP .colon trivial, hP .dcolon trivial, hP .quest trivial, hP .kDo trivial, hP .kIf trivial, hP .kElse trivial, hP .kElseif trivial, hP .kEnd trivial, hP .kWhile trivial, hP .kRepeat trivial, hP .kUntil trivial, hP .kFor trivial, hP .kIn trivial, hP .kFunction trivial, hP .kBreak trivial, hP .kReturn trivial, hP .kLocal trivial, hP .kGoto trivial, hP th hth]
theorem aTl : ∀ {i r : List T} {s : Syntax.Tail} {sh : Bool}, Tl L i r s → AllK Q i → AllT Q (prT th sh s) ∧ AllK Q r
  | _, _, _, sh, .end_, h => by
    try simp only [allK_cons] at h
    simp_all [prE, prEs, prIts, prS, prI, prT, prB, allT_sepEs hP, allT_sepIts hP, allT_eqEs hP, hP .comma trivial, hP .eq trivial, hP .lp trivial, hP .rp trivial, hP .lb trivial, hP .rb trivial, hP .lc trivial, hP .rc trivial, hP .dots trivial, hP .semi trivial, hP .dot trivial, hP .colon trivial, hP .dcolon trivial, hP .quest trivial, hP .kDo trivial, hP .kIf trivial, hP .kElse trivial, hP .kElseif trivial, hP .kEnd trivial, hP .kWhile trivial, hP .kRepeat trivial, hP .kUntil trivial, hP .kFor trivial, hP .kIn trivial, hP .kFunction trivial, hP .kBreak trivial, hP .kReturn trivial, hP .kLocal trivial, hP .kGoto trivial, hP th hth]
  | _, _, _, sh, .else_ h0, h => by
    try simp only [allK_cons] at h
    have q0 := aB (sh := sh) h0 (by simp_all)
    try simp only [allK_cons] at q0
    simp_all [prE, prEs, prIts, prS, prI, prT, prB, allT_sepEs hP, allT_sepIts hP, allT_eqEs hP, hP .comma trivial, hP .eq trivial, hP .lp trivial, hP .rp trivial, hP .lb trivial, hP .rb trivial, hP .lc trivial, hP .rc trivial, hP .dots trivial, hP .semi trivial, hP .dot trivial, hP .colon trivial, hP .dcolon trivial, hP .quest trivial, hP .kDo trivial, hP .kIf trivial, hP .kElse trivial, hP .kElseif trivial, hP .kEnd trivial, hP .kWhile trivial, hP .kRepeat trivial, hP .kUntil trivial, hP .kFor trivial, hP .kIn trivial, hP .kFunction trivial, hP .kBreak trivial, hP .kReturn trivial, hP .kLocal trivial, hP .kGoto trivial, hP th hth]
  | _, _, _, sh, .elseif_ h0, h => by
    try simp only [allK_cons] at h
    have q0 := aI (sh := sh) h0 (by simp_all)
    try simp only [allK_cons] at q0
    simp_all [prE, prEs, prIts, prS, prI, prT, prB, allT_sepEs hP, allT_sepIts hP, allT_eqEs hP, hP .comma trivial, hP .eq trivial, hP .lp trivial, hP .rp trivial, hP .lb trivial, hP .rb trivial, hP .lc trivial, hP .rc trivial, hP .dots trivial, hP .semi trivial, hP .dot trivial, hP .colon trivial, hP .dcolon trivial, hP .quest trivial, hP .kDo trivial, hP .kIf trivial, hP .kElse trivial, hP .kElseif trivial, hP .kEnd trivial, hP .kWhile trivial, hP .kRepeat trivial, hP .kUntil trivial, hP .kFor trivial, hP .kIn trivial, hP .kFunction trivial, hP .kBreak trivial, hP .kReturn trivial, hP .kLocal trivial, hP .kGoto trivial, hP th hth]
end

end

/-! #### From the tree to the minified tree -/

/-- Tokens that are left alone. -/
def Keep : K → Prop
  | .num _ | .str _ | .opeq _ => False
  | _ => True

/-- How the tokens change. -/
structure Step (C : Cfg) (P Q : K → Prop) : Prop where
  num : ∀ {u : Bool} {s : String} {sh : Bool}, P (.num s) → AllT Q (prE th sh (C.fmt u s).ex)
  str : ∀ {s : String}, P (.str s) → Q (.str (C.fstr s))
  op : ∀ {o : Op}, P (.op o) → Q (.op (canonOp C o))
  opeq : ∀ {o : Op}, P (.opeq o) → Q (.opeq (canonEq C o))
  keep : ∀ {k : K}, Keep k → P k → Q k
  fixed : ∀ k, Fixed k → Q k

theorem allT_imp {P Q R : K → Prop} (h : ∀ {k}, R k → P k → Q k) : ∀ {ms : List M}, AllT R ms → AllT P ms → AllT Q ms
  | [], _, _ => trivial
  | .t _ :: ms, h1, h2 => ⟨h h1.1 h2.1, allT_imp h (ms := ms) h1.2 h2.2⟩
  | .nl :: ms, h1, h2 => allT_imp h (ms := ms) h1 h2

theorem keep_names : ∀ {xs : List Nm}, AllT Keep (prNames xs)
  | [] => trivial
  | [_] => ⟨trivial, trivial⟩
  | _ :: y :: xs => ⟨trivial, trivial, keep_names (xs := y :: xs)⟩
theorem keep_attr {a : Option Nm} : AllT Keep (prAttr a) := by cases a <;> simp [prAttr, Keep]
theorem keep_locals : ∀ {xs : List (Nm × Option Nm)}, AllT Keep (prLocals xs)
  | [] => trivial
  | [_] => ⟨trivial, keep_attr⟩
  | _ :: y :: xs => ⟨trivial, allT_append.2 ⟨keep_attr, trivial, keep_locals (xs := y :: xs)⟩⟩
theorem keep_par {p : Param} : Keep (prPar p) := by cases p <;> trivial
theorem keep_params : ∀ {ps : List Param}, AllT Keep (prParams ps)
  | [] => ⟨trivial, trivial⟩
  | [_] => ⟨keep_par, trivial, trivial⟩
  | _ :: y :: ps => ⟨keep_par, trivial, keep_params (ps := y :: ps)⟩
theorem keep_keys : ∀ {xs : List Nm}, AllT Keep (xs.flatMap fun x => [.t .dot, .t (.id x)])
  | [] => trivial
  | _ :: xs => ⟨trivial, trivial, keep_keys (xs := xs)⟩
theorem keep_name {f : FnName} : AllT Keep (prName f) := by
  refine ⟨trivial, allT_append.2 ⟨keep_keys, ?_⟩⟩
  cases f.meth <;> simp [Keep]

section
variable {C : Cfg} {P Q : K → Prop} {th : K} (hs : Step th C P Q) (hth : Fixed th)
include hs

theorem step_names {xs : List Nm} (h : AllT P (prNames xs)) : AllT Q (prNames xs) := allT_imp hs.keep keep_names h
theorem step_locals {xs : List (Nm × Option Nm)} (h : AllT P (prLocals xs)) : AllT Q (prLocals xs) := allT_imp hs.keep keep_locals h
theorem step_params {ps : List Param} (h : AllT P (prParams ps)) : AllT Q (prParams ps) := allT_imp hs.keep keep_params h
theorem step_name {f : FnName} (h : AllT P (prName f)) : AllT Q (prName f) := allT_imp hs.keep keep_name h
theorem step_id {x : Nm} (h : P (.id x)) : Q (.id x) := hs.keep trivial h
theorem step_cst {x : String} (h : P (.cst x)) : Q (.cst x) := hs.keep trivial h
theorem step_op {o : Op} (h : P (.op o)) : Q (.op o) := hs.keep trivial h

include hth

mutual
theorem all_mE : ∀ (x : Ex) (c : Ctx) (sh : Bool), AllT P (prE th sh x) → AllT Q (prE th sh (mE C c x))
  | .var x => by
    intro c sh h
    simp only [prE, mE, allT_append, allT_t, allT_nl, allT_nil, allT_brk] at h ⊢
    simp_all [hs.num, hs.str, hs.op, hs.opeq, step_id hs, step_cst hs, step_op hs, step_names hs, step_locals hs, step_params hs, step_name hs, allT_sepEs hs.fixed, allT_sepIts hs.fixed, allT_eqEs hs.fixed, hs.fixed .comma trivial, hs.fixed .eq trivial, hs.fixed .lp trivial, hs.fixed .rp trivial, hs.fixed .lb trivial, hs.fixed .rb trivial, hs.fixed .lc trivial, hs.fixed .rc trivial, hs.fixed .dots trivial, hs.fixed .semi trivial, hs.fixed .dot trivial, hs.fixed .colon trivial, hs.fixed .dcolon trivial, hs.fixed .quest trivial, hs.fixed .kDo trivial, hs.fixed .kIf trivial, hs.fixed .kElse trivial, hs.fixed .kElseif trivial, hs.fixed .kEnd trivial, hs.fixed .kWhile trivial, hs.fixed .kRepeat trivial, hs.fixed .kUntil trivial, hs.fixed .kFor trivial, hs.fixed .kIn trivial, hs.fixed .kFunction trivial, hs.fixed .kBreak trivial, hs.fixed .kReturn trivial, hs.fixed .kLocal trivial, hs.fixed .kGoto trivial, hs.fixed th hth, -Bool.forall_bool]
  | .num x => by
    intro c sh h
    simp only [prE, mE, allT_append, allT_t, allT_nl, allT_nil, allT_brk] at h ⊢
    simp_all [hs.num, hs.str, hs.op, hs.opeq, step_id hs, step_cst hs, step_op hs, step_names hs, step_locals hs, step_params hs, step_name hs, allT_sepEs hs.fixed, allT_sepIts hs.fixed, allT_eqEs hs.fixed, hs.fixed .comma trivial, hs.fixed .eq trivial, hs.fixed .lp trivial, hs.fixed .rp trivial, hs.fixed .lb trivial, hs.fixed .rb trivial, hs.fixed .lc trivial, hs.fixed .rc trivial, hs.fixed .dots trivial, hs.fixed .semi trivial, hs.fixed .dot trivial, hs.fixed .colon trivial, hs.fixed .dcolon trivial, hs.fixed .quest trivial, hs.fixed .kDo trivial, hs.fixed .kIf trivial, hs.fixed .kElse trivial, hs.fixed .kElseif trivial, hs.fixed .kEnd trivial, hs.fixed .kWhile trivial, hs.fixed .kRepeat trivial, hs.fixed .kUntil trivial, hs.fixed .kFor trivial, hs.fixed .kIn trivial, hs.fixed .kFunction trivial, hs.fixed .kBreak trivial, hs.fixed .kReturn trivial, hs.fixed .kLocal trivial, hs.fixed .kGoto trivial, hs.fixed th hth, -Bool.forall_bool]
  | .str x => by
    intro c sh h
    simp only [prE, mE, allT_append, allT_t, allT_nl, allT_nil, allT_brk] at h ⊢
    simp_all [hs.num, hs.str, hs.op, hs.opeq, step_id hs, step_cst hs, step_op hs, step_names hs, step_locals hs, step_params hs, step_name hs, allT_sepEs hs.fixed, allT_sepIts hs.fixed, allT_eqEs hs.fixed, hs.fixed .comma trivial, hs.fixed .eq trivial, hs.fixed .lp trivial, hs.fixed .rp trivial, hs.fixed .lb trivial, hs.fixed .rb trivial, hs.fixed .lc trivial, hs.fixed .rc trivial, hs.fixed .dots trivial, hs.fixed .semi trivial, hs.fixed .dot trivial, hs.fixed .colon trivial, hs.fixed .dcolon trivial, hs.fixed .quest trivial, hs.fixed .kDo trivial, hs.fixed .kIf trivial, hs.fixed .kElse trivial, hs.fixed .kElseif trivial, hs.fixed .kEnd trivial, hs.fixed .kWhile trivial, hs.fixed .kRepeat trivial, hs.fixed .kUntil trivial, hs.fixed .kFor trivial, hs.fixed .kIn trivial, hs.fixed .kFunction trivial, hs.fixed .kBreak trivial, hs.fixed .kReturn trivial, hs.fixed .kLocal trivial, hs.fixed .kGoto trivial, hs.fixed th hth, -Bool.forall_bool]
  | .cst x => by
    intro c sh h
    simp only [prE, mE, allT_append, allT_t, allT_nl, allT_nil, allT_brk] at h ⊢
    simp_all [hs.num, hs.str, hs.op, hs.opeq, step_id hs, step_cst hs, step_op hs, step_names hs, step_locals hs, step_params hs, step_name hs, allT_sepEs hs.fixed, allT_sepIts hs.fixed, allT_eqEs hs.fixed, hs.fixed .comma trivial, hs.fixed .eq trivial, hs.fixed .lp trivial, hs.fixed .rp trivial, hs.fixed .lb trivial, hs.fixed .rb trivial, hs.fixed .lc trivial, hs.fixed .rc trivial, hs.fixed .dots trivial, hs.fixed .semi trivial, hs.fixed .dot trivial, hs.fixed .colon trivial, hs.fixed .dcolon trivial, hs.fixed .quest trivial, hs.fixed .kDo trivial, hs.fixed .kIf trivial, hs.fixed .kElse trivial, hs.fixed .kElseif trivial, hs.fixed .kEnd trivial, hs.fixed .kWhile trivial, hs.fixed .kRepeat trivial, hs.fixed .kUntil trivial, hs.fixed .kFor trivial, hs.fixed .kIn trivial, hs.fixed .kFunction trivial, hs.fixed .kBreak trivial, hs.fixed .kReturn trivial, hs.fixed .kLocal trivial, hs.fixed .kGoto trivial, hs.fixed th hth, -Bool.forall_bool]
  | .vararg => by
    intro c sh h
    simp only [prE, mE, allT_append, allT_t, allT_nl, allT_nil, allT_brk] at h ⊢
    simp_all [hs.num, hs.str, hs.op, hs.opeq, step_id hs, step_cst hs, step_op hs, step_names hs, step_locals hs, step_params hs, step_name hs, allT_sepEs hs.fixed, allT_sepIts hs.fixed, allT_eqEs hs.fixed, hs.fixed .comma trivial, hs.fixed .eq trivial, hs.fixed .lp trivial, hs.fixed .rp trivial, hs.fixed .lb trivial, hs.fixed .rb trivial, hs.fixed .lc trivial, hs.fixed .rc trivial, hs.fixed .dots trivial, hs.fixed .semi trivial, hs.fixed .dot trivial, hs.fixed .colon trivial, hs.fixed .dcolon trivial, hs.fixed .quest trivial, hs.fixed .kDo trivial, hs.fixed .kIf trivial, hs.fixed .kElse trivial, hs.fixed .kElseif trivial, hs.fixed .kEnd trivial, hs.fixed .kWhile trivial, hs.fixed .kRepeat trivial, hs.fixed .kUntil trivial, hs.fixed .kFor trivial, hs.fixed .kIn trivial, hs.fixed .kFunction trivial, hs.fixed .kBreak trivial, hs.fixed .kReturn trivial, hs.fixed .kLocal trivial, hs.fixed .kGoto trivial, hs.fixed th hth, -Bool.forall_bool]
  | .func ps b => by
    have ih1 := all_mB b
    intro c sh h
    simp only [prE, mE, allT_append, allT_t, allT_nl, allT_nil, allT_brk] at h ⊢
    simp_all [hs.num, hs.str, hs.op, hs.opeq, step_id hs, step_cst hs, step_op hs, step_names hs, step_locals hs, step_params hs, step_name hs, allT_sepEs hs.fixed, allT_sepIts hs.fixed, allT_eqEs hs.fixed, hs.fixed .comma trivial, hs.fixed .eq trivial, hs.fixed .lp trivial, hs.fixed .rp trivial, hs.fixed .lb trivial, hs.fixed .rb trivial, hs.fixed .lc trivial, hs.fixed .rc trivial, hs.fixed .dots trivial, hs.fixed .semi trivial, hs.fixed .dot trivial, hs.fixed .colon trivial, hs.fixed .dcolon trivial, hs.fixed .quest trivial, hs.fixed .kDo trivial, hs.fixed .kIf trivial, hs.fixed .kElse trivial, hs.fixed .kElseif trivial, hs.fixed .kEnd trivial, hs.fixed .kWhile trivial, hs.fixed .kRepeat trivial, hs.fixed .kUntil trivial, hs.fixed .kFor trivial, hs.fixed .kIn trivial, hs.fixed .kFunction trivial, hs.fixed .kBreak trivial, hs.fixed .kReturn trivial, hs.fixed .kLocal trivial, hs.fixed .kGoto trivial, hs.fixed th hth, -Bool.forall_bool]
  | .group e => by
    have ih1 := all_mE e
    intro c sh h
    simp only [prE, allT_append, allT_t, allT_nil] at h
    rw [mE]
    split
    · exact ih1 _ _ h.2.1
    · simp only [prE, allT_append, allT_t, allT_nil]
      exact ⟨hs.fixed _ trivial, ih1 _ _ h.2.1, hs.fixed _ trivial, trivial⟩
  | .un o e => by
    have ih1 := all_mE e
    intro c sh h
    simp only [prE, mE, allT_append, allT_t, allT_nl, allT_nil, allT_brk] at h ⊢
    simp_all [hs.num, hs.str, hs.op, hs.opeq, step_id hs, step_cst hs, step_op hs, step_names hs, step_locals hs, step_params hs, step_name hs, allT_sepEs hs.fixed, allT_sepIts hs.fixed, allT_eqEs hs.fixed, hs.fixed .comma trivial, hs.fixed .eq trivial, hs.fixed .lp trivial, hs.fixed .rp trivial, hs.fixed .lb trivial, hs.fixed .rb trivial, hs.fixed .lc trivial, hs.fixed .rc trivial, hs.fixed .dots trivial, hs.fixed .semi trivial, hs.fixed .dot trivial, hs.fixed .colon trivial, hs.fixed .dcolon trivial, hs.fixed .quest trivial, hs.fixed .kDo trivial, hs.fixed .kIf trivial, hs.fixed .kElse trivial, hs.fixed .kElseif trivial, hs.fixed .kEnd trivial, hs.fixed .kWhile trivial, hs.fixed .kRepeat trivial, hs.fixed .kUntil trivial, hs.fixed .kFor trivial, hs.fixed .kIn trivial, hs.fixed .kFunction trivial, hs.fixed .kBreak trivial, hs.fixed .kReturn trivial, hs.fixed .kLocal trivial, hs.fixed .kGoto trivial, hs.fixed th hth, -Bool.forall_bool]
  | .bin o l r => by
    have ih1 := all_mE l
    have ih2 := all_mE r
    intro c sh h
    simp only [prE, mE, allT_append, allT_t, allT_nl, allT_nil, allT_brk] at h ⊢
    simp_all [hs.num, hs.str, hs.op, hs.opeq, step_id hs, step_cst hs, step_op hs, step_names hs, step_locals hs, step_params hs, step_name hs, allT_sepEs hs.fixed, allT_sepIts hs.fixed, allT_eqEs hs.fixed, hs.fixed .comma trivial, hs.fixed .eq trivial, hs.fixed .lp trivial, hs.fixed .rp trivial, hs.fixed .lb trivial, hs.fixed .rb trivial, hs.fixed .lc trivial, hs.fixed .rc trivial, hs.fixed .dots trivial, hs.fixed .semi trivial, hs.fixed .dot trivial, hs.fixed .colon trivial, hs.fixed .dcolon trivial, hs.fixed .quest trivial, hs.fixed .kDo trivial, hs.fixed .kIf trivial, hs.fixed .kElse trivial, hs.fixed .kElseif trivial, hs.fixed .kEnd trivial, hs.fixed .kWhile trivial, hs.fixed .kRepeat trivial, hs.fixed .kUntil trivial, hs.fixed .kFor trivial, hs.fixed .kIn trivial, hs.fixed .kFunction trivial, hs.fixed .kBreak trivial, hs.fixed .kReturn trivial, hs.fixed .kLocal trivial, hs.fixed .kGoto trivial, hs.fixed th hth, -Bool.forall_bool]
  | .member b x => by
    have ih1 := all_mE b
    intro c sh h
    simp only [prE, mE, allT_append, allT_t, allT_nl, allT_nil, allT_brk] at h ⊢
    simp_all [hs.num, hs.str, hs.op, hs.opeq, step_id hs, step_cst hs, step_op hs, step_names hs, step_locals hs, step_params hs, step_name hs, allT_sepEs hs.fixed, allT_sepIts hs.fixed, allT_eqEs hs.fixed, hs.fixed .comma trivial, hs.fixed .eq trivial, hs.fixed .lp trivial, hs.fixed .rp trivial, hs.fixed .lb trivial, hs.fixed .rb trivial, hs.fixed .lc trivial, hs.fixed .rc trivial, hs.fixed .dots trivial, hs.fixed .semi trivial, hs.fixed .dot trivial, hs.fixed .colon trivial, hs.fixed .dcolon trivial, hs.fixed .quest trivial, hs.fixed .kDo trivial, hs.fixed .kIf trivial, hs.fixed .kElse trivial, hs.fixed .kElseif trivial, hs.fixed .kEnd trivial, hs.fixed .kWhile trivial, hs.fixed .kRepeat trivial, hs.fixed .kUntil trivial, hs.fixed .kFor trivial, hs.fixed .kIn trivial, hs.fixed .kFunction trivial, hs.fixed .kBreak trivial, hs.fixed .kReturn trivial, hs.fixed .kLocal trivial, hs.fixed .kGoto trivial, hs.fixed th hth, -Bool.forall_bool]
  | .index b k => by
    have ih1 := all_mE b
    have ih2 := all_mE k
    intro c sh h
    simp only [prE, mE, allT_append, allT_t, allT_nl, allT_nil, allT_brk] at h ⊢
    simp_all [hs.num, hs.str, hs.op, hs.opeq, step_id hs, step_cst hs, step_op hs, step_names hs, step_locals hs, step_params hs, step_name hs, allT_sepEs hs.fixed, allT_sepIts hs.fixed, allT_eqEs hs.fixed, hs.fixed .comma trivial, hs.fixed .eq trivial, hs.fixed .lp trivial, hs.fixed .rp trivial, hs.fixed .lb trivial, hs.fixed .rb trivial, hs.fixed .lc trivial, hs.fixed .rc trivial, hs.fixed .dots trivial, hs.fixed .semi trivial, hs.fixed .dot trivial, hs.fixed .colon trivial, hs.fixed .dcolon trivial, hs.fixed .quest trivial, hs.fixed .kDo trivial, hs.fixed .kIf trivial, hs.fixed .kElse trivial, hs.fixed .kElseif trivial, hs.fixed .kEnd trivial, hs.fixed .kWhile trivial, hs.fixed .kRepeat trivial, hs.fixed .kUntil trivial, hs.fixed .kFor trivial, hs.fixed .kIn trivial, hs.fixed .kFunction trivial, hs.fixed .kBreak trivial, hs.fixed .kReturn trivial, hs.fixed .kLocal trivial, hs.fixed .kGoto trivial, hs.fixed th hth, -Bool.forall_bool]
  | .call b t as => by
    have ih1 := all_mE b
    have ih2 := all_mEs as
    intro c sh h
    have h' : AllT P (prE th sh b) ∧ AllT P (prEs th sh as) := by
      cases t <;> simp only [prE, allT_append, allT_t, allT_nil] at h
      · exact ⟨h.1, h.2.2.1⟩
      · exact h
    rw [mE]
    cases bareArg as <;> simp only [prE, allT_append, allT_t, allT_nil]
    · exact ⟨ih1 _ _ h'.1, hs.fixed _ trivial, ih2 _ _ h'.2, hs.fixed _ trivial, trivial⟩
    · exact ⟨ih1 _ _ h'.1, ih2 _ _ h'.2⟩
  | .method b x t as => by
    have ih1 := all_mE b
    have ih2 := all_mEs as
    intro c sh h
    rw [mE]
    cases t <;> simp only [prE, allT_append, allT_t, allT_nil] at h ⊢
    · exact ⟨ih1 _ _ h.1, hs.fixed _ trivial, step_id hs h.2.2.1, hs.fixed _ trivial, ih2 _ _ h.2.2.2.2.1, hs.fixed _ trivial, trivial⟩
    · exact ⟨ih1 _ _ h.1, hs.fixed _ trivial, step_id hs h.2.2.1, ih2 _ _ h.2.2.2⟩
  | .table its => by
    have ih1 := all_mIts its
    intro c sh h
    simp only [prE, mE, allT_append, allT_t, allT_nl, allT_nil, allT_brk] at h ⊢
    simp_all [hs.num, hs.str, hs.op, hs.opeq, step_id hs, step_cst hs, step_op hs, step_names hs, step_locals hs, step_params hs, step_name hs, allT_sepEs hs.fixed, allT_sepIts hs.fixed, allT_eqEs hs.fixed, hs.fixed .comma trivial, hs.fixed .eq trivial, hs.fixed .lp trivial, hs.fixed .rp trivial, hs.fixed .lb trivial, hs.fixed .rb trivial, hs.fixed .lc trivial, hs.fixed .rc trivial, hs.fixed .dots trivial, hs.fixed .semi trivial, hs.fixed .dot trivial, hs.fixed .colon trivial, hs.fixed .dcolon trivial, hs.fixed .quest trivial, hs.fixed .kDo trivial, hs.fixed .kIf trivial, hs.fixed .kElse trivial, hs.fixed .kElseif trivial, hs.fixed .kEnd trivial, hs.fixed .kWhile trivial, hs.fixed .kRepeat trivial, hs.fixed .kUntil trivial, hs.fixed .kFor trivial, hs.fixed .kIn trivial, hs.fixed .kFunction trivial, hs.fixed .kBreak trivial, hs.fixed .kReturn trivial, hs.fixed .kLocal trivial, hs.fixed .kGoto trivial, hs.fixed th hth, -Bool.forall_bool]
theorem all_mEs : ∀ (x : Exs) (c : Ctx) (sh : Bool), AllT P (prEs th sh x) → AllT Q (prEs th sh (mEs C c x))
  | .nil => by
    intro c sh h
    simp [prEs, mEs]
  | .cons e .nil => by
    have ih1 := all_mE e
    intro c sh h
    simp only [prEs, mEs, allT_append, allT_t, allT_nl, allT_nil, allT_brk] at h ⊢
    simp_all [hs.num, hs.str, hs.op, hs.opeq, step_id hs, step_cst hs, step_op hs, step_names hs, step_locals hs, step_params hs, step_name hs, allT_sepEs hs.fixed, allT_sepIts hs.fixed, allT_eqEs hs.fixed, hs.fixed .comma trivial, hs.fixed .eq trivial, hs.fixed .lp trivial, hs.fixed .rp trivial, hs.fixed .lb trivial, hs.fixed .rb trivial, hs.fixed .lc trivial, hs.fixed .rc trivial, hs.fixed .dots trivial, hs.fixed .semi trivial, hs.fixed .dot trivial, hs.fixed .colon trivial, hs.fixed .dcolon trivial, hs.fixed .quest trivial, hs.fixed .kDo trivial, hs.fixed .kIf trivial, hs.fixed .kElse trivial, hs.fixed .kElseif trivial, hs.fixed .kEnd trivial, hs.fixed .kWhile trivial, hs.fixed .kRepeat trivial, hs.fixed .kUntil trivial, hs.fixed .kFor trivial, hs.fixed .kIn trivial, hs.fixed .kFunction trivial, hs.fixed .kBreak trivial, hs.fixed .kReturn trivial, hs.fixed .kLocal trivial, hs.fixed .kGoto trivial, hs.fixed th hth, -Bool.forall_bool]
  | .cons e (.cons f es) => by
    have ih1 := all_mE e
    have ih2 := all_mEs (.cons f es)
    intro c sh h
    rw [prEs, allT_append, allT_append] at h
    rw [show mEs C c (.cons e (.cons f es)) = .cons (mE C .single e) (mEs C c (.cons f es)) from rfl, prEs, allT_append, allT_append]
    exact ⟨ih1 _ _ h.1, allT_sepEs hs.fixed, ih2 _ _ h.2.2⟩
theorem all_mIts : ∀ (x : Its) (sh : Bool), AllT P (prIts th sh x) → AllT Q (prIts th sh (mIts C x))
  | .nil => by
    intro sh h
    simp [prIts, mIts]
  | .pos e .nil => by
    have ih1 := all_mE e
    intro sh h
    simp only [prIts, mIts, allT_append, allT_t, allT_nl, allT_nil, allT_brk] at h ⊢
    simp_all [hs.num, hs.str, hs.op, hs.opeq, step_id hs, step_cst hs, step_op hs, step_names hs, step_locals hs, step_params hs, step_name hs, allT_sepEs hs.fixed, allT_sepIts hs.fixed, allT_eqEs hs.fixed, hs.fixed .comma trivial, hs.fixed .eq trivial, hs.fixed .lp trivial, hs.fixed .rp trivial, hs.fixed .lb trivial, hs.fixed .rb trivial, hs.fixed .lc trivial, hs.fixed .rc trivial, hs.fixed .dots trivial, hs.fixed .semi trivial, hs.fixed .dot trivial, hs.fixed .colon trivial, hs.fixed .dcolon trivial, hs.fixed .quest trivial, hs.fixed .kDo trivial, hs.fixed .kIf trivial, hs.fixed .kElse trivial, hs.fixed .kElseif trivial, hs.fixed .kEnd trivial, hs.fixed .kWhile trivial, hs.fixed .kRepeat trivial, hs.fixed .kUntil trivial, hs.fixed .kFor trivial, hs.fixed .kIn trivial, hs.fixed .kFunction trivial, hs.fixed .kBreak trivial, hs.fixed .kReturn trivial, hs.fixed .kLocal trivial, hs.fixed .kGoto trivial, hs.fixed th hth, -Bool.forall_bool]
  | .pos e (.pos f its) => by
    have ih1 := all_mE e
    have ih2 := all_mIts (.pos f its)
    intro sh h
    rw [prIts, allT_append, allT_append] at h
    rw [show mIts C (.pos e (.pos f its)) = .pos (mE C .single e) (mIts C (.pos f its)) from rfl, prIts, allT_append, allT_append]
    exact ⟨ih1 _ _ h.1, allT_sepIts hs.fixed, ih2 _ h.2.2⟩
  | .pos e (.named y f its) => by
    have ih1 := all_mE e
    have ih2 := all_mIts (.named y f its)
    intro sh h
    rw [prIts, allT_append, allT_append] at h
    rw [show mIts C (.pos e (.named y f its)) = .pos (mE C .single e) (mIts C (.named y f its)) from rfl, prIts, allT_append, allT_append]
    exact ⟨ih1 _ _ h.1, allT_sepIts hs.fixed, ih2 _ h.2.2⟩
  | .pos e (.keyed k f its) => by
    have ih1 := all_mE e
    have ih2 := all_mIts (.keyed k f its)
    intro sh h
    rw [prIts, allT_append, allT_append] at h
    rw [show mIts C (.pos e (.keyed k f its)) = .pos (mE C .single e) (mIts C (.keyed k f its)) from rfl, prIts, allT_append, allT_append]
    exact ⟨ih1 _ _ h.1, allT_sepIts hs.fixed, ih2 _ h.2.2⟩
  | .named x e its => by
    have ih1 := all_mE e
    have ih2 := all_mIts its
    intro sh h
    simp only [prIts, mIts, allT_append, allT_t, allT_nl, allT_nil, allT_brk] at h ⊢
    simp_all [hs.num, hs.str, hs.op, hs.opeq, step_id hs, step_cst hs, step_op hs, step_names hs, step_locals hs, step_params hs, step_name hs, allT_sepEs hs.fixed, allT_sepIts hs.fixed, allT_eqEs hs.fixed, hs.fixed .comma trivial, hs.fixed .eq trivial, hs.fixed .lp trivial, hs.fixed .rp trivial, hs.fixed .lb trivial, hs.fixed .rb trivial, hs.fixed .lc trivial, hs.fixed .rc trivial, hs.fixed .dots trivial, hs.fixed .semi trivial, hs.fixed .dot trivial, hs.fixed .colon trivial, hs.fixed .dcolon trivial, hs.fixed .quest trivial, hs.fixed .kDo trivial, hs.fixed .kIf trivial, hs.fixed .kElse trivial, hs.fixed .kElseif trivial, hs.fixed .kEnd trivial, hs.fixed .kWhile trivial, hs.fixed .kRepeat trivial, hs.fixed .kUntil trivial, hs.fixed .kFor trivial, hs.fixed .kIn trivial, hs.fixed .kFunction trivial, hs.fixed .kBreak trivial, hs.fixed .kReturn trivial, hs.fixed .kLocal trivial, hs.fixed .kGoto trivial, hs.fixed th hth, -Bool.forall_bool]
  | .keyed k e its => by
    have ih1 := all_mE k
    have ih2 := all_mE e
    have ih3 := all_mIts its
    intro sh h
    simp only [prIts, mIts, allT_append, allT_t, allT_nl, allT_nil, allT_brk] at h ⊢
    simp_all [hs.num, hs.str, hs.op, hs.opeq, step_id hs, step_cst hs, step_op hs, step_names hs, step_locals hs, step_params hs, step_name hs, allT_sepEs hs.fixed, allT_sepIts hs.fixed, allT_eqEs hs.fixed, hs.fixed .comma trivial, hs.fixed .eq trivial, hs.fixed .lp trivial, hs.fixed .rp trivial, hs.fixed .lb trivial, hs.fixed .rb trivial, hs.fixed .lc trivial, hs.fixed .rc trivial, hs.fixed .dots trivial, hs.fixed .semi trivial, hs.fixed .dot trivial, hs.fixed .colon trivial, hs.fixed .dcolon trivial, hs.fixed .quest trivial, hs.fixed .kDo trivial, hs.fixed .kIf trivial, hs.fixed .kElse trivial, hs.fixed .kElseif trivial, hs.fixed .kEnd trivial, hs.fixed .kWhile trivial, hs.fixed .kRepeat trivial, hs.fixed .kUntil trivial, hs.fixed .kFor trivial, hs.fixed .kIn trivial, hs.fixed .kFunction trivial, hs.fixed .kBreak trivial, hs.fixed .kReturn trivial, hs.fixed .kLocal trivial, hs.fixed .kGoto trivial, hs.fixed th hth, -Bool.forall_bool]
theorem all_mS : ∀ (x : St) (nx : Bool) (sh : Bool), AllT P (prS th sh x) → AllT Q (prS th sh (mS C nx x))
  | .do_ b => by
    have ih1 := all_mB b
    intro nx sh h
    simp only [prS, mS, allT_append, allT_t, allT_nl, allT_nil, allT_brk] at h ⊢
    simp_all [hs.num, hs.str, hs.op, hs.opeq, step_id hs, step_cst hs, step_op hs, step_names hs, step_locals hs, step_params hs, step_name hs, allT_sepEs hs.fixed, allT_sepIts hs.fixed, allT_eqEs hs.fixed, hs.fixed .comma trivial, hs.fixed .eq trivial, hs.fixed .lp trivial, hs.fixed .rp trivial, hs.fixed .lb trivial, hs.fixed .rb trivial, hs.fixed .lc trivial, hs.fixed .rc trivial, hs.fixed .dots trivial, hs.fixed .semi trivial, hs.fixed .dot trivial, hs.fixed .colon trivial, hs.fixed .dcolon trivial, hs.fixed .quest trivial, hs.fixed .kDo trivial, hs.fixed .kIf trivial, hs.fixed .kElse trivial, hs.fixed .kElseif trivial, hs.fixed .kEnd trivial, hs.fixed .kWhile trivial, hs.fixed .kRepeat trivial, hs.fixed .kUntil trivial, hs.fixed .kFor trivial, hs.fixed .kIn trivial, hs.fixed .kFunction trivial, hs.fixed .kBreak trivial, hs.fixed .kReturn trivial, hs.fixed .kLocal trivial, hs.fixed .kGoto trivial, hs.fixed th hth, -Bool.forall_bool]
  | .if_ i => by
    have ih1 := all_mI i
    intro nx sh h
    simp only [prS, mS, allT_append, allT_t, allT_nl, allT_nil, allT_brk] at h ⊢
    simp_all [hs.num, hs.str, hs.op, hs.opeq, step_id hs, step_cst hs, step_op hs, step_names hs, step_locals hs, step_params hs, step_name hs, allT_sepEs hs.fixed, allT_sepIts hs.fixed, allT_eqEs hs.fixed, hs.fixed .comma trivial, hs.fixed .eq trivial, hs.fixed .lp trivial, hs.fixed .rp trivial, hs.fixed .lb trivial, hs.fixed .rb trivial, hs.fixed .lc trivial, hs.fixed .rc trivial, hs.fixed .dots trivial, hs.fixed .semi trivial, hs.fixed .dot trivial, hs.fixed .colon trivial, hs.fixed .dcolon trivial, hs.fixed .quest trivial, hs.fixed .kDo trivial, hs.fixed .kIf trivial, hs.fixed .kElse trivial, hs.fixed .kElseif trivial, hs.fixed .kEnd trivial, hs.fixed .kWhile trivial, hs.fixed .kRepeat trivial, hs.fixed .kUntil trivial, hs.fixed .kFor trivial, hs.fixed .kIn trivial, hs.fixed .kFunction trivial, hs.fixed .kBreak trivial, hs.fixed .kReturn trivial, hs.fixed .kLocal trivial, hs.fixed .kGoto trivial, hs.fixed th hth, -Bool.forall_bool]
  | .while_ e b => by
    have ih1 := all_mE e
    have ih2 := all_mB b
    intro nx sh h
    simp only [prS, mS, allT_append, allT_t, allT_nl, allT_nil, allT_brk] at h ⊢
    simp_all [hs.num, hs.str, hs.op, hs.opeq, step_id hs, step_cst hs, step_op hs, step_names hs, step_locals hs, step_params hs, step_name hs, allT_sepEs hs.fixed, allT_sepIts hs.fixed, allT_eqEs hs.fixed, hs.fixed .comma trivial, hs.fixed .eq trivial, hs.fixed .lp trivial, hs.fixed .rp trivial, hs.fixed .lb trivial, hs.fixed .rb trivial, hs.fixed .lc trivial, hs.fixed .rc trivial, hs.fixed .dots trivial, hs.fixed .semi trivial, hs.fixed .dot trivial, hs.fixed .colon trivial, hs.fixed .dcolon trivial, hs.fixed .quest trivial, hs.fixed .kDo trivial, hs.fixed .kIf trivial, hs.fixed .kElse trivial, hs.fixed .kElseif trivial, hs.fixed .kEnd trivial, hs.fixed .kWhile trivial, hs.fixed .kRepeat trivial, hs.fixed .kUntil trivial, hs.fixed .kFor trivial, hs.fixed .kIn trivial, hs.fixed .kFunction trivial, hs.fixed .kBreak trivial, hs.fixed .kReturn trivial, hs.fixed .kLocal trivial, hs.fixed .kGoto trivial, hs.fixed th hth, -Bool.forall_bool]
  | .whileShort e b d => by
    have ih1 := all_mE e
    have ih2 := all_mB b
    intro nx sh h
    simp only [prS, mS, allT_append, allT_t, allT_nl, allT_nil, allT_brk] at h ⊢
    simp_all [hs.num, hs.str, hs.op, hs.opeq, step_id hs, step_cst hs, step_op hs, step_names hs, step_locals hs, step_params hs, step_name hs, allT_sepEs hs.fixed, allT_sepIts hs.fixed, allT_eqEs hs.fixed, hs.fixed .comma trivial, hs.fixed .eq trivial, hs.fixed .lp trivial, hs.fixed .rp trivial, hs.fixed .lb trivial, hs.fixed .rb trivial, hs.fixed .lc trivial, hs.fixed .rc trivial, hs.fixed .dots trivial, hs.fixed .semi trivial, hs.fixed .dot trivial, hs.fixed .colon trivial, hs.fixed .dcolon trivial, hs.fixed .quest trivial, hs.fixed .kDo trivial, hs.fixed .kIf trivial, hs.fixed .kElse trivial, hs.fixed .kElseif trivial, hs.fixed .kEnd trivial, hs.fixed .kWhile trivial, hs.fixed .kRepeat trivial, hs.fixed .kUntil trivial, hs.fixed .kFor trivial, hs.fixed .kIn trivial, hs.fixed .kFunction trivial, hs.fixed .kBreak trivial, hs.fixed .kReturn trivial, hs.fixed .kLocal trivial, hs.fixed .kGoto trivial, hs.fixed th hth, -Bool.forall_bool]
  | .repeat_ b e => by
    have ih1 := all_mB b
    have ih2 := all_mE e
    intro nx sh h
    simp only [prS, mS, allT_append, allT_t, allT_nl, allT_nil, allT_brk] at h ⊢
    simp_all [hs.num, hs.str, hs.op, hs.opeq, step_id hs, step_cst hs, step_op hs, step_names hs, step_locals hs, step_params hs, step_name hs, allT_sepEs hs.fixed, allT_sepIts hs.fixed, allT_eqEs hs.fixed, hs.fixed .comma trivial, hs.fixed .eq trivial, hs.fixed .lp trivial, hs.fixed .rp trivial, hs.fixed .lb trivial, hs.fixed .rb trivial, hs.fixed .lc trivial, hs.fixed .rc trivial, hs.fixed .dots trivial, hs.fixed .semi trivial, hs.fixed .dot trivial, hs.fixed .colon trivial, hs.fixed .dcolon trivial, hs.fixed .quest trivial, hs.fixed .kDo trivial, hs.fixed .kIf trivial, hs.fixed .kElse trivial, hs.fixed .kElseif trivial, hs.fixed .kEnd trivial, hs.fixed .kWhile trivial, hs.fixed .kRepeat trivial, hs.fixed .kUntil trivial, hs.fixed .kFor trivial, hs.fixed .kIn trivial, hs.fixed .kFunction trivial, hs.fixed .kBreak trivial, hs.fixed .kReturn trivial, hs.fixed .kLocal trivial, hs.fixed .kGoto trivial, hs.fixed th hth, -Bool.forall_bool]
  | .fornum x a b s d => by
    have ih1 := all_mE a
    have ih2 := all_mE b
    have ih3 := all_mEs s
    have ih4 := all_mB d
    intro nx sh h
    simp only [prS, mS, allT_append, allT_t, allT_nl, allT_nil, allT_brk] at h ⊢
    simp_all [hs.num, hs.str, hs.op, hs.opeq, step_id hs, step_cst hs, step_op hs, step_names hs, step_locals hs, step_params hs, step_name hs, allT_sepEs hs.fixed, allT_sepIts hs.fixed, allT_eqEs hs.fixed, hs.fixed .comma trivial, hs.fixed .eq trivial, hs.fixed .lp trivial, hs.fixed .rp trivial, hs.fixed .lb trivial, hs.fixed .rb trivial, hs.fixed .lc trivial, hs.fixed .rc trivial, hs.fixed .dots trivial, hs.fixed .semi trivial, hs.fixed .dot trivial, hs.fixed .colon trivial, hs.fixed .dcolon trivial, hs.fixed .quest trivial, hs.fixed .kDo trivial, hs.fixed .kIf trivial, hs.fixed .kElse trivial, hs.fixed .kElseif trivial, hs.fixed .kEnd trivial, hs.fixed .kWhile trivial, hs.fixed .kRepeat trivial, hs.fixed .kUntil trivial, hs.fixed .kFor trivial, hs.fixed .kIn trivial, hs.fixed .kFunction trivial, hs.fixed .kBreak trivial, hs.fixed .kReturn trivial, hs.fixed .kLocal trivial, hs.fixed .kGoto trivial, hs.fixed th hth, -Bool.forall_bool]
  | .forin xs es d => by
    have ih1 := all_mEs es
    have ih2 := all_mB d
    intro nx sh h
    simp only [prS, mS, allT_append, allT_t, allT_nl, allT_nil, allT_brk] at h ⊢
    simp_all [hs.num, hs.str, hs.op, hs.opeq, step_id hs, step_cst hs, step_op hs, step_names hs, step_locals hs, step_params hs, step_name hs, allT_sepEs hs.fixed, allT_sepIts hs.fixed, allT_eqEs hs.fixed, hs.fixed .comma trivial, hs.fixed .eq trivial, hs.fixed .lp trivial, hs.fixed .rp trivial, hs.fixed .lb trivial, hs.fixed .rb trivial, hs.fixed .lc trivial, hs.fixed .rc trivial, hs.fixed .dots trivial, hs.fixed .semi trivial, hs.fixed .dot trivial, hs.fixed .colon trivial, hs.fixed .dcolon trivial, hs.fixed .quest trivial, hs.fixed .kDo trivial, hs.fixed .kIf trivial, hs.fixed .kElse trivial, hs.fixed .kElseif trivial, hs.fixed .kEnd trivial, hs.fixed .kWhile trivial, hs.fixed .kRepeat trivial, hs.fixed .kUntil trivial, hs.fixed .kFor trivial, hs.fixed .kIn trivial, hs.fixed .kFunction trivial, hs.fixed .kBreak trivial, hs.fixed .kReturn trivial, hs.fixed .kLocal trivial, hs.fixed .kGoto trivial, hs.fixed th hth, -Bool.forall_bool]
  | .break_ => by
    intro nx sh h
    simp only [prS, mS, allT_append, allT_t, allT_nl, allT_nil, allT_brk] at h ⊢
    simp_all [hs.num, hs.str, hs.op, hs.opeq, step_id hs, step_cst hs, step_op hs, step_names hs, step_locals hs, step_params hs, step_name hs, allT_sepEs hs.fixed, allT_sepIts hs.fixed, allT_eqEs hs.fixed, hs.fixed .comma trivial, hs.fixed .eq trivial, hs.fixed .lp trivial, hs.fixed .rp trivial, hs.fixed .lb trivial, hs.fixed .rb trivial, hs.fixed .lc trivial, hs.fixed .rc trivial, hs.fixed .dots trivial, hs.fixed .semi trivial, hs.fixed .dot trivial, hs.fixed .colon trivial, hs.fixed .dcolon trivial, hs.fixed .quest trivial, hs.fixed .kDo trivial, hs.fixed .kIf trivial, hs.fixed .kElse trivial, hs.fixed .kElseif trivial, hs.fixed .kEnd trivial, hs.fixed .kWhile trivial, hs.fixed .kRepeat trivial, hs.fixed .kUntil trivial, hs.fixed .kFor trivial, hs.fixed .kIn trivial, hs.fixed .kFunction trivial, hs.fixed .kBreak trivial, hs.fixed .kReturn trivial, hs.fixed .kLocal trivial, hs.fixed .kGoto trivial, hs.fixed th hth, -Bool.forall_bool]
  | .return_ es => by
    have ih1 := all_mEs es
    intro nx sh h
    simp only [prS, mS, allT_append, allT_t, allT_nl, allT_nil, allT_brk] at h ⊢
    simp_all [hs.num, hs.str, hs.op, hs.opeq, step_id hs, step_cst hs, step_op hs, step_names hs, step_locals hs, step_params hs, step_name hs, allT_sepEs hs.fixed, allT_sepIts hs.fixed, allT_eqEs hs.fixed, hs.fixed .comma trivial, hs.fixed .eq trivial, hs.fixed .lp trivial, hs.fixed .rp trivial, hs.fixed .lb trivial, hs.fixed .rb trivial, hs.fixed .lc trivial, hs.fixed .rc trivial, hs.fixed .dots trivial, hs.fixed .semi trivial, hs.fixed .dot trivial, hs.fixed .colon trivial, hs.fixed .dcolon trivial, hs.fixed .quest trivial, hs.fixed .kDo trivial, hs.fixed .kIf trivial, hs.fixed .kElse trivial, hs.fixed .kElseif trivial, hs.fixed .kEnd trivial, hs.fixed .kWhile trivial, hs.fixed .kRepeat trivial, hs.fixed .kUntil trivial, hs.fixed .kFor trivial, hs.fixed .kIn trivial, hs.fixed .kFunction trivial, hs.fixed .kBreak trivial, hs.fixed .kReturn trivial, hs.fixed .kLocal trivial, hs.fixed .kGoto trivial, hs.fixed th hth, -Bool.forall_bool]
  | .local_ xs es => by
    have ih1 := all_mEs es
    intro nx sh h
    simp only [prS, mS, allT_append, allT_t, allT_nl, allT_nil, allT_brk] at h ⊢
    simp_all [hs.num, hs.str, hs.op, hs.opeq, step_id hs, step_cst hs, step_op hs, step_names hs, step_locals hs, step_params hs, step_name hs, allT_sepEs hs.fixed, allT_sepIts hs.fixed, allT_eqEs hs.fixed, hs.fixed .comma trivial, hs.fixed .eq trivial, hs.fixed .lp trivial, hs.fixed .rp trivial, hs.fixed .lb trivial, hs.fixed .rb trivial, hs.fixed .lc trivial, hs.fixed .rc trivial, hs.fixed .dots trivial, hs.fixed .semi trivial, hs.fixed .dot trivial, hs.fixed .colon trivial, hs.fixed .dcolon trivial, hs.fixed .quest trivial, hs.fixed .kDo trivial, hs.fixed .kIf trivial, hs.fixed .kElse trivial, hs.fixed .kElseif trivial, hs.fixed .kEnd trivial, hs.fixed .kWhile trivial, hs.fixed .kRepeat trivial, hs.fixed .kUntil trivial, hs.fixed .kFor trivial, hs.fixed .kIn trivial, hs.fixed .kFunction trivial, hs.fixed .kBreak trivial, hs.fixed .kReturn trivial, hs.fixed .kLocal trivial, hs.fixed .kGoto trivial, hs.fixed th hth, -Bool.forall_bool]
  | .localfn x ps b => by
    have ih1 := all_mB b
    intro nx sh h
    simp only [prS, mS, allT_append, allT_t, allT_nl, allT_nil, allT_brk] at h ⊢
    simp_all [hs.num, hs.str, hs.op, hs.opeq, step_id hs, step_cst hs, step_op hs, step_names hs, step_locals hs, step_params hs, step_name hs, allT_sepEs hs.fixed, allT_sepIts hs.fixed, allT_eqEs hs.fixed, hs.fixed .comma trivial, hs.fixed .eq trivial, hs.fixed .lp trivial, hs.fixed .rp trivial, hs.fixed .lb trivial, hs.fixed .rb trivial, hs.fixed .lc trivial, hs.fixed .rc trivial, hs.fixed .dots trivial, hs.fixed .semi trivial, hs.fixed .dot trivial, hs.fixed .colon trivial, hs.fixed .dcolon trivial, hs.fixed .quest trivial, hs.fixed .kDo trivial, hs.fixed .kIf trivial, hs.fixed .kElse trivial, hs.fixed .kElseif trivial, hs.fixed .kEnd trivial, hs.fixed .kWhile trivial, hs.fixed .kRepeat trivial, hs.fixed .kUntil trivial, hs.fixed .kFor trivial, hs.fixed .kIn trivial, hs.fixed .kFunction trivial, hs.fixed .kBreak trivial, hs.fixed .kReturn trivial, hs.fixed .kLocal trivial, hs.fixed .kGoto trivial, hs.fixed th hth, -Bool.forall_bool]
  | .goto_ x => by
    intro nx sh h
    simp only [prS, mS, allT_append, allT_t, allT_nl, allT_nil, allT_brk] at h ⊢
    simp_all [hs.num, hs.str, hs.op, hs.opeq, step_id hs, step_cst hs, step_op hs, step_names hs, step_locals hs, step_params hs, step_name hs, allT_sepEs hs.fixed, allT_sepIts hs.fixed, allT_eqEs hs.fixed, hs.fixed .comma trivial, hs.fixed .eq trivial, hs.fixed .lp trivial, hs.fixed .rp trivial, hs.fixed .lb trivial, hs.fixed .rb trivial, hs.fixed .lc trivial, hs.fixed .rc trivial, hs.fixed .dots trivial, hs.fixed .semi trivial, hs.fixed .dot trivial, hs.fixed .colon trivial, hs.fixed .dcolon trivial, hs.fixed .quest trivial, hs.fixed .kDo trivial, hs.fixed .kIf trivial, hs.fixed .kElse trivial, hs.fixed .kElseif trivial, hs.fixed .kEnd trivial, hs.fixed .kWhile trivial, hs.fixed .kRepeat trivial, hs.fixed .kUntil trivial, hs.fixed .kFor trivial, hs.fixed .kIn trivial, hs.fixed .kFunction trivial, hs.fixed .kBreak trivial, hs.fixed .kReturn trivial, hs.fixed .kLocal trivial, hs.fixed .kGoto trivial, hs.fixed th hth, -Bool.forall_bool]
  | .label x => by
    intro nx sh h
    simp only [prS, mS, allT_append, allT_t, allT_nl, allT_nil, allT_brk] at h ⊢
    simp_all [hs.num, hs.str, hs.op, hs.opeq, step_id hs, step_cst hs, step_op hs, step_names hs, step_locals hs, step_params hs, step_name hs, allT_sepEs hs.fixed, allT_sepIts hs.fixed, allT_eqEs hs.fixed, hs.fixed .comma trivial, hs.fixed .eq trivial, hs.fixed .lp trivial, hs.fixed .rp trivial, hs.fixed .lb trivial, hs.fixed .rb trivial, hs.fixed .lc trivial, hs.fixed .rc trivial, hs.fixed .dots trivial, hs.fixed .semi trivial, hs.fixed .dot trivial, hs.fixed .colon trivial, hs.fixed .dcolon trivial, hs.fixed .quest trivial, hs.fixed .kDo trivial, hs.fixed .kIf trivial, hs.fixed .kElse trivial, hs.fixed .kElseif trivial, hs.fixed .kEnd trivial, hs.fixed .kWhile trivial, hs.fixed .kRepeat trivial, hs.fixed .kUntil trivial, hs.fixed .kFor trivial, hs.fixed .kIn trivial, hs.fixed .kFunction trivial, hs.fixed .kBreak trivial, hs.fixed .kReturn trivial, hs.fixed .kLocal trivial, hs.fixed .kGoto trivial, hs.fixed th hth, -Bool.forall_bool]
  | .func f ps b => by
    have ih1 := all_mB b
    intro nx sh h
    simp only [prS, mS, allT_append, allT_t, allT_nl, allT_nil, allT_brk] at h ⊢
    simp_all [hs.num, hs.str, hs.op, hs.opeq, step_id hs, step_cst hs, step_op hs, step_names hs, step_locals hs, step_params hs, step_name hs, allT_sepEs hs.fixed, allT_sepIts hs.fixed, allT_eqEs hs.fixed, hs.fixed .comma trivial, hs.fixed .eq trivial, hs.fixed .lp trivial, hs.fixed .rp trivial, hs.fixed .lb trivial, hs.fixed .rb trivial, hs.fixed .lc trivial, hs.fixed .rc trivial, hs.fixed .dots trivial, hs.fixed .semi trivial, hs.fixed .dot trivial, hs.fixed .colon trivial, hs.fixed .dcolon trivial, hs.fixed .quest trivial, hs.fixed .kDo trivial, hs.fixed .kIf trivial, hs.fixed .kElse trivial, hs.fixed .kElseif trivial, hs.fixed .kEnd trivial, hs.fixed .kWhile trivial, hs.fixed .kRepeat trivial, hs.fixed .kUntil trivial, hs.fixed .kFor trivial, hs.fixed .kIn trivial, hs.fixed .kFunction trivial, hs.fixed .kBreak trivial, hs.fixed .kReturn trivial, hs.fixed .kLocal trivial, hs.fixed .kGoto trivial, hs.fixed th hth, -Bool.forall_bool]
  | .assign ts es => by
    have ih1 := all_mEs ts
    have ih2 := all_mEs es
    intro nx sh h
    have ih3 := all_mTs ts
    simp only [prS, mS, allT_append, allT_t] at h ⊢
    exact ⟨ih3 _ h.1, hs.fixed _ trivial, ih2 _ _ h.2.2⟩
  | .opassign o t e => by
    have ih1 := all_mE t
    have ih2 := all_mE e
    intro nx sh h
    simp only [prS, mS, allT_append, allT_t, allT_nl, allT_nil, allT_brk] at h ⊢
    simp_all [hs.num, hs.str, hs.op, hs.opeq, step_id hs, step_cst hs, step_op hs, step_names hs, step_locals hs, step_params hs, step_name hs, allT_sepEs hs.fixed, allT_sepIts hs.fixed, allT_eqEs hs.fixed, hs.fixed .comma trivial, hs.fixed .eq trivial, hs.fixed .lp trivial, hs.fixed .rp trivial, hs.fixed .lb trivial, hs.fixed .rb trivial, hs.fixed .lc trivial, hs.fixed .rc trivial, hs.fixed .dots trivial, hs.fixed .semi trivial, hs.fixed .dot trivial, hs.fixed .colon trivial, hs.fixed .dcolon trivial, hs.fixed .quest trivial, hs.fixed .kDo trivial, hs.fixed .kIf trivial, hs.fixed .kElse trivial, hs.fixed .kElseif trivial, hs.fixed .kEnd trivial, hs.fixed .kWhile trivial, hs.fixed .kRepeat trivial, hs.fixed .kUntil trivial, hs.fixed .kFor trivial, hs.fixed .kIn trivial, hs.fixed .kFunction trivial, hs.fixed .kBreak trivial, hs.fixed .kReturn trivial, hs.fixed .kLocal trivial, hs.fixed .kGoto trivial, hs.fixed th hth, -Bool.forall_bool]
  | .call e => by
    have ih1 := all_mE e
    intro nx sh h
    simp only [prS, mS, allT_append, allT_t, allT_nl, allT_nil, allT_brk] at h ⊢
    simp_all [hs.num, hs.str, hs.op, hs.opeq, step_id hs, step_cst hs, step_op hs, step_names hs, step_locals hs, step_params hs, step_name hs, allT_sepEs hs.fixed, allT_sepIts hs.fixed, allT_eqEs hs.fixed, hs.fixed .comma trivial, hs.fixed .eq trivial, hs.fixed .lp trivial, hs.fixed .rp trivial, hs.fixed .lb trivial, hs.fixed .rb trivial, hs.fixed .lc trivial, hs.fixed .rc trivial, hs.fixed .dots trivial, hs.fixed .semi trivial, hs.fixed .dot trivial, hs.fixed .colon trivial, hs.fixed .dcolon trivial, hs.fixed .quest trivial, hs.fixed .kDo trivial, hs.fixed .kIf trivial, hs.fixed .kElse trivial, hs.fixed .kElseif trivial, hs.fixed .kEnd trivial, hs.fixed .kWhile trivial, hs.fixed .kRepeat trivial, hs.fixed .kUntil trivial, hs.fixed .kFor trivial, hs.fixed .kIn trivial, hs.fixed .kFunction trivial, hs.fixed .kBreak trivial, hs.fixed .kReturn trivial, hs.fixed .kLocal trivial, hs.fixed .kGoto trivial, hs.fixed th hth, -Bool.forall_bool]
  | .print es => by
    have ih1 := all_mEs es
    intro nx sh h
    simp only [prS, mS, allT_append, allT_t, allT_nl, allT_nil, allT_brk] at h ⊢
    simp_all [hs.num, hs.str, hs.op, hs.opeq, step_id hs, step_cst hs, step_op hs, step_names hs, step_locals hs, step_params hs, step_name hs, allT_sepEs hs.fixed, allT_sepIts hs.fixed, allT_eqEs hs.fixed, hs.fixed .comma trivial, hs.fixed .eq trivial, hs.fixed .lp trivial, hs.fixed .rp trivial, hs.fixed .lb trivial, hs.fixed .rb trivial, hs.fixed .lc trivial, hs.fixed .rc trivial, hs.fixed .dots trivial, hs.fixed .semi trivial, hs.fixed .dot trivial, hs.fixed .colon trivial, hs.fixed .dcolon trivial, hs.fixed .quest trivial, hs.fixed .kDo trivial, hs.fixed .kIf trivial, hs.fixed .kElse trivial, hs.fixed .kElseif trivial, hs.fixed .kEnd trivial, hs.fixed .kWhile trivial, hs.fixed .kRepeat trivial, hs.fixed .kUntil trivial, hs.fixed .kFor trivial, hs.fixed .kIn trivial, hs.fixed .kFunction trivial, hs.fixed .kBreak trivial, hs.fixed .kReturn trivial, hs.fixed .kLocal trivial, hs.fixed .kGoto trivial, hs.fixed th hth, -Bool.forall_bool]
theorem all_mI : ∀ (x : If) (nx : Bool) (sh : Bool), AllT P (prI th sh x) → AllT Q (prI th sh (mI C nx x))
  | .long e b t => by
    have ih1 := all_mE e
    have ih2 := all_mB b
    have ih3 := all_mT t
    intro nx sh h
    simp only [prI, mI, allT_append, allT_t, allT_nl, allT_nil, allT_brk] at h ⊢
    simp_all [hs.num, hs.str, hs.op, hs.opeq, step_id hs, step_cst hs, step_op hs, step_names hs, step_locals hs, step_params hs, step_name hs, allT_sepEs hs.fixed, allT_sepIts hs.fixed, allT_eqEs hs.fixed, hs.fixed .comma trivial, hs.fixed .eq trivial, hs.fixed .lp trivial, hs.fixed .rp trivial, hs.fixed .lb trivial, hs.fixed .rb trivial, hs.fixed .lc trivial, hs.fixed .rc trivial, hs.fixed .dots trivial, hs.fixed .semi trivial, hs.fixed .dot trivial, hs.fixed .colon trivial, hs.fixed .dcolon trivial, hs.fixed .quest trivial, hs.fixed .kDo trivial, hs.fixed .kIf trivial, hs.fixed .kElse trivial, hs.fixed .kElseif trivial, hs.fixed .kEnd trivial, hs.fixed .kWhile trivial, hs.fixed .kRepeat trivial, hs.fixed .kUntil trivial, hs.fixed .kFor trivial, hs.fixed .kIn trivial, hs.fixed .kFunction trivial, hs.fixed .kBreak trivial, hs.fixed .kReturn trivial, hs.fixed .kLocal trivial, hs.fixed .kGoto trivial, hs.fixed th hth, -Bool.forall_bool]
  | .short e b d => by
    have ih1 := all_mE e
    have ih2 := all_mB b
    intro nx sh h
    simp only [prI, mI, allT_append, allT_t, allT_nl, allT_nil, allT_brk] at h ⊢
    simp_all [hs.num, hs.str, hs.op, hs.opeq, step_id hs, step_cst hs, step_op hs, step_names hs, step_locals hs, step_params hs, step_name hs, allT_sepEs hs.fixed, allT_sepIts hs.fixed, allT_eqEs hs.fixed, hs.fixed .comma trivial, hs.fixed .eq trivial, hs.fixed .lp trivial, hs.fixed .rp trivial, hs.fixed .lb trivial, hs.fixed .rb trivial, hs.fixed .lc trivial, hs.fixed .rc trivial, hs.fixed .dots trivial, hs.fixed .semi trivial, hs.fixed .dot trivial, hs.fixed .colon trivial, hs.fixed .dcolon trivial, hs.fixed .quest trivial, hs.fixed .kDo trivial, hs.fixed .kIf trivial, hs.fixed .kElse trivial, hs.fixed .kElseif trivial, hs.fixed .kEnd trivial, hs.fixed .kWhile trivial, hs.fixed .kRepeat trivial, hs.fixed .kUntil trivial, hs.fixed .kFor trivial, hs.fixed .kIn trivial, hs.fixed .kFunction trivial, hs.fixed .kBreak trivial, hs.fixed .kReturn trivial, hs.fixed .kLocal trivial, hs.fixed .kGoto trivial, hs.fixed th hth, -Bool.forall_bool]
  | .shortElse e b b' d => by
    have ih1 := all_mE e
    have ih2 := all_mB b
    have ih3 := all_mB b'
    intro nx sh h
    simp only [prI, mI, allT_append, allT_t, allT_nl, allT_nil, allT_brk] at h ⊢
    simp_all [hs.num, hs.str, hs.op, hs.opeq, step_id hs, step_cst hs, step_op hs, step_names hs, step_locals hs, step_params hs, step_name hs, allT_sepEs hs.fixed, allT_sepIts hs.fixed, allT_eqEs hs.fixed, hs.fixed .comma trivial, hs.fixed .eq trivial, hs.fixed .lp trivial, hs.fixed .rp trivial, hs.fixed .lb trivial, hs.fixed .rb trivial, hs.fixed .lc trivial, hs.fixed .rc trivial, hs.fixed .dots trivial, hs.fixed .semi trivial, hs.fixed .dot trivial, hs.fixed .colon trivial, hs.fixed .dcolon trivial, hs.fixed .quest trivial, hs.fixed .kDo trivial, hs.fixed .kIf trivial, hs.fixed .kElse trivial, hs.fixed .kElseif trivial, hs.fixed .kEnd trivial, hs.fixed .kWhile trivial, hs.fixed .kRepeat trivial, hs.fixed .kUntil trivial, hs.fixed .kFor trivial, hs.fixed .kIn trivial, hs.fixed .kFunction trivial, hs.fixed .kBreak trivial, hs.fixed .kReturn trivial, hs.fixed .kLocal trivial, hs.fixed .kGoto trivial, hs.fixed th hth, -Bool.forall_bool]
theorem all_mT : ∀ (x : Syntax.Tail) (sh : Bool), AllT P (prT th sh x) → AllT Q (prT th sh (mT C x))
  | .end_ => by
    intro sh h
    simp [prT, mT, hs.fixed .kEnd trivial]
  | .else_ b => by
    have ih1 := all_mB b
    intro sh h
    simp only [prT, mT, allT_append, allT_t, allT_nl, allT_nil, allT_brk] at h ⊢
    simp_all [hs.num, hs.str, hs.op, hs.opeq, step_id hs, step_cst hs, step_op hs, step_names hs, step_locals hs, step_params hs, step_name hs, allT_sepEs hs.fixed, allT_sepIts hs.fixed, allT_eqEs hs.fixed, hs.fixed .comma trivial, hs.fixed .eq trivial, hs.fixed .lp trivial, hs.fixed .rp trivial, hs.fixed .lb trivial, hs.fixed .rb trivial, hs.fixed .lc trivial, hs.fixed .rc trivial, hs.fixed .dots trivial, hs.fixed .semi trivial, hs.fixed .dot trivial, hs.fixed .colon trivial, hs.fixed .dcolon trivial, hs.fixed .quest trivial, hs.fixed .kDo trivial, hs.fixed .kIf trivial, hs.fixed .kElse trivial, hs.fixed .kElseif trivial, hs.fixed .kEnd trivial, hs.fixed .kWhile trivial, hs.fixed .kRepeat trivial, hs.fixed .kUntil trivial, hs.fixed .kFor trivial, hs.fixed .kIn trivial, hs.fixed .kFunction trivial, hs.fixed .kBreak trivial, hs.fixed .kReturn trivial, hs.fixed .kLocal trivial, hs.fixed .kGoto trivial, hs.fixed th hth, -Bool.forall_bool]
  | .elseif_ i => by
    have ih1 := all_mI i
    intro sh h
    simp only [prT, mT, allT_append, allT_t, allT_nl, allT_nil, allT_brk] at h ⊢
    simp_all [hs.num, hs.str, hs.op, hs.opeq, step_id hs, step_cst hs, step_op hs, step_names hs, step_locals hs, step_params hs, step_name hs, allT_sepEs hs.fixed, allT_sepIts hs.fixed, allT_eqEs hs.fixed, hs.fixed .comma trivial, hs.fixed .eq trivial, hs.fixed .lp trivial, hs.fixed .rp trivial, hs.fixed .lb trivial, hs.fixed .rb trivial, hs.fixed .lc trivial, hs.fixed .rc trivial, hs.fixed .dots trivial, hs.fixed .semi trivial, hs.fixed .dot trivial, hs.fixed .colon trivial, hs.fixed .dcolon trivial, hs.fixed .quest trivial, hs.fixed .kDo trivial, hs.fixed .kIf trivial, hs.fixed .kElse trivial, hs.fixed .kElseif trivial, hs.fixed .kEnd trivial, hs.fixed .kWhile trivial, hs.fixed .kRepeat trivial, hs.fixed .kUntil trivial, hs.fixed .kFor trivial, hs.fixed .kIn trivial, hs.fixed .kFunction trivial, hs.fixed .kBreak trivial, hs.fixed .kReturn trivial, hs.fixed .kLocal trivial, hs.fixed .kGoto trivial, hs.fixed th hth, -Bool.forall_bool]
theorem all_mB : ∀ (x : Block) (nx keep : Bool) (sh : Bool), AllT P (prB th sh x) → AllT Q (prB th sh (mB C nx keep x))
  | .nil => by
    intro nx keep sh h
    simp [prB, mB]
  | .semi b => by
    have ih1 := all_mB b
    intro nx keep sh h
    simp only [prB, allT_t] at h
    rw [mB]
    split
    · simp only [prB, allT_t]
      exact ⟨hs.fixed _ trivial, ih1 _ _ _ h.2⟩
    · exact ih1 _ _ _ h.2
  | .cons s b => by
    have ih1 := all_mS s
    have ih2 := all_mB b
    intro nx keep sh h
    simp only [prB, mB, allT_append, allT_t, allT_nl, allT_nil, allT_brk] at h ⊢
    simp_all [hs.num, hs.str, hs.op, hs.opeq, step_id hs, step_cst hs, step_op hs, step_names hs, step_locals hs, step_params hs, step_name hs, allT_sepEs hs.fixed, allT_sepIts hs.fixed, allT_eqEs hs.fixed, hs.fixed .comma trivial, hs.fixed .eq trivial, hs.fixed .lp trivial, hs.fixed .rp trivial, hs.fixed .lb trivial, hs.fixed .rb trivial, hs.fixed .lc trivial, hs.fixed .rc trivial, hs.fixed .dots trivial, hs.fixed .semi trivial, hs.fixed .dot trivial, hs.fixed .colon trivial, hs.fixed .dcolon trivial, hs.fixed .quest trivial, hs.fixed .kDo trivial, hs.fixed .kIf trivial, hs.fixed .kElse trivial, hs.fixed .kElseif trivial, hs.fixed .kEnd trivial, hs.fixed .kWhile trivial, hs.fixed .kRepeat trivial, hs.fixed .kUntil trivial, hs.fixed .kFor trivial, hs.fixed .kIn trivial, hs.fixed .kFunction trivial, hs.fixed .kBreak trivial, hs.fixed .kReturn trivial, hs.fixed .kLocal trivial, hs.fixed .kGoto trivial, hs.fixed th hth, -Bool.forall_bool]
theorem all_mTs : ∀ (x : Exs) (sh : Bool), AllT P (prEs th sh x) → AllT Q (prEs th sh (mTs C x))
  | .nil => by
    intro sh h
    simp only [prEs, mTs, allT_nil]
  | .cons e es => by
    have ih1 := all_mE e
    have ih2 := all_mTs es
    intro sh h
    simp only [prEs, mTs, allT_append] at h ⊢
    exact ⟨ih1 _ _ h.1, allT_sepEs hs.fixed, ih2 _ h.2.2⟩
end

end

end Verif.Mini
