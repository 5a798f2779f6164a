import Verif.MinifyTokens
import Verif.RenameTree
/-
The tokens of a renamed tree: they are those of the tree but for the names, which come from the list of new names.
-/
set_option linter.unusedVariables false
set_option linter.unusedSimpArgs false
set_option linter.unusedSectionVars false
set_option linter.unusedTactic false
namespace Verif.Mini
open Syntax
open Resolve (sE sEs sIts sS sI sT sB sNs sPs sXs sFn takes evE evEs evIts evSrc evS evI evT evB evHead evFn evPs evFoot Ev Node State)
open Paren (Op Lang)

variable (th : K) {Q : K → Prop}

/-- All these names will do. -/
def Nms (Q : K → Prop) (ns : List Nm) : Prop := ∀ y ∈ ns, Q (.id y)

theorem Nms.drop {ns : List Nm} (h : Nms Q ns) (k : Nat) : Nms Q (ns.drop k) := fun y hy => h y (List.mem_of_mem_drop hy)
theorem Nms.tail {ns : List Nm} (h : Nms Q ns) : Nms Q ns.tail := fun y hy => h y (List.mem_of_mem_tail hy)
theorem Nms.head {ns : List Nm} (h : Nms Q ns) {x : Nm} (hx : Q (.id x)) : Q (.id (ns.headD x)) := by
  cases ns with
  | nil => exact hx
  | cons y ns => exact h y (by simp)

theorem Nms.headDrop {ns : List Nm} (h : Nms Q ns) {x : Nm} (hx : Q (.id x)) (k : Nat) : Q (.id ((ns.drop k).headD x)) := (h.drop k).head hx

theorem sepEs_s (ns : List Nm) (es : Exs) : sepEs (sEs ns es) = sepEs es := by cases es <;> simp only [sEs, sepEs]
theorem eqEs_s (ns : List Nm) (es : Exs) : eqEs (sEs ns es) = eqEs es := by cases es <;> simp only [sEs, eqEs]
theorem sepIts_s (ns : List Nm) (its : Its) : sepIts (sIts ns its) = sepIts its := by cases its <;> simp only [sIts, sepIts]

theorem ren_names : ∀ (xs : List Nm) {ns : List Nm}, Nms Q ns → AllT Q (prNames xs) → AllT Q (prNames (sNs ns xs))
  | [], _, _, _ => trivial
  | [x], _, hn, h => by
    simp only [sNs, prNames, allT_t, allT_nil, and_true] at *
    exact hn.head h
  | x :: y :: xs, _, hn, h => by
    have ih := ren_names (y :: xs) hn.tail
    simp only [sNs, prNames, allT_t] at *
    exact ⟨hn.head h.1, h.2.1, ih h.2.2⟩

theorem ren_locals : ∀ (xs : List (Nm × Option Nm)) {ns : List Nm}, Nms Q ns → AllT Q (prLocals xs) → AllT Q (prLocals (sXs ns xs))
  | [], _, _, _ => trivial
  | [x], _, hn, h => by
    simp only [sXs, prLocals, allT_t] at *
    exact ⟨hn.head h.1, h.2⟩
  | x :: y :: xs, _, hn, h => by
    have ih := ren_locals (y :: xs) hn.tail
    simp only [sXs, prLocals, allT_t, allT_append] at *
    exact ⟨hn.head h.1, h.2.1, h.2.2.1, ih h.2.2.2⟩

theorem ren_params : ∀ (ps : List Param) {ns : List Nm}, Nms Q ns → AllT Q (prParams ps) → AllT Q (prParams (sPs ns ps))
  | [], _, _, h => h
  | [none], _, hn, h => h
  | [some x], _, hn, h => by
    simp only [sPs, prParams, prPar, allT_t] at *
    exact ⟨hn.head h.1, h.2⟩
  | none :: p :: ps, ns, hn, h => by
    have ih := ren_params (p :: ps) hn
    cases p <;>
    · simp only [sPs, prParams, prPar, allT_t] at *
      exact ⟨h.1, h.2.1, ih h.2.2⟩
  | some x :: p :: ps, ns, hn, h => by
    have ih := ren_params (p :: ps) hn.tail
    cases p <;>
    · simp only [sPs, prParams, prPar, allT_t] at *
      exact ⟨hn.head h.1, h.2.1, ih h.2.2⟩

theorem ren_keys : ∀ (xs : List Nm) {ns : List Nm}, Nms Q ns → AllT Q (xs.flatMap fun x => [.t .dot, .t (.id x)]) →
    AllT Q ((sNs ns xs).flatMap fun x => [.t .dot, .t (.id x)])
  | [], _, _, _ => trivial
  | x :: xs, _, hn, h => by
    simp only [sNs, List.flatMap_cons, List.cons_append, List.nil_append, allT_t] at *
    exact ⟨h.1, hn.head h.2.1, ren_keys xs hn.tail h.2.2⟩

theorem ren_name (f : FnName) {ns : List Nm} (hn : Nms Q ns) (h : AllT Q (prName f)) : AllT Q (prName (sFn ns f)) := by
  obtain ⟨base, keys, meth⟩ := f
  simp only [prName, sFn, allT_t, allT_append] at *
  refine ⟨hn.head h.1, ren_keys keys hn.tail h.2.1, ?_⟩
  cases meth with
  | none => trivial
  | some x =>
    simp only [Option.map_some, Option.toList_some, List.flatMap_cons, List.flatMap_nil, List.append_nil, allT_t, allT_nil, and_true] at *
    exact ⟨h.2.2.1, (hn.tail.drop _).head h.2.2.2⟩

set_option maxHeartbeats 4000000 in
mutual
theorem alE : ∀ (x : Ex), ∀ (sh : Bool) (ns : List Nm), Nms Q ns → AllT Q (prE th sh x) → AllT Q (prE th sh (sE ns x))
  | .var x => by
    intro sh ns hn h
    simp only [sE, sEs, sIts, sS, sI, sT, sB, prE, prEs, prIts, prS, prI, prT, prB, allT_t, allT_append, allT_nil, allT_nl, allT_brk, sepEs_s, eqEs_s, sepIts_s, and_true, true_and] at *
    all_goals grind [Nms.headDrop, Nms.drop, Nms.tail, Nms.head, ren_names, ren_locals, ren_params, ren_name]
  | .num x => by
    intro sh ns hn h
    simp only [sE, sEs, sIts, sS, sI, sT, sB, prE, prEs, prIts, prS, prI, prT, prB, allT_t, allT_append, allT_nil, allT_nl, allT_brk, sepEs_s, eqEs_s, sepIts_s, and_true, true_and] at *
    all_goals grind [Nms.headDrop, Nms.drop, Nms.tail, Nms.head, ren_names, ren_locals, ren_params, ren_name]
  | .str x => by
    intro sh ns hn h
    simp only [sE, sEs, sIts, sS, sI, sT, sB, prE, prEs, prIts, prS, prI, prT, prB, allT_t, allT_append, allT_nil, allT_nl, allT_brk, sepEs_s, eqEs_s, sepIts_s, and_true, true_and] at *
    all_goals grind [Nms.headDrop, Nms.drop, Nms.tail, Nms.head, ren_names, ren_locals, ren_params, ren_name]
  | .cst x => by
    intro sh ns hn h
    simp only [sE, sEs, sIts, sS, sI, sT, sB, prE, prEs, prIts, prS, prI, prT, prB, allT_t, allT_append, allT_nil, allT_nl, allT_brk, sepEs_s, eqEs_s, sepIts_s, and_true, true_and] at *
    all_goals grind [Nms.headDrop, Nms.drop, Nms.tail, Nms.head, ren_names, ren_locals, ren_params, ren_name]
  | .vararg => by
    intro sh ns hn h
    simp only [sE, sEs, sIts, sS, sI, sT, sB, prE, prEs, prIts, prS, prI, prT, prB, allT_t, allT_append, allT_nil, allT_nl, allT_brk, sepEs_s, eqEs_s, sepIts_s, and_true, true_and] at *
    all_goals grind [Nms.headDrop, Nms.drop, Nms.tail, Nms.head, ren_names, ren_locals, ren_params, ren_name]
  | .func ps b => by
    have ih1 := alB b
    intro sh ns hn h
    simp only [sE, sEs, sIts, sS, sI, sT, sB, prE, prEs, prIts, prS, prI, prT, prB, allT_t, allT_append, allT_nil, allT_nl, allT_brk, sepEs_s, eqEs_s, sepIts_s, and_true, true_and] at *
    all_goals grind [Nms.headDrop, Nms.drop, Nms.tail, Nms.head, ren_names, ren_locals, ren_params, ren_name]
  | .group e => by
    have ih1 := alE e
    intro sh ns hn h
    simp only [sE, sEs, sIts, sS, sI, sT, sB, prE, prEs, prIts, prS, prI, prT, prB, allT_t, allT_append, allT_nil, allT_nl, allT_brk, sepEs_s, eqEs_s, sepIts_s, and_true, true_and] at *
    all_goals grind [Nms.headDrop, Nms.drop, Nms.tail, Nms.head, ren_names, ren_locals, ren_params, ren_name]
  | .un o e => by
    have ih1 := alE e
    intro sh ns hn h
    simp only [sE, sEs, sIts, sS, sI, sT, sB, prE, prEs, prIts, prS, prI, prT, prB, allT_t, allT_append, allT_nil, allT_nl, allT_brk, sepEs_s, eqEs_s, sepIts_s, and_true, true_and] at *
    all_goals grind [Nms.headDrop, Nms.drop, Nms.tail, Nms.head, ren_names, ren_locals, ren_params, ren_name]
  | .bin o l r => by
    have ih1 := alE l
    have ih2 := alE r
    intro sh ns hn h
    simp only [sE, sEs, sIts, sS, sI, sT, sB, prE, prEs, prIts, prS, prI, prT, prB, allT_t, allT_append, allT_nil, allT_nl, allT_brk, sepEs_s, eqEs_s, sepIts_s, and_true, true_and] at *
    all_goals grind [Nms.headDrop, Nms.drop, Nms.tail, Nms.head, ren_names, ren_locals, ren_params, ren_name]
  | .member b x => by
    have ih1 := alE b
    intro sh ns hn h
    simp only [sE, sEs, sIts, sS, sI, sT, sB, prE, prEs, prIts, prS, prI, prT, prB, allT_t, allT_append, allT_nil, allT_nl, allT_brk, sepEs_s, eqEs_s, sepIts_s, and_true, true_and] at *
    all_goals grind [Nms.headDrop, Nms.drop, Nms.tail, Nms.head, ren_names, ren_locals, ren_params, ren_name]
  | .index b k => by
    have ih1 := alE b
    have ih2 := alE k
    intro sh ns hn h
    simp only [sE, sEs, sIts, sS, sI, sT, sB, prE, prEs, prIts, prS, prI, prT, prB, allT_t, allT_append, allT_nil, allT_nl, allT_brk, sepEs_s, eqEs_s, sepIts_s, and_true, true_and] at *
    all_goals grind [Nms.headDrop, Nms.drop, Nms.tail, Nms.head, ren_names, ren_locals, ren_params, ren_name]
  | .table its => by
    have ih1 := alIts its
    intro sh ns hn h
    simp only [sE, sEs, sIts, sS, sI, sT, sB, prE, prEs, prIts, prS, prI, prT, prB, allT_t, allT_append, allT_nil, allT_nl, allT_brk, sepEs_s, eqEs_s, sepIts_s, and_true, true_and] at *
    all_goals grind [Nms.headDrop, Nms.drop, Nms.tail, Nms.head, ren_names, ren_locals, ren_params, ren_name]
  | .call b false as => by
    have ih1 := alE b
    have ih2 := alEs as
    intro sh ns hn h
    simp only [sE, sEs, sIts, sS, sI, sT, sB, prE, prEs, prIts, prS, prI, prT, prB, allT_t, allT_append, allT_nil, allT_nl, allT_brk, sepEs_s, eqEs_s, sepIts_s, and_true, true_and] at *
    all_goals grind [Nms.headDrop, Nms.drop, Nms.tail, Nms.head, ren_names, ren_locals, ren_params, ren_name]
  | .call b true as => by
    have ih1 := alE b
    have ih2 := alEs as
    intro sh ns hn h
    simp only [sE, sEs, sIts, sS, sI, sT, sB, prE, prEs, prIts, prS, prI, prT, prB, allT_t, allT_append, allT_nil, allT_nl, allT_brk, sepEs_s, eqEs_s, sepIts_s, and_true, true_and] at *
    all_goals grind [Nms.headDrop, Nms.drop, Nms.tail, Nms.head, ren_names, ren_locals, ren_params, ren_name]
  | .method b x false as => by
    have ih1 := alE b
    have ih2 := alEs as
    intro sh ns hn h
    simp only [sE, sEs, sIts, sS, sI, sT, sB, prE, prEs, prIts, prS, prI, prT, prB, allT_t, allT_append, allT_nil, allT_nl, allT_brk, sepEs_s, eqEs_s, sepIts_s, and_true, true_and] at *
    all_goals grind [Nms.headDrop, Nms.drop, Nms.tail, Nms.head, ren_names, ren_locals, ren_params, ren_name]
  | .method b x true as => by
    have ih1 := alE b
    have ih2 := alEs as
    intro sh ns hn h
    simp only [sE, sEs, sIts, sS, sI, sT, sB, prE, prEs, prIts, prS, prI, prT, prB, allT_t, allT_append, allT_nil, allT_nl, allT_brk, sepEs_s, eqEs_s, sepIts_s, and_true, true_and] at *
    all_goals grind [Nms.headDrop, Nms.drop, Nms.tail, Nms.head, ren_names, ren_locals, ren_params, ren_name]
theorem alEs : ∀ (x : Exs), ∀ (sh : Bool) (ns : List Nm), Nms Q ns → AllT Q (prEs th sh x) → AllT Q (prEs th sh (sEs ns x))
  | .nil => by
    intro sh ns hn h
    simp only [sE, sEs, sIts, sS, sI, sT, sB, prE, prEs, prIts, prS, prI, prT, prB, allT_t, allT_append, allT_nil, allT_nl, allT_brk, sepEs_s, eqEs_s, sepIts_s, and_true, true_and] at *
    all_goals grind [Nms.headDrop, Nms.drop, Nms.tail, Nms.head, ren_names, ren_locals, ren_params, ren_name]
  | .cons e es => by
    have ih1 := alE e
    have ih2 := alEs es
    intro sh ns hn h
    simp only [sE, sEs, sIts, sS, sI, sT, sB, prE, prEs, prIts, prS, prI, prT, prB, allT_t, allT_append, allT_nil, allT_nl, allT_brk, sepEs_s, eqEs_s, sepIts_s, and_true, true_and] at *
    all_goals grind [Nms.headDrop, Nms.drop, Nms.tail, Nms.head, ren_names, ren_locals, ren_params, ren_name]
theorem alIts : ∀ (x : Its), ∀ (sh : Bool) (ns : List Nm), Nms Q ns → AllT Q (prIts th sh x) → AllT Q (prIts th sh (sIts ns x))
  | .nil => by
    intro sh ns hn h
    simp only [sE, sEs, sIts, sS, sI, sT, sB, prE, prEs, prIts, prS, prI, prT, prB, allT_t, allT_append, allT_nil, allT_nl, allT_brk, sepEs_s, eqEs_s, sepIts_s, and_true, true_and] at *
    all_goals grind [Nms.headDrop, Nms.drop, Nms.tail, Nms.head, ren_names, ren_locals, ren_params, ren_name]
  | .pos e its => by
    have ih1 := alE e
    have ih2 := alIts its
    intro sh ns hn h
    simp only [sE, sEs, sIts, sS, sI, sT, sB, prE, prEs, prIts, prS, prI, prT, prB, allT_t, allT_append, allT_nil, allT_nl, allT_brk, sepEs_s, eqEs_s, sepIts_s, and_true, true_and] at *
    all_goals grind [Nms.headDrop, Nms.drop, Nms.tail, Nms.head, ren_names, ren_locals, ren_params, ren_name]
  | .named x e its => by
    have ih1 := alE e
    have ih2 := alIts its
    intro sh ns hn h
    simp only [sE, sEs, sIts, sS, sI, sT, sB, prE, prEs, prIts, prS, prI, prT, prB, allT_t, allT_append, allT_nil, allT_nl, allT_brk, sepEs_s, eqEs_s, sepIts_s, and_true, true_and] at *
    all_goals grind [Nms.headDrop, Nms.drop, Nms.tail, Nms.head, ren_names, ren_locals, ren_params, ren_name]
  | .keyed k e its => by
    have ih1 := alE k
    have ih2 := alE e
    have ih3 := alIts its
    intro sh ns hn h
    simp only [sE, sEs, sIts, sS, sI, sT, sB, prE, prEs, prIts, prS, prI, prT, prB, allT_t, allT_append, allT_nil, allT_nl, allT_brk, sepEs_s, eqEs_s, sepIts_s, and_true, true_and] at *
    all_goals grind [Nms.headDrop, Nms.drop, Nms.tail, Nms.head, ren_names, ren_locals, ren_params, ren_name]
theorem alS : ∀ (x : St), ∀ (sh : Bool) (ns : List Nm), Nms Q ns → AllT Q (prS th sh x) → AllT Q (prS th sh (sS ns x))
  | .do_ b => by
    have ih1 := alB b
    intro sh ns hn h
    simp only [sE, sEs, sIts, sS, sI, sT, sB, prE, prEs, prIts, prS, prI, prT, prB, allT_t, allT_append, allT_nil, allT_nl, allT_brk, sepEs_s, eqEs_s, sepIts_s, and_true, true_and] at *
    all_goals grind [Nms.headDrop, Nms.drop, Nms.tail, Nms.head, ren_names, ren_locals, ren_params, ren_name]
  | .if_ i => by
    have ih1 := alI i
    intro sh ns hn h
    simp only [sE, sEs, sIts, sS, sI, sT, sB, prE, prEs, prIts, prS, prI, prT, prB, allT_t, allT_append, allT_nil, allT_nl, allT_brk, sepEs_s, eqEs_s, sepIts_s, and_true, true_and] at *
    all_goals grind [Nms.headDrop, Nms.drop, Nms.tail, Nms.head, ren_names, ren_locals, ren_params, ren_name]
  | .while_ e b => by
    have ih1 := alE e
    have ih2 := alB b
    intro sh ns hn h
    simp only [sE, sEs, sIts, sS, sI, sT, sB, prE, prEs, prIts, prS, prI, prT, prB, allT_t, allT_append, allT_nil, allT_nl, allT_brk, sepEs_s, eqEs_s, sepIts_s, and_true, true_and] at *
    all_goals grind [Nms.headDrop, Nms.drop, Nms.tail, Nms.head, ren_names, ren_locals, ren_params, ren_name]
  | .whileShort e b d => by
    have ih1 := alE e
    have ih2 := alB b
    intro sh ns hn h
    simp only [sE, sEs, sIts, sS, sI, sT, sB, prE, prEs, prIts, prS, prI, prT, prB, allT_t, allT_append, allT_nil, allT_nl, allT_brk, sepEs_s, eqEs_s, sepIts_s, and_true, true_and] at *
    all_goals grind [Nms.headDrop, Nms.drop, Nms.tail, Nms.head, ren_names, ren_locals, ren_params, ren_name]
  | .repeat_ b e => by
    have ih1 := alB b
    have ih2 := alE e
    intro sh ns hn h
    simp only [sE, sEs, sIts, sS, sI, sT, sB, prE, prEs, prIts, prS, prI, prT, prB, allT_t, allT_append, allT_nil, allT_nl, allT_brk, sepEs_s, eqEs_s, sepIts_s, and_true, true_and] at *
    all_goals grind [Nms.headDrop, Nms.drop, Nms.tail, Nms.head, ren_names, ren_locals, ren_params, ren_name]
  | .fornum x a b s d => by
    have ih1 := alE a
    have ih2 := alE b
    have ih3 := alEs s
    have ih4 := alB d
    intro sh ns hn h
    simp only [sE, sEs, sIts, sS, sI, sT, sB, prE, prEs, prIts, prS, prI, prT, prB, allT_t, allT_append, allT_nil, allT_nl, allT_brk, sepEs_s, eqEs_s, sepIts_s, and_true, true_and] at *
    all_goals grind [Nms.headDrop, Nms.drop, Nms.tail, Nms.head, ren_names, ren_locals, ren_params, ren_name]
  | .forin xs es d => by
    have ih1 := alEs es
    have ih2 := alB d
    intro sh ns hn h
    simp only [sE, sEs, sIts, sS, sI, sT, sB, prE, prEs, prIts, prS, prI, prT, prB, allT_t, allT_append, allT_nil, allT_nl, allT_brk, sepEs_s, eqEs_s, sepIts_s, and_true, true_and] at *
    all_goals grind [Nms.headDrop, Nms.drop, Nms.tail, Nms.head, ren_names, ren_locals, ren_params, ren_name]
  | .break_ => by
    intro sh ns hn h
    simp only [sE, sEs, sIts, sS, sI, sT, sB, prE, prEs, prIts, prS, prI, prT, prB, allT_t, allT_append, allT_nil, allT_nl, allT_brk, sepEs_s, eqEs_s, sepIts_s, and_true, true_and] at *
    all_goals grind [Nms.headDrop, Nms.drop, Nms.tail, Nms.head, ren_names, ren_locals, ren_params, ren_name]
  | .return_ es => by
    have ih1 := alEs es
    intro sh ns hn h
    simp only [sE, sEs, sIts, sS, sI, sT, sB, prE, prEs, prIts, prS, prI, prT, prB, allT_t, allT_append, allT_nil, allT_nl, allT_brk, sepEs_s, eqEs_s, sepIts_s, and_true, true_and] at *
    all_goals grind [Nms.headDrop, Nms.drop, Nms.tail, Nms.head, ren_names, ren_locals, ren_params, ren_name]
  | .local_ xs es => by
    have ih1 := alEs es
    intro sh ns hn h
    simp only [sE, sEs, sIts, sS, sI, sT, sB, prE, prEs, prIts, prS, prI, prT, prB, allT_t, allT_append, allT_nil, allT_nl, allT_brk, sepEs_s, eqEs_s, sepIts_s, and_true, true_and] at *
    all_goals grind [Nms.headDrop, Nms.drop, Nms.tail, Nms.head, ren_names, ren_locals, ren_params, ren_name]
  | .localfn x ps b => by
    have ih1 := alB b
    intro sh ns hn h
    simp only [sE, sEs, sIts, sS, sI, sT, sB, prE, prEs, prIts, prS, prI, prT, prB, allT_t, allT_append, allT_nil, allT_nl, allT_brk, sepEs_s, eqEs_s, sepIts_s, and_true, true_and] at *
    all_goals grind [Nms.headDrop, Nms.drop, Nms.tail, Nms.head, ren_names, ren_locals, ren_params, ren_name]
  | .goto_ x => by
    intro sh ns hn h
    simp only [sE, sEs, sIts, sS, sI, sT, sB, prE, prEs, prIts, prS, prI, prT, prB, allT_t, allT_append, allT_nil, allT_nl, allT_brk, sepEs_s, eqEs_s, sepIts_s, and_true, true_and] at *
    all_goals grind [Nms.headDrop, Nms.drop, Nms.tail, Nms.head, ren_names, ren_locals, ren_params, ren_name]
  | .label x => by
    intro sh ns hn h
    simp only [sE, sEs, sIts, sS, sI, sT, sB, prE, prEs, prIts, prS, prI, prT, prB, allT_t, allT_append, allT_nil, allT_nl, allT_brk, sepEs_s, eqEs_s, sepIts_s, and_true, true_and] at *
    all_goals grind [Nms.headDrop, Nms.drop, Nms.tail, Nms.head, ren_names, ren_locals, ren_params, ren_name]
  | .func f ps b => by
    have ih1 := alB b
    intro sh ns hn h
    simp only [sE, sEs, sIts, sS, sI, sT, sB, prE, prEs, prIts, prS, prI, prT, prB, allT_t, allT_append, allT_nil, allT_nl, allT_brk, sepEs_s, eqEs_s, sepIts_s, and_true, true_and] at *
    all_goals grind [Nms.headDrop, Nms.drop, Nms.tail, Nms.head, ren_names, ren_locals, ren_params, ren_name]
  | .assign ts es => by
    have ih1 := alEs ts
    have ih2 := alEs es
    intro sh ns hn h
    simp only [sE, sEs, sIts, sS, sI, sT, sB, prE, prEs, prIts, prS, prI, prT, prB, allT_t, allT_append, allT_nil, allT_nl, allT_brk, sepEs_s, eqEs_s, sepIts_s, and_true, true_and] at *
    all_goals grind [Nms.headDrop, Nms.drop, Nms.tail, Nms.head, ren_names, ren_locals, ren_params, ren_name]
  | .opassign o t e => by
    have ih1 := alE t
    have ih2 := alE e
    intro sh ns hn h
    simp only [sE, sEs, sIts, sS, sI, sT, sB, prE, prEs, prIts, prS, prI, prT, prB, allT_t, allT_append, allT_nil, allT_nl, allT_brk, sepEs_s, eqEs_s, sepIts_s, and_true, true_and] at *
    all_goals grind [Nms.headDrop, Nms.drop, Nms.tail, Nms.head, ren_names, ren_locals, ren_params, ren_name]
  | .call e => by
    have ih1 := alE e
    intro sh ns hn h
    simp only [sE, sEs, sIts, sS, sI, sT, sB, prE, prEs, prIts, prS, prI, prT, prB, allT_t, allT_append, allT_nil, allT_nl, allT_brk, sepEs_s, eqEs_s, sepIts_s, and_true, true_and] at *
    all_goals grind [Nms.headDrop, Nms.drop, Nms.tail, Nms.head, ren_names, ren_locals, ren_params, ren_name]
  | .print es => by
    have ih1 := alEs es
    intro sh ns hn h
    simp only [sE, sEs, sIts, sS, sI, sT, sB, prE, prEs, prIts, prS, prI, prT, prB, allT_t, allT_append, allT_nil, allT_nl, allT_brk, sepEs_s, eqEs_s, sepIts_s, and_true, true_and] at *
    all_goals grind [Nms.headDrop, Nms.drop, Nms.tail, Nms.head, ren_names, ren_locals, ren_params, ren_name]
theorem alI : ∀ (x : If), ∀ (sh : Bool) (ns : List Nm), Nms Q ns → AllT Q (prI th sh x) → AllT Q (prI th sh (sI ns x))
  | .long e b t => by
    have ih1 := alE e
    have ih2 := alB b
    have ih3 := alT t
    intro sh ns hn h
    simp only [sE, sEs, sIts, sS, sI, sT, sB, prE, prEs, prIts, prS, prI, prT, prB, allT_t, allT_append, allT_nil, allT_nl, allT_brk, sepEs_s, eqEs_s, sepIts_s, and_true, true_and] at *
    all_goals grind [Nms.headDrop, Nms.drop, Nms.tail, Nms.head, ren_names, ren_locals, ren_params, ren_name]
  | .short e b d => by
    have ih1 := alE e
    have ih2 := alB b
    intro sh ns hn h
    simp only [sE, sEs, sIts, sS, sI, sT, sB, prE, prEs, prIts, prS, prI, prT, prB, allT_t, allT_append, allT_nil, allT_nl, allT_brk, sepEs_s, eqEs_s, sepIts_s, and_true, true_and] at *
    all_goals grind [Nms.headDrop, Nms.drop, Nms.tail, Nms.head, ren_names, ren_locals, ren_params, ren_name]
  | .shortElse e b b' d => by
    have ih1 := alE e
    have ih2 := alB b
    have ih3 := alB b'
    intro sh ns hn h
    simp only [sE, sEs, sIts, sS, sI, sT, sB, prE, prEs, prIts, prS, prI, prT, prB, allT_t, allT_append, allT_nil, allT_nl, allT_brk, sepEs_s, eqEs_s, sepIts_s, and_true, true_and] at *
    all_goals grind [Nms.headDrop, Nms.drop, Nms.tail, Nms.head, ren_names, ren_locals, ren_params, ren_name]
theorem alT : ∀ (x : Syntax.Tail), ∀ (sh : Bool) (ns : List Nm), Nms Q ns → AllT Q (prT th sh x) → AllT Q (prT th sh (sT ns x))
  | .end_ => by
    intro sh ns hn h
    simp only [sE, sEs, sIts, sS, sI, sT, sB, prE, prEs, prIts, prS, prI, prT, prB, allT_t, allT_append, allT_nil, allT_nl, allT_brk, sepEs_s, eqEs_s, sepIts_s, and_true, true_and] at *
    all_goals grind [Nms.headDrop, Nms.drop, Nms.tail, Nms.head, ren_names, ren_locals, ren_params, ren_name]
  | .else_ b => by
    have ih1 := alB b
    intro sh ns hn h
    simp only [sE, sEs, sIts, sS, sI, sT, sB, prE, prEs, prIts, prS, prI, prT, prB, allT_t, allT_append, allT_nil, allT_nl, allT_brk, sepEs_s, eqEs_s, sepIts_s, and_true, true_and] at *
    all_goals grind [Nms.headDrop, Nms.drop, Nms.tail, Nms.head, ren_names, ren_locals, ren_params, ren_name]
  | .elseif_ i => by
    have ih1 := alI i
    intro sh ns hn h
    simp only [sE, sEs, sIts, sS, sI, sT, sB, prE, prEs, prIts, prS, prI, prT, prB, allT_t, allT_append, allT_nil, allT_nl, allT_brk, sepEs_s, eqEs_s, sepIts_s, and_true, true_and] at *
    all_goals grind [Nms.headDrop, Nms.drop, Nms.tail, Nms.head, ren_names, ren_locals, ren_params, ren_name]
theorem alB : ∀ (x : Block), ∀ (sh : Bool) (ns : List Nm), Nms Q ns → AllT Q (prB th sh x) → AllT Q (prB th sh (sB ns x))
  | .nil => by
    intro sh ns hn h
    simp only [sE, sEs, sIts, sS, sI, sT, sB, prE, prEs, prIts, prS, prI, prT, prB, allT_t, allT_append, allT_nil, allT_nl, allT_brk, sepEs_s, eqEs_s, sepIts_s, and_true, true_and] at *
    all_goals grind [Nms.headDrop, Nms.drop, Nms.tail, Nms.head, ren_names, ren_locals, ren_params, ren_name]
  | .semi b => by
    have ih1 := alB b
    intro sh ns hn h
    simp only [sE, sEs, sIts, sS, sI, sT, sB, prE, prEs, prIts, prS, prI, prT, prB, allT_t, allT_append, allT_nil, allT_nl, allT_brk, sepEs_s, eqEs_s, sepIts_s, and_true, true_and] at *
    all_goals grind [Nms.headDrop, Nms.drop, Nms.tail, Nms.head, ren_names, ren_locals, ren_params, ren_name]
  | .cons s b => by
    have ih1 := alS s
    have ih2 := alB b
    intro sh ns hn h
    simp only [sE, sEs, sIts, sS, sI, sT, sB, prE, prEs, prIts, prS, prI, prT, prB, allT_t, allT_append, allT_nil, allT_nl, allT_brk, sepEs_s, eqEs_s, sepIts_s, and_true, true_and] at *
    all_goals grind [Nms.headDrop, Nms.drop, Nms.tail, Nms.head, ren_names, ren_locals, ren_params, ren_name]
end

/-! ### The names that are met -/

/-- The name of an event will do. -/
def EvOk (Q : K → Prop) : Ev → Prop
  | .tgt x | .use x | .member x _ | .label x | .goto_ x => Q (.id x)
  | _ => True

/-- All names of a list of events will do. -/
def EvsOk (Q : K → Prop) (es : List Ev) : Prop := ∀ e ∈ es, EvOk Q e

@[simp] theorem evs_nil : EvsOk Q [] := by simp [EvsOk]
@[simp] theorem evs_cons {e : Ev} {es : List Ev} : EvsOk Q (e :: es) ↔ EvOk Q e ∧ EvsOk Q es := by simp [EvsOk]
@[simp] theorem evs_append {a b : List Ev} : EvsOk Q (a ++ b) ↔ EvsOk Q a ∧ EvsOk Q b := by
  simp only [EvsOk, List.mem_append, or_imp, forall_and]

theorem evs_names : ∀ {xs : List Nm}, AllT Q (prNames xs) → EvsOk Q (xs.map .tgt)
  | [], _ => evs_nil
  | [x], h => by simpa [prNames, EvOk] using h
  | x :: y :: xs, h => by
    have ih := evs_names (xs := y :: xs)
    simp only [prNames, allT_t, List.map_cons, evs_cons] at *
    exact ⟨h.1, ih h.2.2⟩

theorem evs_locals : ∀ {xs : List (Nm × Option Nm)}, AllT Q (prLocals xs) → EvsOk Q (xs.map (.tgt ·.1))
  | [], _ => evs_nil
  | [x], h => by
    simp only [prLocals, allT_t, List.map_cons, List.map_nil, evs_cons, evs_nil, and_true] at *
    exact h.1
  | x :: y :: xs, h => by
    have ih := evs_locals (xs := y :: xs)
    simp only [prLocals, allT_t, allT_append, List.map_cons, evs_cons] at *
    exact ⟨h.1, ih h.2.2.2⟩

theorem evs_params : ∀ {ps : List Param}, AllT Q (prParams ps) → EvsOk Q (evPs ps)
  | [], _ => evs_nil
  | [none], _ => evs_nil
  | [some x], h => by
    simp only [prParams, prPar, allT_t, evPs, List.filterMap_cons, Option.map_some, List.filterMap_nil, evs_cons, evs_nil, and_true] at *
    exact h.1
  | none :: p :: ps, h => by
    have ih := evs_params (ps := p :: ps)
    simp only [prParams, prPar, allT_t] at h
    exact ih h.2.2
  | some x :: p :: ps, h => by
    have ih := evs_params (ps := p :: ps)
    simp only [prParams, prPar, allT_t] at h
    have e : evPs (some x :: p :: ps) = .tgt x :: evPs (p :: ps) := rfl
    rw [e, evs_cons]
    exact ⟨h.1, ih h.2.2⟩

theorem evs_head {f : Bool} {ps : List Param} (h : AllT Q (prParams ps)) : EvsOk Q (evHead f ps) := by
  simp only [evHead, evs_cons, evs_append]
  exact ⟨trivial, evs_params h, trivial, trivial, evs_nil⟩

theorem evs_foot : EvsOk Q evFoot := by
  simp only [evFoot, evs_cons]
  exact ⟨trivial, trivial, evs_nil⟩

theorem keys_mem : ∀ {xs : List Nm} {k : K} {x : Nm}, AllT Q (xs.flatMap fun x => [.t k, .t (.id x)]) → x ∈ xs → Q (.id x)
  | y :: xs, k, x, h, hx => by
    simp only [List.flatMap_cons, List.cons_append, List.nil_append, allT_t] at h
    rcases List.mem_cons.1 hx with rfl | hx
    · exact h.2.1
    · exact keys_mem h.2.2 hx

theorem evs_fn {f : FnName} (h : AllT Q (prName f)) : EvsOk Q (evFn f) := by
  simp only [prName, allT_t, allT_append] at h
  simp only [evFn, evs_cons]
  refine ⟨h.1, ?_⟩
  intro e he
  obtain ⟨p, hp, rfl⟩ := List.mem_map.1 he
  have hx : p.1 ∈ f.keys ++ f.meth.toList := by
    have := List.mem_map_of_mem (f := Prod.fst) hp
    rwa [List.zipIdx_map_fst] at this
  show Q (.id p.1)
  rcases List.mem_append.1 hx with hx | hx
  · exact keys_mem h.2.1 hx
  · exact keys_mem h.2.2 hx

set_option maxHeartbeats 4000000 in
mutual
theorem enE : ∀ (x : Ex), ∀ (sh : Bool), AllT Q (prE th sh x) → EvsOk Q (evE x)
  | .var x => by
    intro sh h
    simp only [evE, evEs, evIts, evS, evI, evT, evB, prE, prEs, prIts, prS, prI, prT, prB, allT_t, allT_append, allT_nil, allT_nl, allT_brk, evs_nil, evs_cons, evs_append, EvOk, and_true, true_and] at *
    all_goals grind [evs_names, evs_locals, evs_params, evs_head, evs_foot, evs_fn]
  | .num x => by
    intro sh h
    simp only [evE, evEs, evIts, evS, evI, evT, evB, prE, prEs, prIts, prS, prI, prT, prB, allT_t, allT_append, allT_nil, allT_nl, allT_brk, evs_nil, evs_cons, evs_append, EvOk, and_true, true_and] at *
    all_goals grind [evs_names, evs_locals, evs_params, evs_head, evs_foot, evs_fn]
  | .str x => by
    intro sh h
    simp only [evE, evEs, evIts, evS, evI, evT, evB, prE, prEs, prIts, prS, prI, prT, prB, allT_t, allT_append, allT_nil, allT_nl, allT_brk, evs_nil, evs_cons, evs_append, EvOk, and_true, true_and] at *
    all_goals grind [evs_names, evs_locals, evs_params, evs_head, evs_foot, evs_fn]
  | .cst x => by
    intro sh h
    simp only [evE, evEs, evIts, evS, evI, evT, evB, prE, prEs, prIts, prS, prI, prT, prB, allT_t, allT_append, allT_nil, allT_nl, allT_brk, evs_nil, evs_cons, evs_append, EvOk, and_true, true_and] at *
    all_goals grind [evs_names, evs_locals, evs_params, evs_head, evs_foot, evs_fn]
  | .vararg => by
    intro sh h
    simp only [evE, evEs, evIts, evS, evI, evT, evB, prE, prEs, prIts, prS, prI, prT, prB, allT_t, allT_append, allT_nil, allT_nl, allT_brk, evs_nil, evs_cons, evs_append, EvOk, and_true, true_and] at *
    all_goals grind [evs_names, evs_locals, evs_params, evs_head, evs_foot, evs_fn]
  | .func ps b => by
    have ih1 := enB b
    intro sh h
    simp only [evE, evEs, evIts, evS, evI, evT, evB, prE, prEs, prIts, prS, prI, prT, prB, allT_t, allT_append, allT_nil, allT_nl, allT_brk, evs_nil, evs_cons, evs_append, EvOk, and_true, true_and] at *
    all_goals grind [evs_names, evs_locals, evs_params, evs_head, evs_foot, evs_fn]
  | .group e => by
    have ih1 := enE e
    intro sh h
    simp only [evE, evEs, evIts, evS, evI, evT, evB, prE, prEs, prIts, prS, prI, prT, prB, allT_t, allT_append, allT_nil, allT_nl, allT_brk, evs_nil, evs_cons, evs_append, EvOk, and_true, true_and] at *
    all_goals grind [evs_names, evs_locals, evs_params, evs_head, evs_foot, evs_fn]
  | .un o e => by
    have ih1 := enE e
    intro sh h
    simp only [evE, evEs, evIts, evS, evI, evT, evB, prE, prEs, prIts, prS, prI, prT, prB, allT_t, allT_append, allT_nil, allT_nl, allT_brk, evs_nil, evs_cons, evs_append, EvOk, and_true, true_and] at *
    all_goals grind [evs_names, evs_locals, evs_params, evs_head, evs_foot, evs_fn]
  | .bin o l r => by
    have ih1 := enE l
    have ih2 := enE r
    intro sh h
    simp only [evE, evEs, evIts, evS, evI, evT, evB, prE, prEs, prIts, prS, prI, prT, prB, allT_t, allT_append, allT_nil, allT_nl, allT_brk, evs_nil, evs_cons, evs_append, EvOk, and_true, true_and] at *
    all_goals grind [evs_names, evs_locals, evs_params, evs_head, evs_foot, evs_fn]
  | .member b x => by
    have ih1 := enE b
    intro sh h
    simp only [evE, evEs, evIts, evS, evI, evT, evB, prE, prEs, prIts, prS, prI, prT, prB, allT_t, allT_append, allT_nil, allT_nl, allT_brk, evs_nil, evs_cons, evs_append, EvOk, and_true, true_and] at *
    all_goals grind [evs_names, evs_locals, evs_params, evs_head, evs_foot, evs_fn]
  | .index b k => by
    have ih1 := enE b
    have ih2 := enE k
    intro sh h
    simp only [evE, evEs, evIts, evS, evI, evT, evB, prE, prEs, prIts, prS, prI, prT, prB, allT_t, allT_append, allT_nil, allT_nl, allT_brk, evs_nil, evs_cons, evs_append, EvOk, and_true, true_and] at *
    all_goals grind [evs_names, evs_locals, evs_params, evs_head, evs_foot, evs_fn]
  | .table its => by
    have ih1 := enIts its
    intro sh h
    simp only [evE, evEs, evIts, evS, evI, evT, evB, prE, prEs, prIts, prS, prI, prT, prB, allT_t, allT_append, allT_nil, allT_nl, allT_brk, evs_nil, evs_cons, evs_append, EvOk, and_true, true_and] at *
    all_goals grind [evs_names, evs_locals, evs_params, evs_head, evs_foot, evs_fn]
  | .call b false as => by
    have ih1 := enE b
    have ih2 := enEs as
    intro sh h
    simp only [evE, evEs, evIts, evS, evI, evT, evB, prE, prEs, prIts, prS, prI, prT, prB, allT_t, allT_append, allT_nil, allT_nl, allT_brk, evs_nil, evs_cons, evs_append, EvOk, and_true, true_and] at *
    all_goals grind [evs_names, evs_locals, evs_params, evs_head, evs_foot, evs_fn]
  | .call b true as => by
    have ih1 := enE b
    have ih2 := enEs as
    intro sh h
    simp only [evE, evEs, evIts, evS, evI, evT, evB, prE, prEs, prIts, prS, prI, prT, prB, allT_t, allT_append, allT_nil, allT_nl, allT_brk, evs_nil, evs_cons, evs_append, EvOk, and_true, true_and] at *
    all_goals grind [evs_names, evs_locals, evs_params, evs_head, evs_foot, evs_fn]
  | .method b x false as => by
    have ih1 := enE b
    have ih2 := enEs as
    intro sh h
    simp only [evE, evEs, evIts, evS, evI, evT, evB, prE, prEs, prIts, prS, prI, prT, prB, allT_t, allT_append, allT_nil, allT_nl, allT_brk, evs_nil, evs_cons, evs_append, EvOk, and_true, true_and] at *
    all_goals grind [evs_names, evs_locals, evs_params, evs_head, evs_foot, evs_fn]
  | .method b x true as => by
    have ih1 := enE b
    have ih2 := enEs as
    intro sh h
    simp only [evE, evEs, evIts, evS, evI, evT, evB, prE, prEs, prIts, prS, prI, prT, prB, allT_t, allT_append, allT_nil, allT_nl, allT_brk, evs_nil, evs_cons, evs_append, EvOk, and_true, true_and] at *
    all_goals grind [evs_names, evs_locals, evs_params, evs_head, evs_foot, evs_fn]
theorem enEs : ∀ (x : Exs), ∀ (sh : Bool), AllT Q (prEs th sh x) → EvsOk Q (evEs x)
  | .nil => by
    intro sh h
    simp only [evE, evEs, evIts, evS, evI, evT, evB, prE, prEs, prIts, prS, prI, prT, prB, allT_t, allT_append, allT_nil, allT_nl, allT_brk, evs_nil, evs_cons, evs_append, EvOk, and_true, true_and] at *
    all_goals grind [evs_names, evs_locals, evs_params, evs_head, evs_foot, evs_fn]
  | .cons e es => by
    have ih1 := enE e
    have ih2 := enEs es
    intro sh h
    simp only [evE, evEs, evIts, evS, evI, evT, evB, prE, prEs, prIts, prS, prI, prT, prB, allT_t, allT_append, allT_nil, allT_nl, allT_brk, evs_nil, evs_cons, evs_append, EvOk, and_true, true_and] at *
    all_goals grind [evs_names, evs_locals, evs_params, evs_head, evs_foot, evs_fn]
theorem enSrc : ∀ (x : Exs) (fs : List Bool) (sh : Bool), AllT Q (prEs th sh x) → EvsOk Q (evSrc fs x)
  | .nil, _, _, _ => by simp only [evSrc, evs_nil]
  | .cons e es, fs, sh, h => by
    have ih := enSrc es fs.tail sh
    have ih1 := enE e sh
    cases e with
    | table its =>
      have ih2 := enIts its sh (fs.headD false)
      simp only [evSrc, evE, evEs, evIts, evS, evI, evT, evB, prE, prEs, prIts, prS, prI, prT, prB, allT_t, allT_append, allT_nil, allT_nl, allT_brk, evs_nil, evs_cons, evs_append, EvOk, and_true, true_and] at *
      grind
    | _ =>
      simp only [evSrc, prEs, allT_append, evs_append] at *
      grind
theorem enIts : ∀ (x : Its), ∀ (sh f : Bool), AllT Q (prIts th sh x) → EvsOk Q (evIts f x)
  | .nil => by
    intro sh f h
    simp only [evE, evEs, evIts, evS, evI, evT, evB, prE, prEs, prIts, prS, prI, prT, prB, allT_t, allT_append, allT_nil, allT_nl, allT_brk, evs_nil, evs_cons, evs_append, EvOk, and_true, true_and] at *
    all_goals grind [evs_names, evs_locals, evs_params, evs_head, evs_foot, evs_fn]
  | .pos e its => by
    have ih1 := enE e
    have ih2 := enIts its
    intro sh f h
    simp only [evE, evEs, evIts, evS, evI, evT, evB, prE, prEs, prIts, prS, prI, prT, prB, allT_t, allT_append, allT_nil, allT_nl, allT_brk, evs_nil, evs_cons, evs_append, EvOk, and_true, true_and] at *
    all_goals grind [evs_names, evs_locals, evs_params, evs_head, evs_foot, evs_fn]
  | .named x e its => by
    have ih1 := enE e
    have ih2 := enIts its
    intro sh f h
    simp only [evE, evEs, evIts, evS, evI, evT, evB, prE, prEs, prIts, prS, prI, prT, prB, allT_t, allT_append, allT_nil, allT_nl, allT_brk, evs_nil, evs_cons, evs_append, EvOk, and_true, true_and] at *
    all_goals grind [evs_names, evs_locals, evs_params, evs_head, evs_foot, evs_fn]
  | .keyed k e its => by
    have ih1 := enE k
    have ih2 := enE e
    have ih3 := enIts its
    intro sh f h
    simp only [evE, evEs, evIts, evS, evI, evT, evB, prE, prEs, prIts, prS, prI, prT, prB, allT_t, allT_append, allT_nil, allT_nl, allT_brk, evs_nil, evs_cons, evs_append, EvOk, and_true, true_and] at *
    all_goals grind [evs_names, evs_locals, evs_params, evs_head, evs_foot, evs_fn]
theorem enS : ∀ (x : St), ∀ (sh : Bool), AllT Q (prS th sh x) → EvsOk Q (evS x)
  | .do_ b => by
    have ih1 := enB b
    intro sh h
    simp only [evE, evEs, evIts, evS, evI, evT, evB, prE, prEs, prIts, prS, prI, prT, prB, allT_t, allT_append, allT_nil, allT_nl, allT_brk, evs_nil, evs_cons, evs_append, EvOk, and_true, true_and] at *
    all_goals grind [evs_names, evs_locals, evs_params, evs_head, evs_foot, evs_fn]
  | .if_ i => by
    have ih1 := enI i
    intro sh h
    simp only [evE, evEs, evIts, evS, evI, evT, evB, prE, prEs, prIts, prS, prI, prT, prB, allT_t, allT_append, allT_nil, allT_nl, allT_brk, evs_nil, evs_cons, evs_append, EvOk, and_true, true_and] at *
    all_goals grind [evs_names, evs_locals, evs_params, evs_head, evs_foot, evs_fn]
  | .while_ e b => by
    have ih1 := enE e
    have ih2 := enB b
    intro sh h
    simp only [evE, evEs, evIts, evS, evI, evT, evB, prE, prEs, prIts, prS, prI, prT, prB, allT_t, allT_append, allT_nil, allT_nl, allT_brk, evs_nil, evs_cons, evs_append, EvOk, and_true, true_and] at *
    all_goals grind [evs_names, evs_locals, evs_params, evs_head, evs_foot, evs_fn]
  | .whileShort e b d => by
    have ih1 := enE e
    have ih2 := enB b
    intro sh h
    simp only [evE, evEs, evIts, evS, evI, evT, evB, prE, prEs, prIts, prS, prI, prT, prB, allT_t, allT_append, allT_nil, allT_nl, allT_brk, evs_nil, evs_cons, evs_append, EvOk, and_true, true_and] at *
    all_goals grind [evs_names, evs_locals, evs_params, evs_head, evs_foot, evs_fn]
  | .repeat_ b e => by
    have ih1 := enB b
    have ih2 := enE e
    intro sh h
    simp only [evE, evEs, evIts, evS, evI, evT, evB, prE, prEs, prIts, prS, prI, prT, prB, allT_t, allT_append, allT_nil, allT_nl, allT_brk, evs_nil, evs_cons, evs_append, EvOk, and_true, true_and] at *
    all_goals grind [evs_names, evs_locals, evs_params, evs_head, evs_foot, evs_fn]
  | .fornum x a b s d => by
    have ih1 := enE a
    have ih2 := enE b
    have ih3 := enEs s
    have ih4 := enB d
    intro sh h
    simp only [evE, evEs, evIts, evS, evI, evT, evB, prE, prEs, prIts, prS, prI, prT, prB, allT_t, allT_append, allT_nil, allT_nl, allT_brk, evs_nil, evs_cons, evs_append, EvOk, and_true, true_and] at *
    all_goals grind [evs_names, evs_locals, evs_params, evs_head, evs_foot, evs_fn]
  | .forin xs es d => by
    have ih1 := enEs es
    have ih2 := enB d
    intro sh h
    simp only [evE, evEs, evIts, evS, evI, evT, evB, prE, prEs, prIts, prS, prI, prT, prB, allT_t, allT_append, allT_nil, allT_nl, allT_brk, evs_nil, evs_cons, evs_append, EvOk, and_true, true_and] at *
    all_goals grind [evs_names, evs_locals, evs_params, evs_head, evs_foot, evs_fn]
  | .break_ => by
    intro sh h
    simp only [evE, evEs, evIts, evS, evI, evT, evB, prE, prEs, prIts, prS, prI, prT, prB, allT_t, allT_append, allT_nil, allT_nl, allT_brk, evs_nil, evs_cons, evs_append, EvOk, and_true, true_and] at *
    all_goals grind [evs_names, evs_locals, evs_params, evs_head, evs_foot, evs_fn]
  | .return_ es => by
    have ih1 := enEs es
    intro sh h
    simp only [evE, evEs, evIts, evS, evI, evT, evB, prE, prEs, prIts, prS, prI, prT, prB, allT_t, allT_append, allT_nil, allT_nl, allT_brk, evs_nil, evs_cons, evs_append, EvOk, and_true, true_and] at *
    all_goals grind [evs_names, evs_locals, evs_params, evs_head, evs_foot, evs_fn]
  | .local_ xs es => by
    have ih1 := enSrc es
    intro sh h
    simp only [evE, evEs, evIts, evS, evI, evT, evB, prE, prEs, prIts, prS, prI, prT, prB, allT_t, allT_append, allT_nil, allT_nl, allT_brk, evs_nil, evs_cons, evs_append, EvOk, and_true, true_and] at *
    all_goals grind [evs_names, evs_locals, evs_params, evs_head, evs_foot, evs_fn]
  | .localfn x ps b => by
    have ih1 := enB b
    intro sh h
    simp only [evE, evEs, evIts, evS, evI, evT, evB, prE, prEs, prIts, prS, prI, prT, prB, allT_t, allT_append, allT_nil, allT_nl, allT_brk, evs_nil, evs_cons, evs_append, EvOk, and_true, true_and] at *
    all_goals grind [evs_names, evs_locals, evs_params, evs_head, evs_foot, evs_fn]
  | .goto_ x => by
    intro sh h
    simp only [evE, evEs, evIts, evS, evI, evT, evB, prE, prEs, prIts, prS, prI, prT, prB, allT_t, allT_append, allT_nil, allT_nl, allT_brk, evs_nil, evs_cons, evs_append, EvOk, and_true, true_and] at *
    all_goals grind [evs_names, evs_locals, evs_params, evs_head, evs_foot, evs_fn]
  | .label x => by
    intro sh h
    simp only [evE, evEs, evIts, evS, evI, evT, evB, prE, prEs, prIts, prS, prI, prT, prB, allT_t, allT_append, allT_nil, allT_nl, allT_brk, evs_nil, evs_cons, evs_append, EvOk, and_true, true_and] at *
    all_goals grind [evs_names, evs_locals, evs_params, evs_head, evs_foot, evs_fn]
  | .func f ps b => by
    have ih1 := enB b
    intro sh h
    simp only [evE, evEs, evIts, evS, evI, evT, evB, prE, prEs, prIts, prS, prI, prT, prB, allT_t, allT_append, allT_nil, allT_nl, allT_brk, evs_nil, evs_cons, evs_append, EvOk, and_true, true_and] at *
    all_goals grind [evs_names, evs_locals, evs_params, evs_head, evs_foot, evs_fn]
  | .assign ts es => by
    have ih1 := enEs ts
    have ih2 := enSrc es
    intro sh h
    simp only [evE, evEs, evIts, evS, evI, evT, evB, prE, prEs, prIts, prS, prI, prT, prB, allT_t, allT_append, allT_nil, allT_nl, allT_brk, evs_nil, evs_cons, evs_append, EvOk, and_true, true_and] at *
    all_goals grind [evs_names, evs_locals, evs_params, evs_head, evs_foot, evs_fn]
  | .opassign o t e => by
    have ih1 := enE t
    have ih2 := enE e
    intro sh h
    simp only [evE, evEs, evIts, evS, evI, evT, evB, prE, prEs, prIts, prS, prI, prT, prB, allT_t, allT_append, allT_nil, allT_nl, allT_brk, evs_nil, evs_cons, evs_append, EvOk, and_true, true_and] at *
    all_goals grind [evs_names, evs_locals, evs_params, evs_head, evs_foot, evs_fn]
  | .call e => by
    have ih1 := enE e
    intro sh h
    simp only [evE, evEs, evIts, evS, evI, evT, evB, prE, prEs, prIts, prS, prI, prT, prB, allT_t, allT_append, allT_nil, allT_nl, allT_brk, evs_nil, evs_cons, evs_append, EvOk, and_true, true_and] at *
    all_goals grind [evs_names, evs_locals, evs_params, evs_head, evs_foot, evs_fn]
  | .print es => by
    have ih1 := enEs es
    intro sh h
    simp only [evE, evEs, evIts, evS, evI, evT, evB, prE, prEs, prIts, prS, prI, prT, prB, allT_t, allT_append, allT_nil, allT_nl, allT_brk, evs_nil, evs_cons, evs_append, EvOk, and_true, true_and] at *
    all_goals grind [evs_names, evs_locals, evs_params, evs_head, evs_foot, evs_fn]
theorem enI : ∀ (x : If), ∀ (sh : Bool), AllT Q (prI th sh x) → EvsOk Q (evI x)
  | .long e b t => by
    have ih1 := enE e
    have ih2 := enB b
    have ih3 := enT t
    intro sh h
    simp only [evE, evEs, evIts, evS, evI, evT, evB, prE, prEs, prIts, prS, prI, prT, prB, allT_t, allT_append, allT_nil, allT_nl, allT_brk, evs_nil, evs_cons, evs_append, EvOk, and_true, true_and] at *
    all_goals grind [evs_names, evs_locals, evs_params, evs_head, evs_foot, evs_fn]
  | .short e b d => by
    have ih1 := enE e
    have ih2 := enB b
    intro sh h
    simp only [evE, evEs, evIts, evS, evI, evT, evB, prE, prEs, prIts, prS, prI, prT, prB, allT_t, allT_append, allT_nil, allT_nl, allT_brk, evs_nil, evs_cons, evs_append, EvOk, and_true, true_and] at *
    all_goals grind [evs_names, evs_locals, evs_params, evs_head, evs_foot, evs_fn]
  | .shortElse e b b' d => by
    have ih1 := enE e
    have ih2 := enB b
    have ih3 := enB b'
    intro sh h
    simp only [evE, evEs, evIts, evS, evI, evT, evB, prE, prEs, prIts, prS, prI, prT, prB, allT_t, allT_append, allT_nil, allT_nl, allT_brk, evs_nil, evs_cons, evs_append, EvOk, and_true, true_and] at *
    all_goals grind [evs_names, evs_locals, evs_params, evs_head, evs_foot, evs_fn]
theorem enT : ∀ (x : Syntax.Tail), ∀ (sh : Bool), AllT Q (prT th sh x) → EvsOk Q (evT x)
  | .end_ => by
    intro sh h
    simp only [evE, evEs, evIts, evS, evI, evT, evB, prE, prEs, prIts, prS, prI, prT, prB, allT_t, allT_append, allT_nil, allT_nl, allT_brk, evs_nil, evs_cons, evs_append, EvOk, and_true, true_and] at *
    all_goals grind [evs_names, evs_locals, evs_params, evs_head, evs_foot, evs_fn]
  | .else_ b => by
    have ih1 := enB b
    intro sh h
    simp only [evE, evEs, evIts, evS, evI, evT, evB, prE, prEs, prIts, prS, prI, prT, prB, allT_t, allT_append, allT_nil, allT_nl, allT_brk, evs_nil, evs_cons, evs_append, EvOk, and_true, true_and] at *
    all_goals grind [evs_names, evs_locals, evs_params, evs_head, evs_foot, evs_fn]
  | .elseif_ i => by
    have ih1 := enI i
    intro sh h
    simp only [evE, evEs, evIts, evS, evI, evT, evB, prE, prEs, prIts, prS, prI, prT, prB, allT_t, allT_append, allT_nil, allT_nl, allT_brk, evs_nil, evs_cons, evs_append, EvOk, and_true, true_and] at *
    all_goals grind [evs_names, evs_locals, evs_params, evs_head, evs_foot, evs_fn]
theorem enB : ∀ (x : Block), ∀ (sh : Bool), AllT Q (prB th sh x) → EvsOk Q (evB x)
  | .nil => by
    intro sh h
    simp only [evE, evEs, evIts, evS, evI, evT, evB, prE, prEs, prIts, prS, prI, prT, prB, allT_t, allT_append, allT_nil, allT_nl, allT_brk, evs_nil, evs_cons, evs_append, EvOk, and_true, true_and] at *
    all_goals grind [evs_names, evs_locals, evs_params, evs_head, evs_foot, evs_fn]
  | .semi b => by
    have ih1 := enB b
    intro sh h
    simp only [evE, evEs, evIts, evS, evI, evT, evB, prE, prEs, prIts, prS, prI, prT, prB, allT_t, allT_append, allT_nil, allT_nl, allT_brk, evs_nil, evs_cons, evs_append, EvOk, and_true, true_and] at *
    all_goals grind [evs_names, evs_locals, evs_params, evs_head, evs_foot, evs_fn]
  | .cons s b => by
    have ih1 := enS s
    have ih2 := enB b
    intro sh h
    simp only [evE, evEs, evIts, evS, evI, evT, evB, prE, prEs, prIts, prS, prI, prT, prB, allT_t, allT_append, allT_nil, allT_nl, allT_brk, evs_nil, evs_cons, evs_append, EvOk, and_true, true_and] at *
    all_goals grind [evs_names, evs_locals, evs_params, evs_head, evs_foot, evs_fn]
end

theorem use_name (s : State) (x : Nm) (imp : Bool) : (Resolve.useNode s x imp).name = x := by
  unfold Resolve.useNode
  split <;> rfl

theorem step_name_ok {s : State} {e : Ev} (h : EvOk Q e) (hself : Q (.id Resolve.selfName)) (hprint : Q (.id Resolve.printName)) :
    ∀ n ∈ (Resolve.step s e).2, Q (.id n.name) := by
  intro n hn
  cases e <;> simp only [Resolve.step] at hn
  case leave => split at hn <;> simp at hn
  case newScope self =>
    cases self <;> simp only [Resolve.step] at hn
    · cases hn
    · cases List.mem_singleton.1 hn; exact hself
  case add => split at hn <;> simp at hn
  case tgt x =>
    split at hn
    · cases List.mem_singleton.1 hn; exact h
    · cases hn
  case enter => cases hn
  case close => cases hn
  case use x => cases List.mem_singleton.1 hn; rw [use_name]; exact h
  case print => cases List.mem_singleton.1 hn; rw [use_name]; exact hprint
  all_goals cases List.mem_singleton.1 hn; exact h

theorem run_names (hself : Q (.id Resolve.selfName)) (hprint : Q (.id Resolve.printName)) : ∀ {es : List Ev} {s : State}, EvsOk Q es →
    ∀ n ∈ (Resolve.run s es).2, Q (.id n.name)
  | [], _, _, n, hn => by cases hn
  | e :: es, s, h, n, hn => by
    rw [evs_cons] at h
    simp only [Resolve.run, List.mem_append] at hn
    rcases hn with hn | hn
    · exact step_name_ok h.1 hself hprint n hn
    · exact run_names hself hprint h.2 n hn

/-- The names of the nodes of a program are those of its tokens, and `self` and `print`. -/
theorem nodes_names (hself : Q (.id Resolve.selfName)) (hprint : Q (.id Resolve.printName)) {lb : List Nm} {b : Block} {sh : Bool}
    (h : AllT Q (prB th sh b)) : ∀ n ∈ Resolve.nodes lb b, Q (.id n.name) := by
  refine run_names hself hprint ?_
  simp only [Resolve.evRoot, evs_cons, evs_append, evs_nil, and_true]
  exact ⟨trivial, enB th b sh h, trivial⟩

end Verif.Mini
