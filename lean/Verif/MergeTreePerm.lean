import Verif.MergeTreeMain
import Verif.MergeProgChain
/-
Helpers for C80: merging keeps the declarations, in another order.
-/
namespace Verif.Core.Mrg

variable {o : Merge}

theorem join_perm : ∀ (b : List St) (p : St), (declaredBl (o.join p b)).Perm (declaredBl (p :: b))
  | [], _ => .refl _
  | s :: b, p => by
    simp only [Merge.join]
    split
    · rename_i q hq
      refine (join_perm b q).trans ?_
      cases p <;> cases s <;> simp only [Merge.two, reduceCtorEq] at hq
      split at hq
      · cases hq
        exact merged_perm _ _ _ (.refl _) (.refl _) (.refl _)
      · cases hq
    · simp only [declaredBl]
      exact List.Perm.append_left _ (join_perm b s)

theorem joinAll_perm (b : List St) : (declaredBl (o.joinAll b)).Perm (declaredBl b) := by
  cases b with
  | nil => exact .refl _
  | cons s b => exact join_perm b s

mutual
theorem pEx : ∀ e : Ex, (e.merged o).declared.Perm e.declared
  | .const _ => .refl _
  | .var _ => .refl _
  | .dots => .refl _
  | .group e => pEx e
  | .un _ e => pEx e
  | .bin _ l r => (pEx l).append (pEx r)
  | .builtin _ es => pEs es
  | .call f es => (pEx f).append (pEs es)
  | .index e k => (pEx e).append (pEx k)
  | .op _ _ es => pEs es
  | .func ps _ b => List.Perm.append_left ps ((joinAll_perm _).trans (pBl b))
theorem pEs : ∀ es : List Ex, (declaredEs (mergedEs o es)).Perm (declaredEs es)
  | [] => .refl _
  | e :: es => (pEx e).append (pEs es)
theorem pSt : ∀ s : St, (s.merged o).declared.Perm s.declared
  | .locals _ es => (pEs es).append (.refl _)
  | .localFn x ps _ b => List.Perm.append_left (x :: ps) ((joinAll_perm _).trans (pBl b))
  | .assign ts es => (pTs ts).append (pEs es)
  | .eval e => pEx e
  | .ret es => pEs es
  | .brk => .refl _
  | .doB b => (joinAll_perm _).trans (pBl b)
  | .whileS e b => (pEx e).append ((joinAll_perm _).trans (pBl b))
  | .repeatS b e => ((joinAll_perm _).trans (pBl b)).append (pEx e)
  | .forNum x es b => (pEs es).append (((joinAll_perm _).trans (pBl b)).cons x)
  | .forIn _ es b => ((pEs es).append (.refl _)).append ((joinAll_perm _).trans (pBl b))
  | .ifS e t f => ((pEx e).append ((joinAll_perm _).trans (pBl t))).append (pEl f)
theorem pBl : ∀ b : List St, (declaredBl (mergedBl o b)).Perm (declaredBl b)
  | [] => .refl _
  | s :: b => (pSt s).append (pBl b)
theorem pEl : ∀ f : El, (f.merged o).declared.Perm f.declared
  | .none => .refl _
  | .else_ b => (joinAll_perm _).trans (pBl b)
  | .elseif e t f => ((pEx e).append ((joinAll_perm _).trans (pBl t))).append (pEl f)
theorem pTg : ∀ t : Tg, (t.merged o).declared.Perm t.declared
  | .loc _ => .refl _
  | .put _ es => pEs es
theorem pTs : ∀ ts : List Tg, (declaredTs (mergedTs o ts)).Perm (declaredTs ts)
  | [] => .refl _
  | t :: ts => (pTg t).append (pTs ts)
end

theorem program_perm (b : List St) : (declaredBl (mergeProgram o b)).Perm (declaredBl b) := (joinAll_perm _).trans (pBl b)

end Verif.Core.Mrg

namespace Verif.Elab.Mt
open Syntax LuaScope
open Core (Merge mergeProgram renBl declaredBl)

theorem na_of {S : Sem} {o : Merge} {code : Nm → Nat} {n : Nat} {l : List Nm} (hn : S.given ≤ n) (h : ∀ i x, l[i]? = some x → o.name (n + i) = code x) :
    NA S o code n l := by
  induction l generalizing n with
  | nil => exact List.Forall₂.nil
  | cons x l ih =>
    simp only [NA, Nms, List.length_cons, List.range'_succ, List.forall₂_cons]
    refine ⟨⟨h 0 x rfl, hn⟩, ih (by omega) fun i y hy => ?_⟩
    have := h (i + 1) y (by simpa using hy)
    rwa [show n + (i + 1) = n + 1 + i by omega] at this

theorem mergeOf_na {S : Sem} {lb : List Nm} {b : Block} {hint : List Nat → Bool} (hS : S.given = lb.length + 1) :
    NA S (mergeOf lb b hint) (fun x => (dB b).idxOf x) (lb.length + 1) (dB b) := by
  refine na_of (by omega) fun i x h => ?_
  simp only [mergeOf, show lb.length + 1 + i - (lb.length + 1) = i by omega, List.getD_eq_getElem?_getD, h, Option.getD_some]

theorem looks_refl {S : Sem} {f : Nat → Nat} (hf : ∀ x, x < S.given → f x = x) : ∀ (lb : List Nm) (env : Env) (n : Nat),
    (∀ x m, look env x = some m → m < S.given) → n + lb.length ≤ S.given → ∀ x m, look (bind env n lb) x = some m → m < S.given
  | [], env, n, h, _ => h
  | y :: lb, env, n, h, hn => by
    simp only [List.length_cons] at hn
    refine looks_refl hf lb _ _ ?_ (by omega)
    intro x m hm
    rw [look_cons] at hm
    split at hm
    · cases hm; omega
    · exact h x m hm

theorem program_merge (S : Sem) (lb : List Nm) (hS : S.given = lb.length + 1) (b : Block) (hint : List Nat → Bool) :
    ∃ f : Nat → Nat, (∀ x y, f x = f y → x = y) ∧ (∀ x, x ≤ lb.length → f x = x) ∧
      program S lb (mergeTree S (mergeOf lb b hint) lb b) = renBl f (mergeProgram (mergeOf lb b hint) (program S lb b)) := by
  have hp := Core.Mrg.program_perm (o := mergeOf lb b hint) (program S lb b)
  have hw := wB S b (bind [(nm "_ENV", 0)] 1 lb) (lb.length + 1)
  have hw' := wB S (mergeTree S (mergeOf lb b hint) lb b) (bind [(nm "_ENV", 0)] 1 lb) (lb.length + 1)
  obtain ⟨f, h1, h2, h3, h4⟩ := exists_ren S.given (kBl (mergeProgram (mergeOf lb b hint) (program S lb b)) (program S lb (mergeTree S (mergeOf lb b hint) lb b)))
    ((fBl _ _).nodup (hp.nodup_iff.mpr hw.nodup)) ((gBl _ _).nodup hw'.nodup)
    (fun p hm => by
      have := (hp.mem_iff.mp ((fBl _ _).subset (List.mem_map_of_mem hm)))
      have := (hw.mem _ this).1
      omega)
    (fun p hm => by
      have := (gBl _ _).subset (List.mem_map_of_mem (f := (·.2)) hm)
      have := (hw'.mem _ this).1
      omega)
  refine ⟨f, h1, fun x hx => h2 x (by omega), ?_⟩
  have hb := (tB (code := fun x => (dB b).idxOf x) ⟨h2, h3⟩ b (bind [(nm "_ENV", 0)] 1 lb) (lb.length + 1) (mergeOf_na (hint := hint) hS)).block
  refine (hb _ _ ?_ h4).1
  have hl := looks_refl h2 lb [(nm "_ENV", 0)] 1 (fun x m hm => by
    rw [look_cons] at hm
    split at hm
    · cases hm; omega
    · simp [look] at hm) (by omega)
  exact fun x => ⟨fun m hm _ => by rw [hm, h2 m (hl x m hm)], id⟩

end Verif.Elab.Mt
