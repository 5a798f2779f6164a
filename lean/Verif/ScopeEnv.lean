import Verif.Spec.LuaScope
/-
`_ENV` itself is never a global.
-/
namespace Verif.LuaScope
open Syntax

/-- `_ENV` is visible. -/
def Has (env : Env) : Prop := look env (nm "_ENV") ≠ none

/-- None of the occurrences is a global called `_ENV`. -/
def Clean (l : List Occ) : Prop := ∀ o ∈ l, ∀ e, o ≠ .glob (nm "_ENV") e

theorem Clean.append {a b : List Occ} (h : Clean a) (h' : Clean b) : Clean (a ++ b) := fun o ho => by
  rcases List.mem_append.1 ho with ho | ho
  · exact h o ho
  · exact h' o ho

theorem Clean.nil : Clean [] := fun _ h => by simp at h

theorem Clean.cons {o : Occ} {b : List Occ} (h : ∀ e, o ≠ .glob (nm "_ENV") e) (h' : Clean b) : Clean (o :: b) := fun p hp => by
  rcases List.mem_cons.1 hp with rfl | hp
  · exact h
  · exact h' p hp

theorem Has.cons {env : Env} (h : Has env) (x : Nm) (n : Nat) : Has ((x, n) :: env) := by
  unfold Has look at *
  rw [List.find?_cons]
  split
  · simp
  · exact h

theorem Has.bind {env : Env} (h : Has env) : ∀ (xs : List Nm) (n : Nat), Has (bind env n xs)
  | [], _ => h
  | x :: xs, n => (h.cons x n).bind xs (n + 1)
termination_by xs => xs.length

theorem clean_occ {env : Env} (h : Has env) (x : Nm) : ∀ e, occ env x ≠ .glob (nm "_ENV") e := by
  intro e he
  unfold occ at he
  split at he
  · cases he
  · rename_i hn
    cases he
    exact h hn

theorem clean_binds : ∀ (xs : List Nm) (n : Nat), Clean (binds n xs)
  | [], _ => .nil
  | _ :: xs, n => .cons (by simp) (clean_binds xs (n + 1))

theorem clean_keys (f : Bool) (xs : List Nm) : Clean (keys f xs) := by
  cases xs with
  | nil => exact .nil
  | cons x xs =>
    refine .cons (by simp) ?_
    intro o ho
    obtain ⟨y, -, rfl⟩ := List.mem_map.1 ho
    simp

theorem has_after {env : Env} (h : Has env) (n : Nat) (s : St) : Has (after env n s) := by
  cases s <;> simp only [after] <;> first | exact h | exact h.bind _ _

theorem has_atEnd : ∀ (b : Block) {env : Env} (_ : Has env) (n : Nat), Has (atEnd env n b)
  | .nil, _, h, _ => by simp only [atEnd]; exact h
  | .semi b, _, h, n => by simp only [atEnd]; exact has_atEnd b h _
  | .cons s b, _, h, n => by simp only [atEnd]; exact has_atEnd b (has_after h n s) _

mutual
theorem cE : ∀ (e : Ex) {env : Env} (_ : Has env) (n : Nat), Clean (oE env n e)
  | .var x, _, h, _ => by rw [oE]; exact .cons (clean_occ h x) .nil
  | .num _, _, _, _ => by rw [oE]; exact .nil
  | .str _, _, _, _ => by rw [oE]; exact .nil
  | .cst _, _, _, _ => by rw [oE]; exact .nil
  | .vararg, _, _, _ => by rw [oE]; exact .nil
  | .func ps b, _, h, n => by rw [oE]; exact (clean_binds _ _).append (cB b (h.bind _ _) _)
  | .group e, _, h, n => by rw [oE]; exact cE e h n
  | .un _ e, _, h, n => by rw [oE]; exact cE e h n
  | .bin _ l r, _, h, n => by rw [oE]; exact (cE l h _).append (cE r h _)
  | .member b x, _, h, n => by rw [oE]; exact (cE b h _).append (.cons (by simp) .nil)
  | .index b k, _, h, n => by rw [oE]; exact (cE b h _).append (cE k h _)
  | .call b _ as, _, h, n => by rw [oE]; exact (cE b h _).append (cEs as h _)
  | .method b x _ as, _, h, n => by rw [oE]; exact (cE b h _).append (.cons (by simp) (cEs as h _))
  | .table its, _, h, n => by rw [oE]; exact cIts its h n _
theorem cEs : ∀ (e : Exs) {env : Env} (_ : Has env) (n : Nat), Clean (oEs env n e)
  | .nil, _, _, _ => by rw [oEs]; exact .nil
  | .cons e es, _, h, n => by rw [oEs]; exact (cE e h _).append (cEs es h _)
theorem cSrc : ∀ (e : Exs) {env : Env} (_ : Has env) (n : Nat) (fs : List Bool), Clean (oSrc env n fs e)
  | .nil, _, _, _, _ => by rw [oSrc]; exact .nil
  | .cons (.table its) es, _, h, n, fs => by rw [oSrc]; exact (cIts its h _ _).append (cSrc es h _ _)
  | .cons (.var x) es, _, h, n, fs => by simp only [oSrc]; exact (cE (.var x) h _).append (cSrc es h _ _)
  | .cons (.num x) es, _, h, n, fs => by simp only [oSrc]; exact (cE (.num x) h _).append (cSrc es h _ _)
  | .cons (.str x) es, _, h, n, fs => by simp only [oSrc]; exact (cE (.str x) h _).append (cSrc es h _ _)
  | .cons (.cst x) es, _, h, n, fs => by simp only [oSrc]; exact (cE (.cst x) h _).append (cSrc es h _ _)
  | .cons .vararg es, _, h, n, fs => by simp only [oSrc]; exact (cE .vararg h _).append (cSrc es h _ _)
  | .cons (.func ps b) es, _, h, n, fs => by simp only [oSrc]; exact (cE (.func ps b) h _).append (cSrc es h _ _)
  | .cons (.group e) es, _, h, n, fs => by simp only [oSrc]; exact (cE (.group e) h _).append (cSrc es h _ _)
  | .cons (.un o e) es, _, h, n, fs => by simp only [oSrc]; exact (cE (.un o e) h _).append (cSrc es h _ _)
  | .cons (.bin o e f) es, _, h, n, fs => by simp only [oSrc]; exact (cE (.bin o e f) h _).append (cSrc es h _ _)
  | .cons (.member e x) es, _, h, n, fs => by simp only [oSrc]; exact (cE (.member e x) h _).append (cSrc es h _ _)
  | .cons (.index e f) es, _, h, n, fs => by simp only [oSrc]; exact (cE (.index e f) h _).append (cSrc es h _ _)
  | .cons (.call e s f) es, _, h, n, fs => by simp only [oSrc]; exact (cE (.call e s f) h _).append (cSrc es h _ _)
  | .cons (.method e x s f) es, _, h, n, fs => by simp only [oSrc]; exact (cE (.method e x s f) h _).append (cSrc es h _ _)
theorem cIts : ∀ (e : Its) {env : Env} (_ : Has env) (n : Nat) (f : Bool), Clean (oIts env n f e)
  | .nil, _, _, _, _ => by rw [oIts]; exact .nil
  | .pos e its, _, h, n, f => by rw [oIts]; exact (cE e h _).append (cIts its h _ _)
  | .named x e its, _, h, n, f => by rw [oIts]; exact .cons (by simp) ((cE e h _).append (cIts its h _ _))
  | .keyed k e its, _, h, n, f => by rw [oIts]; exact (cE k h _).append ((cE e h _).append (cIts its h _ _))
theorem cS : ∀ (e : St) {env : Env} (_ : Has env) (n : Nat), Clean (oS env n e)
  | .do_ b, _, h, n => by rw [oS]; exact cB b h _
  | .if_ i, _, h, n => by rw [oS]; exact cI i h _
  | .while_ c b, _, h, n => by rw [oS]; exact (cE c h _).append (cB b h _)
  | .whileShort c b _, _, h, n => by rw [oS]; exact (cE c h _).append (cB b h _)
  | .repeat_ b c, _, h, n => by rw [oS]; exact (cB b h _).append (cE c (has_atEnd b h _) _)
  | .fornum x a b c d, _, h, n => by
    rw [oS]; exact .cons (by simp) ((cE a h _).append ((cE b h _).append ((cEs c h _).append (cB d (h.bind _ _) _))))
  | .forin xs es d, _, h, n => by rw [oS]; exact (clean_binds _ _).append ((cEs es h _).append (cB d (h.bind _ _) _))
  | .break_, _, _, _ => by rw [oS]; exact .nil
  | .return_ es, _, h, n => by rw [oS]; exact cEs es h _
  | .local_ xs es, _, h, n => by rw [oS]; exact (clean_binds _ _).append (cSrc es h _ _)
  | .localfn x ps b, _, h, n => by rw [oS]; exact .cons (by simp) ((clean_binds _ _).append (cB b ((h.bind _ _).bind _ _) _))
  | .goto_ x, _, _, _ => by rw [oS]; exact .cons (by simp) .nil
  | .label x, _, _, _ => by rw [oS]; exact .cons (by simp) .nil
  | .func f ps b, _, h, n => by
    rw [oS]; exact .cons (clean_occ h _) ((clean_keys _ _).append ((clean_binds _ _).append (cB b (h.bind _ _) _)))
  | .assign ts es, _, h, n => by rw [oS]; exact (cEs ts h _).append (cSrc es h _ _)
  | .opassign _ t e, _, h, n => by rw [oS]; exact (cE t h _).append (cE e h _)
  | .call e, _, h, n => by rw [oS]; exact cE e h _
  | .print es, _, h, n => by rw [oS]; exact (cEs es h _).append (.cons (clean_occ h _) .nil)
theorem cI : ∀ (e : If) {env : Env} (_ : Has env) (n : Nat), Clean (oI env n e)
  | .long c b t, _, h, n => by rw [oI]; exact (cE c h _).append ((cB b h _).append (cT t h _))
  | .short c b _, _, h, n => by rw [oI]; exact (cE c h _).append (cB b h _)
  | .shortElse c b d _, _, h, n => by rw [oI]; exact (cE c h _).append ((cB b h _).append (cB d h _))
theorem cT : ∀ (e : Tail) {env : Env} (_ : Has env) (n : Nat), Clean (oT env n e)
  | .end_, _, _, _ => by rw [oT]; exact .nil
  | .else_ b, _, h, n => by rw [oT]; exact cB b h _
  | .elseif_ i, _, h, n => by rw [oT]; exact cI i h _
theorem cB : ∀ (e : Block) {env : Env} (_ : Has env) (n : Nat), Clean (oB env n e)
  | .nil, _, _, _ => by rw [oB]; exact .nil
  | .semi b, _, h, n => by rw [oB]; exact cB b h _
  | .cons s b, _, h, n => by rw [oB]; exact (cS s h _).append (cB b (has_after h _ _) _)
end

/-- `_ENV` itself is never a global. -/
theorem program_clean (lb : List Nm) (b : Block) : Clean (program lb b) :=
  cB b (Has.bind (by simp [Has, look]) _ _) _

end Verif.LuaScope
