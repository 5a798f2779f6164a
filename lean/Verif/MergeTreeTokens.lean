import Verif.MergeTreeFine
import Verif.MinifyTokens
/-
Helpers for C80: the tokens of the tree with merged declarations come from the tree it was made of.
-/
set_option linter.unusedSimpArgs false
namespace Verif.Elab.Mt
open Syntax
open Core (Merge)
open Paren (Op)
open Mini (prE prEs prIts prS prI prT prB prLocals prAttr prNames prParams prPar prName sepEs sepIts eqEs brk M)
open Mini (AllT Fixed allT_append allT_t allT_nl allT_nil allT_brk allT_sepEs allT_sepIts allT_eqEs)

variable {S : Sem} {o : Merge} {Q : K → Prop}

theorem allT_locals (hP : ∀ k, Fixed k → Q k) : ∀ {xs : List (Nm × Option Nm)}, AllT Q (prLocals xs) ↔ ∀ x ∈ xs, Q (.id x.1) ∧ AllT Q (prAttr x.2)
  | [] => by simp [prLocals]
  | [(x, a)] => by simp [prLocals]
  | (x, a) :: y :: xs => by
    have := allT_locals hP (xs := y :: xs)
    simp only [prLocals, allT_t, allT_append, this, hP _ (show Fixed .comma from trivial), true_and, List.mem_cons, forall_eq_or_imp]
    simp [and_assoc]

variable {th : K}

theorem all_app (hP : ∀ k, Fixed k → Q k) {sh : Bool} : ∀ {es fs : Exs}, AllT Q (prEs th sh es) → AllT Q (prEs th sh fs) → AllT Q (prEs th sh (appEs es fs))
  | .nil, _, _, h => h
  | .cons e es, fs, h, h' => by
    simp only [prEs, appEs, allT_append] at h ⊢
    exact ⟨h.1, allT_sepEs hP, all_app hP h.2.2 h'⟩

theorem all_semis (hP : ∀ k, Fixed k → Q k) {sh : Bool} {b : Block} : ∀ {k}, AllT Q (prB th sh (semisThen b k)) ↔ AllT Q (prB th sh b)
  | 0 => .rfl
  | k + 1 => by
    have := all_semis hP (sh := sh) (b := b) (k := k)
    simp only [semisThen, prB, allT_t, hP _ (show Fixed .semi from trivial), true_and]
    exact this

theorem all_join (hP : ∀ k, Fixed k → Q k) (k : Nat) {sh : Bool} : ∀ (is : List Item) (p : Item), AllT Q (prB th sh (blockOf k (p :: is))) →
    AllT Q (prB th sh (blockOf k (join o p is)))
  | [], p, h => h
  | s :: is, p, h => by
    simp only [join]
    have hp : AllT Q (prB th sh (.cons p.st (blockOf k (s :: is)))) := (all_semis hP).1 h
    simp only [prB, allT_append] at hp
    cases e : two o p s with
    | none =>
      simp only [blockOf]
      refine (all_semis hP).2 ?_
      simp only [prB, allT_append]
      exact ⟨hp.1, all_join hP k is s hp.2⟩
    | some q =>
      obtain ⟨xs, es, ys, fs, zs, h1, h2, h3, h4, h5⟩ := two_eq e
      have hs : AllT Q (prB th sh (.cons s.st (blockOf k is))) := (all_semis hP).1 hp.2
      simp only [prB, allT_append, h2] at hs
      have p1 := hp.1
      have s1 := hs.1
      simp only [h1, prS, allT_t, allT_append, allT_locals hP] at p1
      simp only [prS, allT_t, allT_append, allT_locals hP] at s1
      refine all_join hP k is q ?_
      rw [blockOf]
      refine (all_semis hP).2 ?_
      simp only [prB, h4, prS, allT_t, allT_append, allT_locals hP]
      exact ⟨⟨p1.1, fun z hz => (h5 z hz).elim (p1.2.1 z) (s1.2.1 z), allT_eqEs hP, all_app hP p1.2.2.2 s1.2.2.2⟩, hs.2⟩

theorem all_block (hP : ∀ k, Fixed k → Q k) {sh : Bool} {env : LuaScope.Env} {n : Nat} {b : Block} (h : AllT Q (prB th sh (items S o env n b))) :
    AllT Q (prB th sh (block o (mB S o env n b))) := by
  unfold items at h
  unfold block
  cases e : (mB S o env n b).1 with
  | nil => rw [e] at h; exact h
  | cons p is => rw [e] at h; exact all_join hP _ is p h

mutual
theorem tkE (hP : ∀ k, Fixed k → Q k) : ∀ (e : Ex) (sh : Bool) (env : LuaScope.Env) (n : Nat), AllT Q (prE th sh e) → AllT Q (prE th sh (mE S o env n e))
  | .var _, _, _, _, h | .num _, _, _, _, h | .str _, _, _, _, h | .cst _, _, _, _, h | .vararg, _, _, _, h => h
  | .func ps b, sh, env, n, h => by
    simp only [mE, prE, allT_t, allT_append] at h ⊢
    exact ⟨h.1, h.2.1, h.2.2.1, all_block hP (tkB hP b sh _ _ h.2.2.2.1), h.2.2.2.2⟩
  | .group e, sh, env, n, h => by
    simp only [mE, prE, allT_t, allT_append] at h ⊢
    exact ⟨h.1, tkE hP e sh env n h.2.1, h.2.2⟩
  | .un u e, sh, env, n, h => by
    simp only [mE, prE, allT_t] at h ⊢
    exact ⟨h.1, tkE hP e sh env n h.2⟩
  | .bin u l r, sh, env, n, h => by
    simp only [mE, prE, allT_t, allT_append] at h ⊢
    exact ⟨tkE hP l sh env n h.1, h.2.1, tkE hP r sh env _ h.2.2⟩
  | .member b y, sh, env, n, h => by
    simp only [mE, prE, allT_append] at h ⊢
    exact ⟨tkE hP b sh env n h.1, h.2⟩
  | .index b k, sh, env, n, h => by
    simp only [mE, prE, allT_t, allT_append] at h ⊢
    exact ⟨tkE hP b sh env n h.1, h.2.1, tkE hP k sh env _ h.2.2.1, h.2.2.2⟩
  | .call b false as, sh, env, n, h => by
    simp only [mE, prE, allT_t, allT_append] at h ⊢
    exact ⟨tkE hP b sh env n h.1, h.2.1, tkEs hP as sh env _ h.2.2.1, h.2.2.2⟩
  | .call b true as, sh, env, n, h => by
    simp only [mE, prE, allT_t, allT_append] at h ⊢
    exact ⟨tkE hP b sh env n h.1, tkEs hP as sh env _ h.2⟩
  | .method b y false as, sh, env, n, h => by
    simp only [mE, prE, allT_t, allT_append] at h ⊢
    exact ⟨tkE hP b sh env n h.1, h.2.1, h.2.2.1, h.2.2.2.1, tkEs hP as sh env _ h.2.2.2.2.1, h.2.2.2.2.2⟩
  | .method b y true as, sh, env, n, h => by
    simp only [mE, prE, allT_t, allT_append] at h ⊢
    exact ⟨tkE hP b sh env n h.1, h.2.1, h.2.2.1, tkEs hP as sh env _ h.2.2.2⟩
  | .table its, sh, env, n, h => by
    simp only [mE, prE, allT_t, allT_append] at h ⊢
    exact ⟨h.1, tkIts hP its sh env n h.2.1, h.2.2⟩
theorem tkEs (hP : ∀ k, Fixed k → Q k) : ∀ (e : Exs) (sh : Bool) (env : LuaScope.Env) (n : Nat), AllT Q (prEs th sh e) → AllT Q (prEs th sh (mEs S o env n e))
  | .nil, _, _, _, h => h
  | .cons e es, sh, env, n, h => by
    simp only [mEs, prEs, allT_append] at h ⊢
    exact ⟨tkE hP e sh env n h.1, allT_sepEs hP, tkEs hP es sh env _ h.2.2⟩
theorem tkIts (hP : ∀ k, Fixed k → Q k) : ∀ (e : Its) (sh : Bool) (env : LuaScope.Env) (n : Nat), AllT Q (prIts th sh e) → AllT Q (prIts th sh (mIts S o env n e))
  | .nil, _, _, _, h => h
  | .pos e es, sh, env, n, h => by
    simp only [mIts, prIts, allT_append] at h ⊢
    exact ⟨tkE hP e sh env n h.1, allT_sepIts hP, tkIts hP es sh env _ h.2.2⟩
  | .named y e es, sh, env, n, h => by
    simp only [mIts, prIts, allT_append, allT_t] at h ⊢
    exact ⟨h.1, h.2.1, tkE hP e sh env n h.2.2.1, allT_sepIts hP, tkIts hP es sh env _ h.2.2.2.2⟩
  | .keyed k e es, sh, env, n, h => by
    simp only [mIts, prIts, allT_append, allT_t] at h ⊢
    exact ⟨h.1, tkE hP k sh env n h.2.1, h.2.2.1, h.2.2.2.1, tkE hP e sh env _ h.2.2.2.2.1, allT_sepIts hP, tkIts hP es sh env _ h.2.2.2.2.2.2⟩
theorem tkS (hP : ∀ k, Fixed k → Q k) : ∀ (s : St) (sh : Bool) (env : LuaScope.Env) (n : Nat), AllT Q (prS th sh s) → AllT Q (prS th sh (mS S o env n s))
  | .do_ b, sh, env, n, h => by
    simp only [mS, prS, allT_append, allT_t] at h ⊢
    exact ⟨h.1, all_block hP (tkB hP b sh _ _ h.2.1), h.2.2⟩
  | .if_ i, sh, env, n, h => by
    simp only [mS, prS, allT_t] at h ⊢
    exact ⟨h.1, tkI hP i sh env n h.2⟩
  | .while_ e b, sh, env, n, h => by
    simp only [mS, prS, allT_append, allT_t] at h ⊢
    exact ⟨h.1, tkE hP e sh env n h.2.1, h.2.2.1, all_block hP (tkB hP b sh _ _ h.2.2.2.1), h.2.2.2.2⟩
  | .whileShort e b d, sh, env, n, h => by
    simp only [mS, prS, allT_append, allT_t] at h ⊢
    exact ⟨h.1, tkE hP e _ env n h.2.1, all_block hP (tkB hP b _ _ _ h.2.2.1), h.2.2.2⟩
  | .repeat_ b e, sh, env, n, h => by
    simp only [mS, prS, allT_append, allT_t] at h ⊢
    exact ⟨h.1, all_block hP (tkB hP b sh _ _ h.2.1), h.2.2.1, tkE hP e sh _ _ h.2.2.2⟩
  | .fornum y a b s d, sh, env, n, h => by
    simp only [mS, prS, allT_append, allT_t] at h ⊢
    exact ⟨h.1, h.2.1, h.2.2.1, tkE hP a sh env _ h.2.2.2.1, h.2.2.2.2.1, tkE hP b sh env _ h.2.2.2.2.2.1, allT_sepEs hP, tkEs hP s sh env _ h.2.2.2.2.2.2.2.1,
      h.2.2.2.2.2.2.2.2.1, all_block hP (tkB hP d sh _ _ h.2.2.2.2.2.2.2.2.2.1), h.2.2.2.2.2.2.2.2.2.2⟩
  | .forin xs es d, sh, env, n, h => by
    simp only [mS, prS, allT_append, allT_t] at h ⊢
    exact ⟨h.1, h.2.1, h.2.2.1, tkEs hP es sh env _ h.2.2.2.1, h.2.2.2.2.1, all_block hP (tkB hP d sh _ _ h.2.2.2.2.2.1), h.2.2.2.2.2.2⟩
  | .break_, _, _, _, h => h
  | .return_ es, sh, env, n, h => by
    simp only [mS, prS, allT_t] at h ⊢
    exact ⟨h.1, tkEs hP es sh env n h.2⟩
  | .local_ xs es, sh, env, n, h => by
    simp only [mS, prS, allT_append, allT_t] at h ⊢
    exact ⟨h.1, h.2.1, allT_eqEs hP, tkEs hP es sh env _ h.2.2.2⟩
  | .localfn y ps b, sh, env, n, h => by
    simp only [mS, prS, allT_append, allT_t] at h ⊢
    exact ⟨h.1, h.2.1, h.2.2.1, h.2.2.2.1, h.2.2.2.2.1, all_block hP (tkB hP b sh _ _ h.2.2.2.2.2.1), h.2.2.2.2.2.2⟩
  | .goto_ _, _, _, _, h => h
  | .label _, _, _, _, h => h
  | .func g ps b, sh, env, n, h => by
    simp only [mS, prS, allT_append, allT_t] at h ⊢
    exact ⟨h.1, h.2.1, h.2.2.1, h.2.2.2.1, all_block hP (tkB hP b sh _ _ h.2.2.2.2.1), h.2.2.2.2.2⟩
  | .assign ts es, sh, env, n, h => by
    simp only [mS, prS, allT_append, allT_t] at h ⊢
    exact ⟨tkEs hP ts sh env _ h.1, h.2.1, tkEs hP es sh env _ h.2.2⟩
  | .opassign u t e, sh, env, n, h => by
    simp only [mS, prS, allT_append, allT_t] at h ⊢
    exact ⟨tkE hP t sh env _ h.1, h.2.1, tkE hP e sh env _ h.2.2⟩
  | .call e, sh, env, n, h => tkE hP e sh env n h
  | .print es, sh, env, n, h => by
    simp only [mS, prS, allT_append, allT_t] at h ⊢
    exact ⟨h.1, tkEs hP es true env _ h.2.1, h.2.2⟩
theorem tkI (hP : ∀ k, Fixed k → Q k) : ∀ (i : If) (sh : Bool) (env : LuaScope.Env) (n : Nat), AllT Q (prI th sh i) → AllT Q (prI th sh (mI S o env n i))
  | .long e b t, sh, env, n, h => by
    simp only [mI, prI, allT_append, allT_t] at h ⊢
    exact ⟨tkE hP e sh env n h.1, h.2.1, all_block hP (tkB hP b sh _ _ h.2.2.1), tkT hP t sh env _ h.2.2.2⟩
  | .short e b d, sh, env, n, h => by
    simp only [mI, prI, allT_append, allT_t] at h ⊢
    exact ⟨tkE hP e _ env n h.1, all_block hP (tkB hP b _ _ _ h.2.1), h.2.2⟩
  | .shortElse e b b' d, sh, env, n, h => by
    simp only [mI, prI, allT_append, allT_t] at h ⊢
    exact ⟨tkE hP e _ env n h.1, all_block hP (tkB hP b _ _ _ h.2.1), h.2.2.1, all_block hP (tkB hP b' _ _ _ h.2.2.2.1), h.2.2.2.2⟩
theorem tkT (hP : ∀ k, Fixed k → Q k) : ∀ (t : Syntax.Tail) (sh : Bool) (env : LuaScope.Env) (n : Nat), AllT Q (prT th sh t) → AllT Q (prT th sh (mT S o env n t))
  | .end_, _, _, _, h => h
  | .else_ b, sh, env, n, h => by
    simp only [mT, prT, allT_append, allT_t] at h ⊢
    exact ⟨h.1, all_block hP (tkB hP b sh _ _ h.2.1), h.2.2⟩
  | .elseif_ i, sh, env, n, h => by
    simp only [mT, prT, allT_t] at h ⊢
    exact ⟨h.1, tkI hP i sh env n h.2⟩
theorem tkB (hP : ∀ k, Fixed k → Q k) : ∀ (b : Block) (sh : Bool) (env : LuaScope.Env) (n : Nat), AllT Q (prB th sh b) → AllT Q (prB th sh (items S o env n b))
  | .nil, _, _, _, h => h
  | .semi b, sh, env, n, h => by
    rw [items_semi]
    simp only [prB, allT_t] at h ⊢
    exact ⟨h.1, tkB hP b sh env n h.2⟩
  | .cons s b, sh, env, n, h => by
    rw [items_cons]
    simp only [prB, allT_append] at h ⊢
    exact ⟨tkS hP s sh env n h.1, tkB hP b sh _ _ h.2⟩
end

theorem all_merge (hP : ∀ k, Fixed k → Q k) {lb : List Nm} {b : Block} {sh : Bool} (h : AllT Q (prB th sh b)) : AllT Q (prB th sh (mergeTree S o lb b)) :=
  all_block hP (tkB hP b sh _ _ h)

end Verif.Elab.Mt
