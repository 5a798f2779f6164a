import Verif.ShortLemmas
import Verif.MinifyNorm
import Verif.Spec.LuaPrint
/-
Making and undoing shorthands keeps what a program means, and can be done before everything else.
-/
set_option linter.unusedVariables false
set_option linter.unusedSimpArgs false
set_option linter.unusedSectionVars false
set_option linter.unusedTactic false
namespace Verif.Mini
open Syntax Tidy LuaNorm LuaPrint
open Paren (Op Lang prec Ctx ctxPrec canUnary)

variable (O : Sh) (L : Lang)

theorem multi_k (p : Pc) : ∀ e, multi (kE O p e) = multi e
  | .group e => by rw [kE, multi, multi, multi_k p e]
  | .var _ | .num _ | .str _ | .cst _ | .vararg | .func _ _ | .un _ _ | .bin _ _ _ | .member _ _ | .index _ _ | .call _ _ _ | .method _ _ _ _ | .table _ => by
    simp [kE, multi]

theorem len_k (p : Pc) : ∀ es, len (kEs O p es) = len es
  | .nil => rfl
  | .cons e es => by rw [kEs, len, len, len_k p es]

theorem cutLast_k (p : Pc) : ∀ es, cutLast (kEs O p es) = cutLast es
  | .nil => rfl
  | .cons e .nil => by cases e <;> simp [kEs, kE, cutLast, multi_k]
  | .cons e (.cons f es) => by
    have ih := cutLast_k p (.cons f es)
    simp only [kEs] at ih ⊢
    simpa [cutLast] using ih

theorem cB_fill {L : Lang} {b b' : Block} (h : cB L b') : cB L (fill b b') := by
  unfold fill; split_ifs <;> first | exact h | (simp only [cB])

theorem cEs_args {L : Lang} {e : Ex} (h : cE L e) : cEs L (argsOf e) := by
  cases e <;> simp only [argsOf, cEs, cE] at * <;> exact h.2

mutual
theorem cut_kE : ∀ (x : Ex), ∀ p, cE L x → cE L (kE O p x)
  | .var x => by
    intros
    simp only [kE, kEs, kIts, kS, kI, kB, cE, cEs, cIts, cS, cI, cT, cB]
  | .num x => by
    intros
    simp only [kE, kEs, kIts, kS, kI, kB, cE, cEs, cIts, cS, cI, cT, cB]
  | .str x => by
    intros
    simp only [kE, kEs, kIts, kS, kI, kB, cE, cEs, cIts, cS, cI, cT, cB]
  | .cst x => by
    intros
    simp only [kE, kEs, kIts, kS, kI, kB, cE, cEs, cIts, cS, cI, cT, cB]
  | .vararg => by
    intros
    simp only [kE, kEs, kIts, kS, kI, kB, cE, cEs, cIts, cS, cI, cT, cB]
  | .func ps b => by
    have ih1 := cut_kB b
    intro p h
    simp only [kE, kEs, kIts, kS, kI, kB, cE, cEs, cIts, cS, cI, cT, cB] at *
    exact ih1 _ h
  | .group e => by
    have ih1 := cut_kE e
    intro p h
    simp only [kE, kEs, kIts, kS, kI, kB, cE, cEs, cIts, cS, cI, cT, cB] at *
    exact ih1 _ h
  | .un o e => by
    have ih1 := cut_kE e
    intro p h
    simp only [kE, kEs, kIts, kS, kI, kB, cE, cEs, cIts, cS, cI, cT, cB] at *
    exact ih1 _ h
  | .bin o l r => by
    have ih1 := cut_kE l
    have ih2 := cut_kE r
    intro p h
    simp only [kE, kEs, kIts, kS, kI, kB, cE, cEs, cIts, cS, cI, cT, cB] at *
    exact ⟨ih1 _ h.1, ih2 _ h.2⟩
  | .member b x => by
    have ih1 := cut_kE b
    intro p h
    simp only [kE, kEs, kIts, kS, kI, kB, cE, cEs, cIts, cS, cI, cT, cB] at *
    exact ih1 _ h
  | .index b k => by
    have ih1 := cut_kE b
    have ih2 := cut_kE k
    intro p h
    simp only [kE, kEs, kIts, kS, kI, kB, cE, cEs, cIts, cS, cI, cT, cB] at *
    exact ⟨ih1 _ h.1, ih2 _ h.2⟩
  | .call b t as => by
    have ih1 := cut_kE b
    have ih2 := cut_kEs as
    intro p h
    simp only [kE, kEs, kIts, kS, kI, kB, cE, cEs, cIts, cS, cI, cT, cB] at *
    exact ⟨ih1 _ h.1, ih2 _ h.2⟩
  | .method b x t as => by
    have ih1 := cut_kE b
    have ih2 := cut_kEs as
    intro p h
    simp only [kE, kEs, kIts, kS, kI, kB, cE, cEs, cIts, cS, cI, cT, cB] at *
    exact ⟨ih1 _ h.1, ih2 _ h.2⟩
  | .table its => by
    have ih1 := cut_kIts its
    intro p h
    simp only [kE, kEs, kIts, kS, kI, kB, cE, cEs, cIts, cS, cI, cT, cB] at *
    exact ih1 _ h
theorem cut_kEs : ∀ (x : Exs), ∀ p, cEs L x → cEs L (kEs O p x)
  | .nil => by
    intros
    simp only [kE, kEs, kIts, kS, kI, kB, cE, cEs, cIts, cS, cI, cT, cB]
  | .cons e es => by
    have ih1 := cut_kE e
    have ih2 := cut_kEs es
    intro p h
    simp only [kE, kEs, kIts, kS, kI, kB, cE, cEs, cIts, cS, cI, cT, cB] at *
    exact ⟨ih1 _ h.1, ih2 _ h.2⟩
theorem cut_kIts : ∀ (x : Its), ∀ p, cIts L x → cIts L (kIts O p x)
  | .nil => by
    intros
    simp only [kE, kEs, kIts, kS, kI, kB, cE, cEs, cIts, cS, cI, cT, cB]
  | .pos e its => by
    have ih1 := cut_kE e
    have ih2 := cut_kIts its
    intro p h
    simp only [kE, kEs, kIts, kS, kI, kB, cE, cEs, cIts, cS, cI, cT, cB] at *
    exact ⟨ih1 _ h.1, ih2 _ h.2⟩
  | .named x e its => by
    have ih1 := cut_kE e
    have ih2 := cut_kIts its
    intro p h
    simp only [kE, kEs, kIts, kS, kI, kB, cE, cEs, cIts, cS, cI, cT, cB] at *
    exact ⟨ih1 _ h.1, ih2 _ h.2⟩
  | .keyed k e its => by
    have ih1 := cut_kE k
    have ih2 := cut_kE e
    have ih3 := cut_kIts its
    intro p h
    simp only [kE, kEs, kIts, kS, kI, kB, cE, cEs, cIts, cS, cI, cT, cB] at *
    exact ⟨ih1 _ h.1, ih2 _ h.2.1, ih3 _ h.2.2⟩
theorem cut_kS : ∀ (x : St), ∀ p, cS L x → cS L (kS O p x)
  | .do_ b => by
    have ih1 := cut_kB b
    intro p h
    simp only [kE, kEs, kIts, kS, kI, kB, cE, cEs, cIts, cS, cI, cT, cB] at *
    exact ih1 _ h
  | .if_ i => by
    have ih1 := cut_kI i
    intro p h
    simp only [kE, kEs, kIts, kS, kI, kB, cE, cEs, cIts, cS, cI, cT, cB] at *
    exact ih1 _ _ h
  | .while_ e b => by
    have ih1 := cut_kE e
    have ih2 := cut_kB b
    intro p h
    simp only [kE, kEs, kIts, kS, kI, kB, cE, cEs, cIts, cS, cI, cT, cB] at *
    split_ifs
    · simp only [cS, cE]; exact ⟨ih1 _ h.1, cB_fill (ih2 _ h.2)⟩
    · simp only [cS]; exact ⟨ih1 _ h.1, ih2 _ h.2⟩
  | .whileShort e b d => by
    have ih1 := cut_kE e
    have ih2 := cut_kB b
    intro p h
    simp only [kE, kEs, kIts, kS, kI, kB, cE, cEs, cIts, cS, cI, cT, cB] at *
    split_ifs <;> simp only [cS] <;> exact ⟨ih1 _ h.1, ih2 _ h.2⟩
  | .repeat_ b e => by
    have ih1 := cut_kB b
    have ih2 := cut_kE e
    intro p h
    simp only [kE, kEs, kIts, kS, kI, kB, cE, cEs, cIts, cS, cI, cT, cB] at *
    exact ⟨ih1 _ h.1, ih2 _ h.2⟩
  | .fornum x a b s d => by
    have ih1 := cut_kE a
    have ih2 := cut_kE b
    have ih3 := cut_kEs s
    have ih4 := cut_kB d
    intro p h
    simp only [kE, kEs, kIts, kS, kI, kB, cE, cEs, cIts, cS, cI, cT, cB] at *
    exact ⟨ih1 _ h.1, ih2 _ h.2.1, ih3 _ h.2.2.1, ih4 _ h.2.2.2⟩
  | .forin xs es d => by
    have ih1 := cut_kEs es
    have ih2 := cut_kB d
    intro p h
    simp only [kE, kEs, kIts, kS, kI, kB, cE, cEs, cIts, cS, cI, cT, cB] at *
    exact ⟨ih1 _ h.1, ih2 _ h.2.1, by rw [len_k, cutLast_k]; exact h.2.2⟩
  | .break_ => by
    intros
    simp only [kE, kEs, kIts, kS, kI, kB, cE, cEs, cIts, cS, cI, cT, cB]
  | .return_ es => by
    have ih1 := cut_kEs es
    intro p h
    simp only [kE, kEs, kIts, kS, kI, kB, cE, cEs, cIts, cS, cI, cT, cB] at *
    exact ih1 _ h
  | .local_ xs es => by
    have ih1 := cut_kEs es
    intro p h
    simp only [kE, kEs, kIts, kS, kI, kB, cE, cEs, cIts, cS, cI, cT, cB] at *
    exact ih1 _ h
  | .localfn x ps b => by
    have ih1 := cut_kB b
    intro p h
    simp only [kE, kEs, kIts, kS, kI, kB, cE, cEs, cIts, cS, cI, cT, cB] at *
    exact ih1 _ h
  | .goto_ x => by
    intros
    simp only [kE, kEs, kIts, kS, kI, kB, cE, cEs, cIts, cS, cI, cT, cB]
  | .label x => by
    intros
    simp only [kE, kEs, kIts, kS, kI, kB, cE, cEs, cIts, cS, cI, cT, cB]
  | .func f ps b => by
    have ih1 := cut_kB b
    intro p h
    simp only [kE, kEs, kIts, kS, kI, kB, cE, cEs, cIts, cS, cI, cT, cB] at *
    exact ih1 _ h
  | .assign ts es => by
    have ih1 := cut_kEs ts
    have ih2 := cut_kEs es
    intro p h
    simp only [kE, kEs, kIts, kS, kI, kB, cE, cEs, cIts, cS, cI, cT, cB] at *
    exact ⟨ih1 _ h.1, ih2 _ h.2⟩
  | .opassign o t e => by
    have ih1 := cut_kE t
    have ih2 := cut_kE e
    intro p h
    simp only [kE, kEs, kIts, kS, kI, kB, cE, cEs, cIts, cS, cI, cT, cB] at *
    exact ⟨ih1 _ h.1, ih2 _ h.2⟩
  | .call e => by
    have ih1 := cut_kE e
    intro p h
    simp only [kE, kEs, kIts, kS, kI, kB, cE, cEs, cIts, cS, cI, cT, cB] at *
    split_ifs <;> simp only [cS]
    · exact cEs_args (ih1 _ h)
    · exact ih1 _ h
  | .print es => by
    have ih1 := cut_kEs es
    intro p h
    simp only [kE, kEs, kIts, kS, kI, kB, cE, cEs, cIts, cS, cI, cT, cB] at *
    exact ih1 _ h
theorem cut_kI : ∀ (x : If), ∀ can p, cI L x → cI L (kI O can p x)
  | .long e b .end_ => by
    have ih1 := cut_kE e
    have ih2 := cut_kB b
    intro can p h
    simp only [kE, kEs, kIts, kS, kI, kB, cE, cEs, cIts, cS, cI, cT, cB] at *
    split_ifs
    · simp only [cI, cE]; exact ⟨ih1 _ h.1, cB_fill (ih2 _ h.2.1)⟩
    · simp only [cI, cT]; exact ⟨ih1 _ h.1, ih2 _ h.2.1, trivial⟩
  | .long e b (.else_ b') => by
    have ih1 := cut_kE e
    have ih2 := cut_kB b
    have ih3 := cut_kB b'
    intro can p h
    simp only [kE, kEs, kIts, kS, kI, kB, cE, cEs, cIts, cS, cI, cT, cB] at *
    split_ifs
    · simp only [cI, cE]; exact ⟨ih1 _ h.1, cB_fill (ih2 _ h.2.1), cB_fill (ih3 _ h.2.2)⟩
    · simp only [cI, cT]; exact ⟨ih1 _ h.1, ih2 _ h.2.1, ih3 _ h.2.2⟩
  | .long e b (.elseif_ i) => by
    have ih1 := cut_kE e
    have ih2 := cut_kB b
    have ih3 := cut_kI i
    intro can p h
    simp only [kE, kEs, kIts, kS, kI, kB, cE, cEs, cIts, cS, cI, cT, cB] at *
    exact ⟨ih1 _ h.1, ih2 _ h.2.1, ih3 _ _ h.2.2⟩
  | .short e b d => by
    have ih1 := cut_kE e
    have ih2 := cut_kB b
    intro can p h
    simp only [kE, kEs, kIts, kS, kI, kB, cE, cEs, cIts, cS, cI, cT, cB] at *
    split_ifs <;> simp only [cI, cT]
    · exact ⟨ih1 _ h.1, ih2 _ h.2, trivial⟩
    · exact ⟨ih1 _ h.1, ih2 _ h.2⟩
  | .shortElse e b b' d => by
    have ih1 := cut_kE e
    have ih2 := cut_kB b
    have ih3 := cut_kB b'
    intro can p h
    simp only [kE, kEs, kIts, kS, kI, kB, cE, cEs, cIts, cS, cI, cT, cB] at *
    split_ifs <;> simp only [cI, cT] <;> exact ⟨ih1 _ h.1, ih2 _ h.2.1, ih3 _ h.2.2⟩
theorem cut_kB : ∀ (x : Block), ∀ p, cB L x → cB L (kB O p x)
  | .nil => by
    intros
    simp only [kE, kEs, kIts, kS, kI, kB, cE, cEs, cIts, cS, cI, cT, cB]
  | .semi b => by
    have ih1 := cut_kB b
    intro p h
    simp only [kE, kEs, kIts, kS, kI, kB, cE, cEs, cIts, cS, cI, cT, cB] at *
    exact ih1 _ h
  | .cons s .nil => by
    have ih1 := cut_kS s
    intro p h
    simp only [kE, kEs, kIts, kS, kI, kB, cE, cEs, cIts, cS, cI, cT, cB] at *
    exact ⟨ih1 _ h.1, trivial⟩
  | .cons s (.semi b) => by
    have ih1 := cut_kS s
    have ih2 := cut_kB (.semi b)
    intro p h
    rw [show kB O p (.cons s (.semi b)) = .cons (kS O p.mid s) (kB O p (.semi b)) from rfl]
    rw [cB] at *
    exact ⟨ih1 _ h.1, ih2 _ h.2⟩
  | .cons s (.cons r b) => by
    have ih1 := cut_kS s
    have ih2 := cut_kB (.cons r b)
    intro p h
    rw [show kB O p (.cons s (.cons r b)) = .cons (kS O p.mid s) (kB O p (.cons r b)) from rfl]
    rw [cB] at *
    exact ⟨ih1 _ h.1, ih2 _ h.2⟩
end

/-! ### What it means -/

variable (V : Lit)

theorem u_sign (o : Op) (e : Ex) : uE (sign V o e) = sign V o (uE e) := by
  cases e <;> simp only [sign, uE]
  split <;> simp only [uE]

theorem n_semis : ∀ {b : Block}, semis b = true → nB L V b = .nil
  | .nil, _ => rfl
  | .semi b, h => by rw [nB]; rw [semis] at h; exact n_semis h
  | .cons _ _, h => by simp [semis] at h

theorem n_fill {b b' : Block} (h : uB (nB L V b') = uB (nB L V b)) : uB (nB L V (fill b b')) = uB (nB L V b) := by
  unfold fill
  split_ifs with h1 h2
  · cases b <;> simp_all [isNil, nB]
  · rw [n_semis L V h2]; rfl
  · exact h

mutual
theorem norm_kE : ∀ (x : Ex), ∀ p all, uE (nE L V all (kE O p x)) = uE (nE L V all x)
  | .var x => by
    intros
    simp only [kE, kEs, kIts, kS, kI, kB]
  | .num x => by
    intros
    simp only [kE, kEs, kIts, kS, kI, kB]
  | .str x => by
    intros
    simp only [kE, kEs, kIts, kS, kI, kB]
  | .cst x => by
    intros
    simp only [kE, kEs, kIts, kS, kI, kB]
  | .vararg => by
    intros
    simp only [kE, kEs, kIts, kS, kI, kB]
  | .func ps b => by
    have ih1 := norm_kB b
    intro p all
    simp only [kE, kEs, kIts, kS, kI, kB, nE, nEs, nIts, nS, nI, nT, nB, uE, uEs, uIts, uS, uI, uT, uB]
    rw [ih1]
  | .group e => by
    have ih1 := norm_kE e
    intro p all
    simp only [kE, kEs, kIts, kS, kI, kB, nE, nEs, nIts, nS, nI, nT, nB, uE, uEs, uIts, uS, uI, uT, uB]
    rw [multi_k]
    split
    · rw [uE, uE, ih1]
    · exact ih1 _ _
  | .un o e => by
    have ih1 := norm_kE e
    intro p all
    simp only [kE, kEs, kIts, kS, kI, kB, nE, nEs, nIts, nS, nI, nT, nB, uE, uEs, uIts, uS, uI, uT, uB]
    rw [u_sign, u_sign, ih1]
  | .bin o l r => by
    have ih1 := norm_kE l
    have ih2 := norm_kE r
    intro p all
    simp only [kE, kEs, kIts, kS, kI, kB, nE, nEs, nIts, nS, nI, nT, nB, uE, uEs, uIts, uS, uI, uT, uB]
    rw [ih1, ih2]
  | .member b x => by
    have ih1 := norm_kE b
    intro p all
    simp only [kE, kEs, kIts, kS, kI, kB, nE, nEs, nIts, nS, nI, nT, nB, uE, uEs, uIts, uS, uI, uT, uB]
    rw [ih1]
  | .index b k => by
    have ih1 := norm_kE b
    have ih2 := norm_kE k
    intro p all
    simp only [kE, kEs, kIts, kS, kI, kB, nE, nEs, nIts, nS, nI, nT, nB, uE, uEs, uIts, uS, uI, uT, uB]
    rw [ih1, ih2]
  | .call b t as => by
    have ih1 := norm_kE b
    have ih2 := norm_kEs as
    intro p all
    simp only [kE, kEs, kIts, kS, kI, kB, nE, nEs, nIts, nS, nI, nT, nB, uE, uEs, uIts, uS, uI, uT, uB]
    rw [ih1, ih2]
  | .method b x t as => by
    have ih1 := norm_kE b
    have ih2 := norm_kEs as
    intro p all
    simp only [kE, kEs, kIts, kS, kI, kB, nE, nEs, nIts, nS, nI, nT, nB, uE, uEs, uIts, uS, uI, uT, uB]
    rw [ih1, ih2]
  | .table its => by
    have ih1 := norm_kIts its
    intro p all
    simp only [kE, kEs, kIts, kS, kI, kB, nE, nEs, nIts, nS, nI, nT, nB, uE, uEs, uIts, uS, uI, uT, uB]
    rw [ih1]
theorem norm_kEs : ∀ (x : Exs), ∀ p all, uEs (nEs L V all (kEs O p x)) = uEs (nEs L V all x)
  | .nil => by
    intros
    simp only [kE, kEs, kIts, kS, kI, kB]
  | .cons e .nil => by
    have ih1 := norm_kE e
    intro p all
    simp only [kE, kEs, kIts, kS, kI, kB, nE, nEs, nIts, nS, nI, nT, nB, uE, uEs, uIts, uS, uI, uT, uB]
    rw [ih1]
  | .cons e (.cons f es) => by
    have ih1 := norm_kE e
    have ih2 := norm_kEs (.cons f es)
    intro p all
    have e1 : nEs L V all (kEs O p (.cons e (.cons f es))) = .cons (nE L V false (kE O p e)) (nEs L V all (kEs O p (.cons f es))) := by simp [kEs, nEs]
    have e2 : nEs L V all (.cons e (.cons f es)) = .cons (nE L V false e) (nEs L V all (.cons f es)) := by simp [nEs]
    rw [e1, e2, uEs, uEs, ih1, ih2]
theorem norm_kIts : ∀ (x : Its), ∀ p, uIts (nIts L V (kIts O p x)) = uIts (nIts L V x)
  | .nil => by
    intros
    simp only [kE, kEs, kIts, kS, kI, kB]
  | .pos e .nil => by
    have ih1 := norm_kE e
    intro p
    simp only [kE, kEs, kIts, kS, kI, kB, nE, nEs, nIts, nS, nI, nT, nB, uE, uEs, uIts, uS, uI, uT, uB]
    rw [ih1]
  | .pos e (.pos f its) => by
    have ih1 := norm_kE e
    have ih2 := norm_kIts (.pos f its)
    intro p
    have e1 : nIts L V (kIts O p (.pos e (.pos f its))) = .pos (nE L V false (kE O p e)) (nIts L V (kIts O p (.pos f its))) := by simp [kIts, nIts]
    have e2 : nIts L V (.pos e (.pos f its)) = .pos (nE L V false e) (nIts L V (.pos f its)) := by simp [nIts]
    rw [e1, e2, uIts, uIts, ih1, ih2]
  | .pos e (.named y f its) => by
    have ih1 := norm_kE e
    have ih2 := norm_kIts (.named y f its)
    intro p
    have e1 : nIts L V (kIts O p (.pos e (.named y f its))) = .pos (nE L V false (kE O p e)) (nIts L V (kIts O p (.named y f its))) := by simp [kIts, nIts]
    have e2 : nIts L V (.pos e (.named y f its)) = .pos (nE L V false e) (nIts L V (.named y f its)) := by simp [nIts]
    rw [e1, e2, uIts, uIts, ih1, ih2]
  | .pos e (.keyed k f its) => by
    have ih1 := norm_kE e
    have ih2 := norm_kIts (.keyed k f its)
    intro p
    have e1 : nIts L V (kIts O p (.pos e (.keyed k f its))) = .pos (nE L V false (kE O p e)) (nIts L V (kIts O p (.keyed k f its))) := by simp [kIts, nIts]
    have e2 : nIts L V (.pos e (.keyed k f its)) = .pos (nE L V false e) (nIts L V (.keyed k f its)) := by simp [nIts]
    rw [e1, e2, uIts, uIts, ih1, ih2]
  | .named x e its => by
    have ih1 := norm_kE e
    have ih2 := norm_kIts its
    intro p
    simp only [kE, kEs, kIts, kS, kI, kB, nE, nEs, nIts, nS, nI, nT, nB, uE, uEs, uIts, uS, uI, uT, uB]
    rw [ih1, ih2]
  | .keyed k e its => by
    have ih1 := norm_kE k
    have ih2 := norm_kE e
    have ih3 := norm_kIts its
    intro p
    simp only [kE, kEs, kIts, kS, kI, kB, nE, nEs, nIts, nS, nI, nT, nB, uE, uEs, uIts, uS, uI, uT, uB]
    rw [ih1, ih2, ih3]
theorem norm_kS : ∀ (x : St), ∀ p, uS (nS L V (kS O p x)) = uS (nS L V x)
  | .do_ b => by
    have ih1 := norm_kB b
    intro p
    simp only [kE, kEs, kIts, kS, kI, kB, nE, nEs, nIts, nS, nI, nT, nB, uE, uEs, uIts, uS, uI, uT, uB]
    rw [ih1]
  | .if_ i => by
    have ih1 := norm_kI i
    intro p
    simp only [kE, kEs, kIts, kS, kI, kB, nE, nEs, nIts, nS, nI, nT, nB, uE, uEs, uIts, uS, uI, uT, uB]
    rw [ih1]
  | .while_ e b => by
    have ih1 := norm_kE e
    have ih2 := norm_kB b
    intro p
    simp only [kE, kEs, kIts, kS, kI, kB, nE, nEs, nIts, nS, nI, nT, nB, uE, uEs, uIts, uS, uI, uT, uB]
    split_ifs <;> simp only [nE, nEs, nIts, nS, nI, nT, nB, uE, uEs, uIts, uS, uI, uT, uB]
    · rw [n_fill _ _ (ih2 _)]; simp [ih1]
    · rw [ih1, ih2]
  | .whileShort e b d => by
    have ih1 := norm_kE e
    have ih2 := norm_kB b
    intro p
    simp only [kE, kEs, kIts, kS, kI, kB, nE, nEs, nIts, nS, nI, nT, nB, uE, uEs, uIts, uS, uI, uT, uB]
    split_ifs <;> simp only [nE, nEs, nIts, nS, nI, nT, nB, uE, uEs, uIts, uS, uI, uT, uB] <;> rw [ih1, ih2]
  | .repeat_ b e => by
    have ih1 := norm_kB b
    have ih2 := norm_kE e
    intro p
    simp only [kE, kEs, kIts, kS, kI, kB, nE, nEs, nIts, nS, nI, nT, nB, uE, uEs, uIts, uS, uI, uT, uB]
    rw [ih1, ih2]
  | .fornum x a b s d => by
    have ih1 := norm_kE a
    have ih2 := norm_kE b
    have ih3 := norm_kEs s
    have ih4 := norm_kB d
    intro p
    simp only [kE, kEs, kIts, kS, kI, kB, nE, nEs, nIts, nS, nI, nT, nB, uE, uEs, uIts, uS, uI, uT, uB]
    rw [ih1, ih2, ih3, ih4]
  | .forin xs es d => by
    have ih1 := norm_kEs es
    have ih2 := norm_kB d
    intro p
    simp only [kE, kEs, kIts, kS, kI, kB, nE, nEs, nIts, nS, nI, nT, nB, uE, uEs, uIts, uS, uI, uT, uB]
    rw [len_k, ih1, ih2]
  | .break_ => by
    intros
    simp only [kE, kEs, kIts, kS, kI, kB]
  | .return_ es => by
    have ih1 := norm_kEs es
    intro p
    simp only [kE, kEs, kIts, kS, kI, kB, nE, nEs, nIts, nS, nI, nT, nB, uE, uEs, uIts, uS, uI, uT, uB]
    rw [ih1]
  | .local_ xs es => by
    have ih1 := norm_kEs es
    intro p
    simp only [kE, kEs, kIts, kS, kI, kB, nE, nEs, nIts, nS, nI, nT, nB, uE, uEs, uIts, uS, uI, uT, uB]
    rw [len_k, ih1]
  | .localfn x ps b => by
    have ih1 := norm_kB b
    intro p
    simp only [kE, kEs, kIts, kS, kI, kB, nE, nEs, nIts, nS, nI, nT, nB, uE, uEs, uIts, uS, uI, uT, uB]
    rw [ih1]
  | .goto_ x => by
    intros
    simp only [kE, kEs, kIts, kS, kI, kB]
  | .label x => by
    intros
    simp only [kE, kEs, kIts, kS, kI, kB]
  | .func f ps b => by
    have ih1 := norm_kB b
    intro p
    simp only [kE, kEs, kIts, kS, kI, kB, nE, nEs, nIts, nS, nI, nT, nB, uE, uEs, uIts, uS, uI, uT, uB]
    rw [ih1]
  | .assign ts es => by
    have ih1 := norm_kEs ts
    have ih2 := norm_kEs es
    intro p
    simp only [kE, kEs, kIts, kS, kI, kB, nE, nEs, nIts, nS, nI, nT, nB, uE, uEs, uIts, uS, uI, uT, uB]
    rw [len_k, len_k, ih1, ih2]
  | .opassign o t e => by
    have ih1 := norm_kE t
    have ih2 := norm_kE e
    intro p
    simp only [kE, kEs, kIts, kS, kI, kB, nE, nEs, nIts, nS, nI, nT, nB, uE, uEs, uIts, uS, uI, uT, uB]
    rw [ih1, ih2]
  | .call e => by
    have ih1 := norm_kE e
    intro p
    simp only [kE, kEs, kIts, kS, kI, kB, nE, nEs, nIts, nS, nI, nT, nB, uE, uEs, uIts, uS, uI, uT, uB]
    split_ifs with hm
    · obtain ⟨t, as, rfl⟩ := isPrint_iff.1 (may_print _ ((Bool.and_eq_true _ _).mp hm).2).1
      have := ih1 p.mid false
      simp only [kE, kEs, kIts, kS, kI, kB, nE, nEs, nIts, nS, nI, nT, nB, uE, uEs, uIts, uS, uI, uT, uB] at this
      simp only [kE, argsOf, nE, nEs, nIts, nS, nI, nT, nB, uE, uEs, uIts, uS, uI, uT, uB]
      rw [this]
    · simp only [nE, nEs, nIts, nS, nI, nT, nB, uE, uEs, uIts, uS, uI, uT, uB]; rw [ih1]
  | .print es => by
    have ih1 := norm_kEs es
    intro p
    simp only [kE, kEs, kIts, kS, kI, kB, nE, nEs, nIts, nS, nI, nT, nB, uE, uEs, uIts, uS, uI, uT, uB]
    rw [ih1]
theorem norm_kI : ∀ (x : If), ∀ can p, uI (nI L V (kI O can p x)) = uI (nI L V x)
  | .long e b .end_ => by
    have ih1 := norm_kE e
    have ih2 := norm_kB b
    intro can p
    simp only [kE, kEs, kIts, kS, kI, kB, nE, nEs, nIts, nS, nI, nT, nB, uE, uEs, uIts, uS, uI, uT, uB]
    split_ifs <;> simp only [nE, nEs, nIts, nS, nI, nT, nB, uE, uEs, uIts, uS, uI, uT, uB]
    · rw [n_fill _ _ (ih2 _)]; simp [ih1]
    · rw [ih1, ih2]
  | .long e b (.else_ b') => by
    have ih1 := norm_kE e
    have ih2 := norm_kB b
    have ih3 := norm_kB b'
    intro can p
    simp only [kE, kEs, kIts, kS, kI, kB, nE, nEs, nIts, nS, nI, nT, nB, uE, uEs, uIts, uS, uI, uT, uB]
    split_ifs <;> simp only [nE, nEs, nIts, nS, nI, nT, nB, uE, uEs, uIts, uS, uI, uT, uB]
    · rw [n_fill _ _ (ih2 _), n_fill _ _ (ih3 _)]; simp [ih1]
    · rw [ih1, ih2, ih3]
  | .long e b (.elseif_ i) => by
    have ih1 := norm_kE e
    have ih2 := norm_kB b
    have ih3 := norm_kI i
    intro can p
    simp only [kE, kEs, kIts, kS, kI, kB, nE, nEs, nIts, nS, nI, nT, nB, uE, uEs, uIts, uS, uI, uT, uB]
    rw [ih1, ih2, ih3]
  | .short e b d => by
    have ih1 := norm_kE e
    have ih2 := norm_kB b
    intro can p
    simp only [kE, kEs, kIts, kS, kI, kB, nE, nEs, nIts, nS, nI, nT, nB, uE, uEs, uIts, uS, uI, uT, uB]
    split_ifs <;> simp only [nE, nEs, nIts, nS, nI, nT, nB, uE, uEs, uIts, uS, uI, uT, uB] <;> rw [ih1, ih2]
  | .shortElse e b b' d => by
    have ih1 := norm_kE e
    have ih2 := norm_kB b
    have ih3 := norm_kB b'
    intro can p
    simp only [kE, kEs, kIts, kS, kI, kB, nE, nEs, nIts, nS, nI, nT, nB, uE, uEs, uIts, uS, uI, uT, uB]
    split_ifs <;> simp only [nE, nEs, nIts, nS, nI, nT, nB, uE, uEs, uIts, uS, uI, uT, uB] <;> rw [ih1, ih2, ih3]
theorem norm_kB : ∀ (x : Block), ∀ p, uB (nB L V (kB O p x)) = uB (nB L V x)
  | .nil => by
    intros
    simp only [kE, kEs, kIts, kS, kI, kB]
  | .semi b => by
    have ih1 := norm_kB b
    intro p
    simp only [kE, kEs, kIts, kS, kI, kB, nE, nEs, nIts, nS, nI, nT, nB, uE, uEs, uIts, uS, uI, uT, uB]
    exact ih1 _
  | .cons s .nil => by
    have ih1 := norm_kS s
    intro p
    simp only [kE, kEs, kIts, kS, kI, kB, nE, nEs, nIts, nS, nI, nT, nB, uE, uEs, uIts, uS, uI, uT, uB]
    rw [ih1]
  | .cons s (.semi b) => by
    have ih1 := norm_kS s
    have ih2 := norm_kB (.semi b)
    intro p
    rw [show kB O p (.cons s (.semi b)) = .cons (kS O p.mid s) (kB O p (.semi b)) from rfl]
    rw [nB, nB, uB, uB, ih1, ih2]
  | .cons s (.cons r b) => by
    have ih1 := norm_kS s
    have ih2 := norm_kB (.cons r b)
    intro p
    rw [show kB O p (.cons s (.cons r b)) = .cons (kS O p.mid s) (kB O p (.cons r b)) from rfl]
    rw [nB, nB, uB, uB, ih1, ih2]
end

/-! ### Making shorthands first -/

variable (C : Cfg)

theorem isVararg_k (p : Pc) (e : Ex) : isVararg (kE O p e) = isVararg e := by cases e <;> simp [kE, isVararg]
theorem isBase_k (p : Pc) (e : Ex) : isBase (kE O p e) = isBase e := by cases e <;> simp [kE, isBase]
theorem removeOperand_k (c : Ctx) (n : Nat) (p : Pc) (e : Ex) : removeOperand C c n (kE O p e) = removeOperand C c n e := by
  cases e <;> simp [kE, removeOperand, exPrec]
theorem removes_k (c : Ctx) (p : Pc) (e : Ex) : removes C c (kE O p e) = removes C c e := by
  unfold removes
  simp only [removeOperand_k, isVararg_k, isBase_k]
theorem lastCtx_k (n : Nat) (p : Pc) (es : Exs) : lastCtx n (kEs O p es) = lastCtx n es := by
  rw [lastCtx, lastCtx, len_eq, len_eq, len_k]
theorem lenEs_k (p : Pc) (es : Exs) : lenEs (kEs O p es) = lenEs es := by rw [len_eq, len_eq, len_k]
theorem nextLp_k (nx : Bool) (p : Pc) (b : Block) : nextLp nx (kB O p b) = nextLp nx b := by
  have := leadB_k O p b
  rcases b with _ | b | ⟨s, _ | _ | _⟩ <;> simp only [kB, nextLp] at * <;> exact this
theorem keep_group (e : Ex) : mE C .keep (.group e) = .group (mE C .single e) := by
  rw [mE]; rfl

theorem lead_semis : ∀ {b : Block}, semis b = true → nextLp false b = false
  | .nil, _ => rfl
  | .semi _, _ => rfl
  | .cons _ _, h => by simp [semis] at h

theorem w_semis (p : Pc) : ∀ {b : Block}, semis b = true → wB O C p false false b = .nil
  | .nil, _ => rfl
  | .semi b, h => by
    rw [semis] at h
    rw [wB, lead_semis h]
    exact w_semis p h
  | .cons _ _, h => by simp [semis] at h

/-- The block of a made shorthand. -/
theorem w_fill {p : Pc} {b : Block} (h : mB C false false (kB O p b) = wB O C p false false b) :
    mB C false (semis (fill b (kB O p b))) (fill b (kB O p b)) = orSemi b (wB O C p false false b) := by
  unfold fill orSemi
  split_ifs with h1 h2
  · rfl
  · rw [w_semis O C p h2]; rfl
  · rw [semis_k]; rw [Bool.not_eq_true] at h2; rw [h2]; exact h

theorem args_w (p : Pc) (b : Ex) (t : Bool) (as : Exs) : argsOf (wE O C p .keep (.call b t as)) = wEs O C p .last as := by rw [wE, argsOf]

variable {O L}
mutual
theorem mini_kE : ∀ (x : Ex), ∀ p sh c, aptE O L p sh x → mE C c (kE O p x) = wE O C p c x
  | .var x => by
    intros
    rfl
  | .num x => by
    intros
    rfl
  | .str x => by
    intros
    rfl
  | .cst x => by
    intros
    rfl
  | .vararg => by
    intros
    rfl
  | .func ps b => by
    have ih1 := mini_kB b
    intro p sh c ha
    simp only [kE, kEs, kIts, kS, kI, wE, wEs, wTs, wIts, wS, wI, mE, mEs, mTs, mIts, mS, mI, mT, aptE, aptEs, aptIts, aptS, aptI] at *
    rw [ih1 _ _ _ ha (fun _ => rfl)]
  | .group e => by
    have ih1 := mini_kE e
    intro p sh c ha
    simp only [kE, kEs, kIts, kS, kI, wE, wEs, wTs, wIts, wS, wI, mE, mEs, mTs, mIts, mS, mI, mT, aptE, aptEs, aptIts, aptS, aptI] at *
    rw [removes_k, ih1 _ _ _ ha, ih1 _ _ _ ha]
  | .un o e => by
    have ih1 := mini_kE e
    intro p sh c ha
    simp only [kE, kEs, kIts, kS, kI, wE, wEs, wTs, wIts, wS, wI, mE, mEs, mTs, mIts, mS, mI, mT, aptE, aptEs, aptIts, aptS, aptI] at *
    rw [ih1 _ _ _ ha]
  | .bin o l r => by
    have ih1 := mini_kE l
    have ih2 := mini_kE r
    intro p sh c ha
    simp only [kE, kEs, kIts, kS, kI, wE, wEs, wTs, wIts, wS, wI, mE, mEs, mTs, mIts, mS, mI, mT, aptE, aptEs, aptIts, aptS, aptI] at *
    rw [ih1 _ _ _ ha.1, ih2 _ _ _ ha.2]
  | .member b x => by
    have ih1 := mini_kE b
    intro p sh c ha
    simp only [kE, kEs, kIts, kS, kI, wE, wEs, wTs, wIts, wS, wI, mE, mEs, mTs, mIts, mS, mI, mT, aptE, aptEs, aptIts, aptS, aptI] at *
    rw [ih1 _ _ _ ha]
  | .index b k => by
    have ih1 := mini_kE b
    have ih2 := mini_kE k
    intro p sh c ha
    simp only [kE, kEs, kIts, kS, kI, wE, wEs, wTs, wIts, wS, wI, mE, mEs, mTs, mIts, mS, mI, mT, aptE, aptEs, aptIts, aptS, aptI] at *
    rw [ih1 _ _ _ ha.1, ih2 _ _ _ ha.2]
  | .call b t as => by
    have ih1 := mini_kE b
    have ih2 := mini_kEs as
    intro p sh c ha
    simp only [kE, kEs, kIts, kS, kI, wE, wEs, wTs, wIts, wS, wI, mE, mEs, mTs, mIts, mS, mI, mT, aptE, aptEs, aptIts, aptS, aptI] at *
    rw [bareArg_k, ih1 _ _ _ ha.1, (ih2 _ _ ha.2).1]
  | .method b x t as => by
    have ih1 := mini_kE b
    have ih2 := mini_kEs as
    intro p sh c ha
    simp only [kE, kEs, kIts, kS, kI, wE, wEs, wTs, wIts, wS, wI, mE, mEs, mTs, mIts, mS, mI, mT, aptE, aptEs, aptIts, aptS, aptI] at *
    rw [ih1 _ _ _ ha.1, (ih2 _ _ ha.2).1]
  | .table its => by
    have ih1 := mini_kIts its
    intro p sh c ha
    simp only [kE, kEs, kIts, kS, kI, wE, wEs, wTs, wIts, wS, wI, mE, mEs, mTs, mIts, mS, mI, mT, aptE, aptEs, aptIts, aptS, aptI] at *
    rw [ih1 _ _ ha]
theorem mini_kEs : ∀ (x : Exs), ∀ p sh, aptEs O L p sh x → (∀ c, mEs C c (kEs O p x) = wEs O C p c x) ∧ mTs C (kEs O p x) = wTs O C p x
  | .nil => by
    intro p sh ha
    exact ⟨fun c => rfl, rfl⟩
  | .cons e .nil => by
    have ih1 := mini_kE e
    intro p sh ha
    simp only [kE, kEs, kIts, kS, kI, wE, wEs, wTs, wIts, wS, wI, mE, mEs, mTs, mIts, mS, mI, mT, aptE, aptEs, aptIts, aptS, aptI] at *
    rw [ih1 _ _ _ ha.1]
    exact ⟨fun c => by rw [ih1 _ _ _ ha.1], rfl⟩
  | .cons e (.cons f es) => by
    have ih1 := mini_kE e
    have ih2 := mini_kEs (.cons f es)
    intro p sh ha
    rw [aptEs] at ha
    have h2 := ih2 _ _ ha.2
    constructor
    · intro c
      have e1 : mEs C c (kEs O p (.cons e (.cons f es))) = .cons (mE C .single (kE O p e)) (mEs C c (kEs O p (.cons f es))) := by
        simp [kEs, mEs]
      rw [e1, h2.1, ih1 _ _ _ ha.1]
      rfl
    · rw [kEs, mTs, wTs, h2.2, ih1 _ _ _ ha.1]
theorem mini_kIts : ∀ (x : Its), ∀ p sh, aptIts O L p sh x → mIts C (kIts O p x) = wIts O C p x
  | .nil => by
    intro p sh ha
    rfl
  | .pos e .nil => by
    have ih1 := mini_kE e
    intro p sh ha
    simp only [kE, kEs, kIts, kS, kI, wE, wEs, wTs, wIts, wS, wI, mE, mEs, mTs, mIts, mS, mI, mT, aptE, aptEs, aptIts, aptS, aptI] at *
    rw [ih1 _ _ _ ha.1]
  | .pos e (.pos f its) => by
    have ih1 := mini_kE e
    have ih2 := mini_kIts (.pos f its)
    intro p sh ha
    rw [aptIts] at ha
    have e1 : mIts C (kIts O p (.pos e (.pos f its))) = .pos (mE C .single (kE O p e)) (mIts C (kIts O p (.pos f its))) := by simp [kIts, mIts]
    rw [e1, ih2 _ _ ha.2, ih1 _ _ _ ha.1]
    rfl
  | .pos e (.named y f its) => by
    have ih1 := mini_kE e
    have ih2 := mini_kIts (.named y f its)
    intro p sh ha
    rw [aptIts] at ha
    have e1 : mIts C (kIts O p (.pos e (.named y f its))) = .pos (mE C .single (kE O p e)) (mIts C (kIts O p (.named y f its))) := by simp [kIts, mIts]
    rw [e1, ih2 _ _ ha.2, ih1 _ _ _ ha.1]
    rfl
  | .pos e (.keyed k f its) => by
    have ih1 := mini_kE e
    have ih2 := mini_kIts (.keyed k f its)
    intro p sh ha
    rw [aptIts] at ha
    have e1 : mIts C (kIts O p (.pos e (.keyed k f its))) = .pos (mE C .single (kE O p e)) (mIts C (kIts O p (.keyed k f its))) := by simp [kIts, mIts]
    rw [e1, ih2 _ _ ha.2, ih1 _ _ _ ha.1]
    rfl
  | .named x e its => by
    have ih1 := mini_kE e
    have ih2 := mini_kIts its
    intro p sh ha
    simp only [kE, kEs, kIts, kS, kI, wE, wEs, wTs, wIts, wS, wI, mE, mEs, mTs, mIts, mS, mI, mT, aptE, aptEs, aptIts, aptS, aptI] at *
    rw [ih1 _ _ _ ha.1, ih2 _ _ ha.2]
  | .keyed k e its => by
    have ih1 := mini_kE k
    have ih2 := mini_kE e
    have ih3 := mini_kIts its
    intro p sh ha
    simp only [kE, kEs, kIts, kS, kI, wE, wEs, wTs, wIts, wS, wI, mE, mEs, mTs, mIts, mS, mI, mT, aptE, aptEs, aptIts, aptS, aptI] at *
    rw [ih1 _ _ _ ha.1, ih2 _ _ _ ha.2.1, ih3 _ _ ha.2.2]
theorem mini_kS : ∀ (x : St), ∀ p sh nx, aptS O L p sh x → (newS O p x = true → nx = false) → mS C nx (kS O p x) = wS O C p nx x
  | .do_ b => by
    have ih1 := mini_kB b
    intro p sh nx ha hn
    simp only [kE, kEs, kIts, kS, kI, wE, wEs, wTs, wIts, wS, wI, mE, mEs, mTs, mIts, mS, mI, mT, aptE, aptEs, aptIts, aptS, aptI] at *
    rw [ih1 _ _ _ ha (fun _ => rfl)]
  | .if_ i => by
    have ih1 := mini_kI i
    intro p sh nx ha hn
    simp only [kE, kEs, kIts, kS, kI, wE, wEs, wTs, wIts, wS, wI, mE, mEs, mTs, mIts, mS, mI, mT, aptE, aptEs, aptIts, aptS, aptI] at *
    rw [newS] at hn
    rw [ih1 _ _ _ _ ha hn]
  | .while_ e b => by
    have ih1 := mini_kE e
    have ih2 := mini_kB b
    intro p sh nx ha hn
    simp only [kE, kEs, kIts, kS, kI, wE, wEs, wTs, wIts, wS, wI, mE, mEs, mTs, mIts, mS, mI, mT, aptE, aptEs, aptIts, aptS, aptI] at *
    rw [newS] at hn
    split_ifs with hm
    · rw [mS, keep_group, hn hm, ih1 _ _ _ ha.1, w_fill O C (ih2 _ _ _ ha.2.1 (fun _ => rfl) _)]
    · rw [mS, ih1 _ _ _ ha.1, ih2 _ _ _ ha.2.1 (fun _ => rfl)]
  | .whileShort e b d => by
    have ih1 := mini_kE e
    have ih2 := mini_kB b
    intro p sh nx ha hn
    simp only [kE, kEs, kIts, kS, kI, wE, wEs, wTs, wIts, wS, wI, mE, mEs, mTs, mIts, mS, mI, mT, aptE, aptEs, aptIts, aptS, aptI] at *
    rw [newS] at hn
    split_ifs with hm
    · rw [mS, ih1 _ _ _ ha.1, ih2 _ _ _ ha.2.1 (fun _ => rfl)]
    · rw [mS, semis_k, ih1 _ _ _ ha.1, ih2 _ _ _ ha.2.1 (fun h => hn (by simp [hm, h]))]
  | .repeat_ b e => by
    have ih1 := mini_kB b
    have ih2 := mini_kE e
    intro p sh nx ha hn
    simp only [kE, kEs, kIts, kS, kI, wE, wEs, wTs, wIts, wS, wI, mE, mEs, mTs, mIts, mS, mI, mT, aptE, aptEs, aptIts, aptS, aptI] at *
    rw [ih1 _ _ _ ha.1 (fun _ => rfl), ih2 _ _ _ ha.2]
  | .fornum x a b s d => by
    have ih1 := mini_kE a
    have ih2 := mini_kE b
    have ih3 := mini_kEs s
    have ih4 := mini_kB d
    intro p sh nx ha hn
    simp only [kE, kEs, kIts, kS, kI, wE, wEs, wTs, wIts, wS, wI, mE, mEs, mTs, mIts, mS, mI, mT, aptE, aptEs, aptIts, aptS, aptI] at *
    rw [ih1 _ _ _ ha.1, ih2 _ _ _ ha.2.1, (ih3 _ _ ha.2.2.1).1, ih4 _ _ _ ha.2.2.2 (fun _ => rfl)]
  | .forin xs es d => by
    have ih1 := mini_kEs es
    have ih2 := mini_kB d
    intro p sh nx ha hn
    simp only [kE, kEs, kIts, kS, kI, wE, wEs, wTs, wIts, wS, wI, mE, mEs, mTs, mIts, mS, mI, mT, aptE, aptEs, aptIts, aptS, aptI] at *
    rw [lastCtx_k, (ih1 _ _ ha.1).1, ih2 _ _ _ ha.2 (fun _ => rfl)]
  | .break_ => by
    intros
    rfl
  | .return_ es => by
    have ih1 := mini_kEs es
    intro p sh nx ha hn
    simp only [kE, kEs, kIts, kS, kI, wE, wEs, wTs, wIts, wS, wI, mE, mEs, mTs, mIts, mS, mI, mT, aptE, aptEs, aptIts, aptS, aptI] at *
    rw [(ih1 _ _ ha).1]
  | .local_ xs es => by
    have ih1 := mini_kEs es
    intro p sh nx ha hn
    simp only [kE, kEs, kIts, kS, kI, wE, wEs, wTs, wIts, wS, wI, mE, mEs, mTs, mIts, mS, mI, mT, aptE, aptEs, aptIts, aptS, aptI] at *
    rw [lastCtx_k, (ih1 _ _ ha).1]
  | .localfn x ps b => by
    have ih1 := mini_kB b
    intro p sh nx ha hn
    simp only [kE, kEs, kIts, kS, kI, wE, wEs, wTs, wIts, wS, wI, mE, mEs, mTs, mIts, mS, mI, mT, aptE, aptEs, aptIts, aptS, aptI] at *
    rw [ih1 _ _ _ ha (fun _ => rfl)]
  | .goto_ x => by
    intros
    rfl
  | .label x => by
    intros
    rfl
  | .func f ps b => by
    have ih1 := mini_kB b
    intro p sh nx ha hn
    simp only [kE, kEs, kIts, kS, kI, wE, wEs, wTs, wIts, wS, wI, mE, mEs, mTs, mIts, mS, mI, mT, aptE, aptEs, aptIts, aptS, aptI] at *
    rw [ih1 _ _ _ ha (fun _ => rfl)]
  | .assign ts es => by
    have ih1 := mini_kEs ts
    have ih2 := mini_kEs es
    intro p sh nx ha hn
    simp only [kE, kEs, kIts, kS, kI, wE, wEs, wTs, wIts, wS, wI, mE, mEs, mTs, mIts, mS, mI, mT, aptE, aptEs, aptIts, aptS, aptI] at *
    rw [lenEs_k, lastCtx_k, (ih1 _ _ ha.1).2, (ih2 _ _ ha.2).1]
  | .opassign o t e => by
    have ih1 := mini_kE t
    have ih2 := mini_kE e
    intro p sh nx ha hn
    simp only [kE, kEs, kIts, kS, kI, wE, wEs, wTs, wIts, wS, wI, mE, mEs, mTs, mIts, mS, mI, mT, aptE, aptEs, aptIts, aptS, aptI] at *
    rw [ih1 _ _ _ ha.1, ih2 _ _ _ ha.2]
  | .call e => by
    have ih1 := mini_kE e
    intro p sh nx ha hn
    simp only [kE, kEs, kIts, kS, kI, wE, wEs, wTs, wIts, wS, wI, mE, mEs, mTs, mIts, mS, mI, mT, aptE, aptEs, aptIts, aptS, aptI] at *
    have h1 := ih1 _ _ .keep ha.1
    split_ifs with hm
    · obtain ⟨t, as, rfl⟩ := isPrint_iff.1 (may_print _ ((Bool.and_eq_true _ _).mp hm).2).1
      simp only [kE, mE, wE, argsOf, mS] at *
      injection h1 with _ _ h1
      rw [h1]
    · rw [mS, h1]
  | .print es => by
    have ih1 := mini_kEs es
    intro p sh nx ha hn
    simp only [kE, kEs, kIts, kS, kI, wE, wEs, wTs, wIts, wS, wI, mE, mEs, mTs, mIts, mS, mI, mT, aptE, aptEs, aptIts, aptS, aptI] at *
    rw [(ih1 _ _ ha).1]
theorem mini_kI : ∀ (x : If), ∀ can p sh nx, aptI O L can p sh x → (newI O can p x = true → nx = false) → mI C nx (kI O can p x) = wI O C can p nx x
  | .long e b .end_ => by
    have ih1 := mini_kE e
    have ih2 := mini_kB b
    intro can p sh nx ha hn
    simp only [kE, kEs, kIts, kS, kI, wE, wEs, wTs, wIts, wS, wI, mE, mEs, mTs, mIts, mS, mI, mT, aptE, aptEs, aptIts, aptS, aptI] at *
    rw [newI] at hn
    split_ifs with hm
    · rw [mI, keep_group, hn hm, ih1 _ _ _ ha.1, w_fill O C (ih2 _ _ _ ha.2.1 (fun _ => rfl) _)]
    · rw [mI, mT, ih1 _ _ _ ha.1, ih2 _ _ _ ha.2.1 (fun _ => rfl)]
  | .long e b (.else_ b') => by
    have ih1 := mini_kE e
    have ih2 := mini_kB b
    have ih3 := mini_kB b'
    intro can p sh nx ha hn
    simp only [kE, kEs, kIts, kS, kI, wE, wEs, wTs, wIts, wS, wI, mE, mEs, mTs, mIts, mS, mI, mT, aptE, aptEs, aptIts, aptS, aptI] at *
    rw [newI] at hn
    split_ifs with hm
    · rw [mI, keep_group, hn hm, ih1 _ _ _ ha.1, w_fill O C (ih2 _ _ _ ha.2.1 (fun _ => rfl) _), w_fill O C (ih3 _ _ _ ha.2.2.1 (fun _ => rfl) _)]
    · rw [mI, mT, ih1 _ _ _ ha.1, ih2 _ _ _ ha.2.1 (fun _ => rfl), ih3 _ _ _ ha.2.2.1 (fun _ => rfl)]
  | .long e b (.elseif_ i) => by
    have ih1 := mini_kE e
    have ih2 := mini_kB b
    have ih3 := mini_kI i
    intro can p sh nx ha hn
    simp only [kE, kEs, kIts, kS, kI, wE, wEs, wTs, wIts, wS, wI, mE, mEs, mTs, mIts, mS, mI, mT, aptE, aptEs, aptIts, aptS, aptI] at *
    rw [ih1 _ _ _ ha.1, ih2 _ _ _ ha.2.1 (fun _ => rfl), ih3 _ _  _ _ ha.2.2 (fun _ => rfl)]
  | .short e b d => by
    have ih1 := mini_kE e
    have ih2 := mini_kB b
    intro can p sh nx ha hn
    simp only [kE, kEs, kIts, kS, kI, wE, wEs, wTs, wIts, wS, wI, mE, mEs, mTs, mIts, mS, mI, mT, aptE, aptEs, aptIts, aptS, aptI] at *
    rw [newI] at hn
    split_ifs with hm
    · rw [mI, mT, ih1 _ _ _ ha.1, ih2 _ _ _ ha.2.1 (fun _ => rfl)]
    · rw [mI, semis_k, ih1 _ _ _ ha.1, ih2 _ _ _ ha.2.1 (fun h => hn (by rw [Bool.not_eq_true] at hm; simp [hm, h]))]
  | .shortElse e b b' d => by
    have ih1 := mini_kE e
    have ih2 := mini_kB b
    have ih3 := mini_kB b'
    intro can p sh nx ha hn
    simp only [kE, kEs, kIts, kS, kI, wE, wEs, wTs, wIts, wS, wI, mE, mEs, mTs, mIts, mS, mI, mT, aptE, aptEs, aptIts, aptS, aptI] at *
    rw [newI] at hn
    split_ifs with hm
    · rw [mI, mT, ih1 _ _ _ ha.1, ih2 _ _ _ ha.2.1 (fun _ => rfl), ih3 _ _ _ ha.2.2.1 (fun _ => rfl)]
    · rw [mI, semis_k, semis_k, ih1 _ _ _ ha.1, ih2 _ _ _ ha.2.1 (fun _ => rfl), ih3 _ _ _ ha.2.2.1 (fun h => hn (by rw [Bool.not_eq_true] at hm; simp [hm, h]))]
theorem mini_kB : ∀ (x : Block), ∀ p sh nx, aptB O L p sh x → (newB O p x = true → nx = false) → ∀ keep, mB C nx keep (kB O p x) = wB O C p nx keep x
  | .nil => by
    intro p sh nx ha hn keep
    rfl
  | .semi b => by
    have ih1 := mini_kB b
    intro p sh nx ha hn keep
    rw [aptB] at ha
    rw [newB] at hn
    rw [kB, mB, wB, nextLp_k, ih1 _ _ _ ha hn]
  | .cons s .nil => by
    have ih1 := mini_kS s
    intro p sh nx ha hn keep
    simp only [aptB, newB] at *
    rw [kB, mB, wB, ih1 _ _ (nextLp nx .nil) ha hn]
    rfl
  | .cons s (.semi b) => by
    have ih1 := mini_kS s
    have ih2 := mini_kB (.semi b)
    intro p sh nx ha hn keep
    rw [show kB O p (.cons s (.semi b)) = .cons (kS O p.mid s) (kB O p (.semi b)) from rfl]
    rw [aptB] at ha
    · rw [newB] at hn
      · rw [mB, nextLp_k, ih1 _ _ (nextLp nx (.semi b)) ha.1 (fun h => ha.2.2.1 h), ih2 _ _ _ ha.2.1 hn]
        rfl
      · simp
    · simp
  | .cons s (.cons r b) => by
    have ih1 := mini_kS s
    have ih2 := mini_kB (.cons r b)
    intro p sh nx ha hn keep
    rw [show kB O p (.cons s (.cons r b)) = .cons (kS O p.mid s) (kB O p (.cons r b)) from rfl]
    rw [aptB] at ha
    · rw [newB] at hn
      · rw [mB, nextLp_k, ih1 _ _ (nextLp nx (.cons r b)) ha.1 (fun h => ha.2.2.1 h), ih2 _ _ _ ha.2.1 hn]
        rfl
      · simp
    · simp
end

/-- Shorthands can be made and undone first. -/
theorem shorten_eq {b : Block} (h : Apt O L b) : shorten O C b = mini C (kB O .free b) := (mini_kB C b _ _ _ h (fun _ => rfl) _).symm

end Verif.Mini
