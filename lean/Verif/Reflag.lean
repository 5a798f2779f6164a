import Verif.FineReparse
import Verif.Spec.LuaNorm
/-
The states of shorthands inside of others: printing does not look at them, so the parser finds its own.
-/
set_option linter.unusedSimpArgs false
set_option linter.unusedVariables false
set_option linter.unusedSectionVars false

namespace Verif.Mini
open Syntax Tidy
open LuaGrammar (openEnd Binary unaryOps)
open Paren (Op Lang prec)

mutual
/-- The tree with the states that the parser finds. -/
def rfE (sh : Bool) : Ex → Ex
  | .func ps b => .func ps (rfB sh true b)
  | .group e => .group (rfE sh e)
  | .un o e => .un o (rfE sh e)
  | .bin o l r => .bin o (rfE sh l) (rfE sh r)
  | .member b x => .member (rfE sh b) x
  | .index b k => .index (rfE sh b) (rfE sh k)
  | .call b t as => .call (rfE sh b) t (rfEs sh as)
  | .method b x t as => .method (rfE sh b) x t (rfEs sh as)
  | .table its => .table (rfIts sh its)
  | .var x => .var x
  | .num s => .num s
  | .str s => .str s
  | .cst s => .cst s
  | .vararg => .vararg
def rfEs (sh : Bool) : Exs → Exs
  | .nil => .nil
  | .cons e es => .cons (rfE sh e) (rfEs sh es)
def rfIts (sh : Bool) : Its → Its
  | .nil => .nil
  | .pos e its => .pos (rfE sh e) (rfIts sh its)
  | .named x e its => .named x (rfE sh e) (rfIts sh its)
  | .keyed k e its => .keyed (rfE sh k) (rfE sh e) (rfIts sh its)
def rfS (sh c : Bool) : St → St
  | .do_ b => .do_ (rfB sh true b)
  | .if_ i => .if_ (rfI sh c i)
  | .while_ e b => .while_ (rfE sh e) (rfB sh true b)
  | .whileShort e b d => .whileShort (rfE (sh || !d) e) (rfB (sh || !d) (if sh then c else d) b) (if sh then c else d)
  | .repeat_ b e => .repeat_ (rfB sh true b) (rfE sh e)
  | .fornum x a b s d => .fornum x (rfE sh a) (rfE sh b) (rfEs sh s) (rfB sh true d)
  | .forin xs es d => .forin xs (rfEs sh es) (rfB sh true d)
  | .break_ => .break_
  | .return_ es => .return_ (rfEs sh es)
  | .local_ xs es => .local_ xs (rfEs sh es)
  | .localfn x ps b => .localfn x ps (rfB sh true b)
  | .goto_ x => .goto_ x
  | .label x => .label x
  | .func f ps b => .func f ps (rfB sh true b)
  | .assign ts es => .assign (rfEs sh ts) (rfEs sh es)
  | .opassign o t e => .opassign o (rfE sh t) (rfE sh e)
  | .call e => .call (rfE sh e)
  | .print es => .print (rfEs true es)
def rfI (sh c : Bool) : If → If
  | .long e b t => .long (rfE sh e) (rfB sh true b) (rfT sh t)
  | .short e b d => .short (rfE (sh || !d) e) (rfB (sh || !d) (if sh then c else d) b) (if sh then c else d)
  | .shortElse e b b' d =>
    .shortElse (rfE (sh || !d) e) (rfB (sh || !d) true b) (rfB (sh || !d) (if sh then c else d) b') (if sh then c else d)
def rfT (sh : Bool) : Tail → Tail
  | .end_ => .end_
  | .else_ b => .else_ (rfB sh true b)
  | .elseif_ i => .elseif_ (rfI sh true i)
def rfB (sh c : Bool) : Block → Block
  | .nil => .nil
  | .semi b => .semi (rfB sh c b)
  | .cons s b => .cons (rfS sh c s) (rfB sh c b)
end

theorem congr_two {α β γ : Type} (f : α → β → γ) {a a' : α} {b b' : β} (h : a = a') (h' : b = b') : f a b = f a' b' := by rw [h, h']

theorem or_flag (sh d c : Bool) : (sh || !(if sh then c else d)) = (sh || !d) := by cases sh <;> simp

theorem sep_rf (sh : Bool) (es : Exs) : sepEs (rfEs sh es) = sepEs es := by cases es <;> rfl
theorem eq_rf (sh : Bool) (es : Exs) : eqEs (rfEs sh es) = eqEs es := by cases es <;> rfl
theorem sepIts_rf (sh : Bool) (its : Its) : sepIts (rfIts sh its) = sepIts its := by cases its <;> simp [rfIts, sepIts]
theorem brk_rf (sh d c : Bool) : brk sh (if sh then c else d) = brk sh d := by cases sh <;> rfl

variable (th : K)
mutual
theorem pr_rfE : ∀ (x : Ex), ∀ sh, prE th sh (rfE sh x) = prE th sh x
  | .var x => by
    intros
    simp only [rfE, rfEs, rfIts, rfS, rfI, rfT, rfB, prE, prEs, prIts, prS, prI, prT, prB, sep_rf, eq_rf, sepIts_rf, brk_rf, or_flag, *]
  | .num x => by
    intros
    simp only [rfE, rfEs, rfIts, rfS, rfI, rfT, rfB, prE, prEs, prIts, prS, prI, prT, prB, sep_rf, eq_rf, sepIts_rf, brk_rf, or_flag, *]
  | .str x => by
    intros
    simp only [rfE, rfEs, rfIts, rfS, rfI, rfT, rfB, prE, prEs, prIts, prS, prI, prT, prB, sep_rf, eq_rf, sepIts_rf, brk_rf, or_flag, *]
  | .cst x => by
    intros
    simp only [rfE, rfEs, rfIts, rfS, rfI, rfT, rfB, prE, prEs, prIts, prS, prI, prT, prB, sep_rf, eq_rf, sepIts_rf, brk_rf, or_flag, *]
  | .vararg => by
    intros
    simp only [rfE, rfEs, rfIts, rfS, rfI, rfT, rfB, prE, prEs, prIts, prS, prI, prT, prB, sep_rf, eq_rf, sepIts_rf, brk_rf, or_flag, *]
  | .func ps b => by
    have ih1 := pr_rfB b
    intros
    simp only [rfE, rfEs, rfIts, rfS, rfI, rfT, rfB, prE, prEs, prIts, prS, prI, prT, prB, sep_rf, eq_rf, sepIts_rf, brk_rf, or_flag, *]
  | .group e => by
    have ih1 := pr_rfE e
    intros
    simp only [rfE, rfEs, rfIts, rfS, rfI, rfT, rfB, prE, prEs, prIts, prS, prI, prT, prB, sep_rf, eq_rf, sepIts_rf, brk_rf, or_flag, *]
  | .un o e => by
    have ih1 := pr_rfE e
    intros
    simp only [rfE, rfEs, rfIts, rfS, rfI, rfT, rfB, prE, prEs, prIts, prS, prI, prT, prB, sep_rf, eq_rf, sepIts_rf, brk_rf, or_flag, *]
  | .bin o l r => by
    have ih1 := pr_rfE l
    have ih2 := pr_rfE r
    intros
    simp only [rfE, rfEs, rfIts, rfS, rfI, rfT, rfB, prE, prEs, prIts, prS, prI, prT, prB, sep_rf, eq_rf, sepIts_rf, brk_rf, or_flag, *]
  | .member b x => by
    have ih1 := pr_rfE b
    intros
    simp only [rfE, rfEs, rfIts, rfS, rfI, rfT, rfB, prE, prEs, prIts, prS, prI, prT, prB, sep_rf, eq_rf, sepIts_rf, brk_rf, or_flag, *]
  | .index b k => by
    have ih1 := pr_rfE b
    have ih2 := pr_rfE k
    intros
    simp only [rfE, rfEs, rfIts, rfS, rfI, rfT, rfB, prE, prEs, prIts, prS, prI, prT, prB, sep_rf, eq_rf, sepIts_rf, brk_rf, or_flag, *]
  | .call b t as => by
    have ih1 := pr_rfE b
    have ih2 := pr_rfEs as
    intros
    cases t <;> simp only [rfE, prE, *]
  | .method b x t as => by
    have ih1 := pr_rfE b
    have ih2 := pr_rfEs as
    intros
    cases t <;> simp only [rfE, prE, *]
  | .table its => by
    have ih1 := pr_rfIts its
    intros
    simp only [rfE, rfEs, rfIts, rfS, rfI, rfT, rfB, prE, prEs, prIts, prS, prI, prT, prB, sep_rf, eq_rf, sepIts_rf, brk_rf, or_flag, *]
theorem pr_rfEs : ∀ (x : Exs), ∀ sh, prEs th sh (rfEs sh x) = prEs th sh x
  | .nil => by
    intros
    simp only [rfE, rfEs, rfIts, rfS, rfI, rfT, rfB, prE, prEs, prIts, prS, prI, prT, prB, sep_rf, eq_rf, sepIts_rf, brk_rf, or_flag, *]
  | .cons e es => by
    have ih1 := pr_rfE e
    have ih2 := pr_rfEs es
    intros
    simp only [rfE, rfEs, rfIts, rfS, rfI, rfT, rfB, prE, prEs, prIts, prS, prI, prT, prB, sep_rf, eq_rf, sepIts_rf, brk_rf, or_flag, *]
theorem pr_rfIts : ∀ (x : Its), ∀ sh, prIts th sh (rfIts sh x) = prIts th sh x
  | .nil => by
    intros
    simp only [rfE, rfEs, rfIts, rfS, rfI, rfT, rfB, prE, prEs, prIts, prS, prI, prT, prB, sep_rf, eq_rf, sepIts_rf, brk_rf, or_flag, *]
  | .pos e its => by
    have ih1 := pr_rfE e
    have ih2 := pr_rfIts its
    intros
    simp only [rfE, rfEs, rfIts, rfS, rfI, rfT, rfB, prE, prEs, prIts, prS, prI, prT, prB, sep_rf, eq_rf, sepIts_rf, brk_rf, or_flag, *]
  | .named x e its => by
    have ih1 := pr_rfE e
    have ih2 := pr_rfIts its
    intros
    simp only [rfE, rfEs, rfIts, rfS, rfI, rfT, rfB, prE, prEs, prIts, prS, prI, prT, prB, sep_rf, eq_rf, sepIts_rf, brk_rf, or_flag, *]
  | .keyed k e its => by
    have ih1 := pr_rfE k
    have ih2 := pr_rfE e
    have ih3 := pr_rfIts its
    intros
    simp only [rfE, rfEs, rfIts, rfS, rfI, rfT, rfB, prE, prEs, prIts, prS, prI, prT, prB, sep_rf, eq_rf, sepIts_rf, brk_rf, or_flag, *]
theorem pr_rfS : ∀ (x : St), ∀ sh c, prS th sh (rfS sh c x) = prS th sh x
  | .do_ b => by
    have ih1 := pr_rfB b
    intros
    simp only [rfE, rfEs, rfIts, rfS, rfI, rfT, rfB, prE, prEs, prIts, prS, prI, prT, prB, sep_rf, eq_rf, sepIts_rf, brk_rf, or_flag, *]
  | .if_ i => by
    have ih1 := pr_rfI i
    intros
    simp only [rfE, rfEs, rfIts, rfS, rfI, rfT, rfB, prE, prEs, prIts, prS, prI, prT, prB, sep_rf, eq_rf, sepIts_rf, brk_rf, or_flag, *]
  | .while_ e b => by
    have ih1 := pr_rfE e
    have ih2 := pr_rfB b
    intros
    simp only [rfE, rfEs, rfIts, rfS, rfI, rfT, rfB, prE, prEs, prIts, prS, prI, prT, prB, sep_rf, eq_rf, sepIts_rf, brk_rf, or_flag, *]
  | .whileShort e b d => by
    have ih1 := pr_rfE e
    have ih2 := pr_rfB b
    intros
    simp only [rfE, rfEs, rfIts, rfS, rfI, rfT, rfB, prE, prEs, prIts, prS, prI, prT, prB, sep_rf, eq_rf, sepIts_rf, brk_rf, or_flag, *]
  | .repeat_ b e => by
    have ih1 := pr_rfB b
    have ih2 := pr_rfE e
    intros
    simp only [rfE, rfEs, rfIts, rfS, rfI, rfT, rfB, prE, prEs, prIts, prS, prI, prT, prB, sep_rf, eq_rf, sepIts_rf, brk_rf, or_flag, *]
  | .fornum x a b s d => by
    have ih1 := pr_rfE a
    have ih2 := pr_rfE b
    have ih3 := pr_rfEs s
    have ih4 := pr_rfB d
    intros
    simp only [rfE, rfEs, rfIts, rfS, rfI, rfT, rfB, prE, prEs, prIts, prS, prI, prT, prB, sep_rf, eq_rf, sepIts_rf, brk_rf, or_flag, *]
  | .forin xs es d => by
    have ih1 := pr_rfEs es
    have ih2 := pr_rfB d
    intros
    simp only [rfE, rfEs, rfIts, rfS, rfI, rfT, rfB, prE, prEs, prIts, prS, prI, prT, prB, sep_rf, eq_rf, sepIts_rf, brk_rf, or_flag, *]
  | .break_ => by
    intros
    simp only [rfE, rfEs, rfIts, rfS, rfI, rfT, rfB, prE, prEs, prIts, prS, prI, prT, prB, sep_rf, eq_rf, sepIts_rf, brk_rf, or_flag, *]
  | .return_ es => by
    have ih1 := pr_rfEs es
    intros
    simp only [rfE, rfEs, rfIts, rfS, rfI, rfT, rfB, prE, prEs, prIts, prS, prI, prT, prB, sep_rf, eq_rf, sepIts_rf, brk_rf, or_flag, *]
  | .local_ xs es => by
    have ih1 := pr_rfEs es
    intros
    simp only [rfE, rfEs, rfIts, rfS, rfI, rfT, rfB, prE, prEs, prIts, prS, prI, prT, prB, sep_rf, eq_rf, sepIts_rf, brk_rf, or_flag, *]
  | .localfn x ps b => by
    have ih1 := pr_rfB b
    intros
    simp only [rfE, rfEs, rfIts, rfS, rfI, rfT, rfB, prE, prEs, prIts, prS, prI, prT, prB, sep_rf, eq_rf, sepIts_rf, brk_rf, or_flag, *]
  | .goto_ x => by
    intros
    simp only [rfE, rfEs, rfIts, rfS, rfI, rfT, rfB, prE, prEs, prIts, prS, prI, prT, prB, sep_rf, eq_rf, sepIts_rf, brk_rf, or_flag, *]
  | .label x => by
    intros
    simp only [rfE, rfEs, rfIts, rfS, rfI, rfT, rfB, prE, prEs, prIts, prS, prI, prT, prB, sep_rf, eq_rf, sepIts_rf, brk_rf, or_flag, *]
  | .func f ps b => by
    have ih1 := pr_rfB b
    intros
    simp only [rfE, rfEs, rfIts, rfS, rfI, rfT, rfB, prE, prEs, prIts, prS, prI, prT, prB, sep_rf, eq_rf, sepIts_rf, brk_rf, or_flag, *]
  | .assign ts es => by
    have ih1 := pr_rfEs ts
    have ih2 := pr_rfEs es
    intros
    simp only [rfE, rfEs, rfIts, rfS, rfI, rfT, rfB, prE, prEs, prIts, prS, prI, prT, prB, sep_rf, eq_rf, sepIts_rf, brk_rf, or_flag, *]
  | .opassign o t e => by
    have ih1 := pr_rfE t
    have ih2 := pr_rfE e
    intros
    simp only [rfE, rfEs, rfIts, rfS, rfI, rfT, rfB, prE, prEs, prIts, prS, prI, prT, prB, sep_rf, eq_rf, sepIts_rf, brk_rf, or_flag, *]
  | .call e => by
    have ih1 := pr_rfE e
    intros
    simp only [rfE, rfEs, rfIts, rfS, rfI, rfT, rfB, prE, prEs, prIts, prS, prI, prT, prB, sep_rf, eq_rf, sepIts_rf, brk_rf, or_flag, *]
  | .print es => by
    have ih1 := pr_rfEs es
    intros
    simp only [rfE, rfEs, rfIts, rfS, rfI, rfT, rfB, prE, prEs, prIts, prS, prI, prT, prB, sep_rf, eq_rf, sepIts_rf, brk_rf, or_flag, *]
theorem pr_rfI : ∀ (x : If), ∀ sh c, prI th sh (rfI sh c x) = prI th sh x
  | .long e b t => by
    have ih1 := pr_rfE e
    have ih2 := pr_rfB b
    have ih3 := pr_rfT t
    intros
    simp only [rfE, rfEs, rfIts, rfS, rfI, rfT, rfB, prE, prEs, prIts, prS, prI, prT, prB, sep_rf, eq_rf, sepIts_rf, brk_rf, or_flag, *]
  | .short e b d => by
    have ih1 := pr_rfE e
    have ih2 := pr_rfB b
    intros
    simp only [rfE, rfEs, rfIts, rfS, rfI, rfT, rfB, prE, prEs, prIts, prS, prI, prT, prB, sep_rf, eq_rf, sepIts_rf, brk_rf, or_flag, *]
  | .shortElse e b b' d => by
    have ih1 := pr_rfE e
    have ih2 := pr_rfB b
    have ih3 := pr_rfB b'
    intros
    simp only [rfE, rfEs, rfIts, rfS, rfI, rfT, rfB, prE, prEs, prIts, prS, prI, prT, prB, sep_rf, eq_rf, sepIts_rf, brk_rf, or_flag, *]
theorem pr_rfT : ∀ (x : Tail), ∀ sh, prT th sh (rfT sh x) = prT th sh x
  | .end_ => by
    intros
    simp only [rfE, rfEs, rfIts, rfS, rfI, rfT, rfB, prE, prEs, prIts, prS, prI, prT, prB, sep_rf, eq_rf, sepIts_rf, brk_rf, or_flag, *]
  | .else_ b => by
    have ih1 := pr_rfB b
    intros
    simp only [rfE, rfEs, rfIts, rfS, rfI, rfT, rfB, prE, prEs, prIts, prS, prI, prT, prB, sep_rf, eq_rf, sepIts_rf, brk_rf, or_flag, *]
  | .elseif_ i => by
    have ih1 := pr_rfI i
    intros
    simp only [rfE, rfEs, rfIts, rfS, rfI, rfT, rfB, prE, prEs, prIts, prS, prI, prT, prB, sep_rf, eq_rf, sepIts_rf, brk_rf, or_flag, *]
theorem pr_rfB : ∀ (x : Block), ∀ sh c, prB th sh (rfB sh c x) = prB th sh x
  | .nil => by
    intros
    simp only [rfE, rfEs, rfIts, rfS, rfI, rfT, rfB, prE, prEs, prIts, prS, prI, prT, prB, sep_rf, eq_rf, sepIts_rf, brk_rf, or_flag, *]
  | .semi b => by
    have ih1 := pr_rfB b
    intros
    simp only [rfE, rfEs, rfIts, rfS, rfI, rfT, rfB, prE, prEs, prIts, prS, prI, prT, prB, sep_rf, eq_rf, sepIts_rf, brk_rf, or_flag, *]
  | .cons s b => by
    have ih1 := pr_rfS s
    have ih2 := pr_rfB b
    intros
    simp only [rfE, rfEs, rfIts, rfS, rfI, rfT, rfB, prE, prEs, prIts, prS, prI, prT, prB, sep_rf, eq_rf, sepIts_rf, brk_rf, or_flag, *]
end


theorem output_rf (b : Block) : output th (rfB false false b) = output th b := by
  unfold output; rw [pr_rfB]

omit th
/-! ### What stays -/

theorem lvl_rf (sh : Bool) (e : Ex) : lvl (rfE sh e) = lvl e := by cases e <;> rfl
theorem pre_rf (sh : Bool) (e : Ex) : isPre (rfE sh e) = isPre e := by cases e <;> rfl
theorem group_rf (sh : Bool) (e : Ex) : isGroup (rfE sh e) = isGroup e := by cases e <;> rfl
theorem target_rf (sh : Bool) (e : Ex) : isTarget (rfE sh e) = isTarget e := by cases e <;> rfl
theorem call_rf (sh : Bool) (e : Ex) : isCall (rfE sh e) = isCall e := by cases e <;> rfl
theorem bare_rf (sh : Bool) (es : Exs) : bareArg (rfEs sh es) = bareArg es := by
  cases es with
  | nil => rfl
  | cons e es => cases es <;> cases e <;> rfl
theorem targets_rf (sh : Bool) : ∀ es : Exs, targets (rfEs sh es) = targets es
  | .nil => rfl
  | .cons e es => by rw [rfEs, targets, targets, target_rf, targets_rf sh es]
theorem nil_rf {sh : Bool} {es : Exs} : rfEs sh es = .nil ↔ es = .nil := by cases es <;> simp [rfEs]
theorem one_rf {sh : Bool} {es : Exs} (h : ∃ e, es = .cons e .nil) : ∃ e, rfEs sh es = .cons e .nil := by
  obtain ⟨e, rfl⟩ := h; exact ⟨_, rfl⟩
theorem flagI_rf (sh c : Bool) (i : If) : flagI (rfI sh c i) = (flagI i).map fun d => if sh then c else d := by cases i <;> rfl
theorem flag_rf (sh c : Bool) (s : St) : flag (rfS sh c s) = (flag s).map fun d => if sh then c else d := by
  cases s <;> first | rfl | exact flagI_rf _ _ _
theorem isElse_rf (sh : Bool) (t : Tail) : isElse (rfT sh t) = isElse t := by cases t <;> rfl
theorem isLong_rf (sh c : Bool) (i : If) : isLong (rfI sh c i) = isLong i := by cases i <;> rfl
theorem ret_rf (sh c : Bool) (s : St) : isRet0 (rfS sh c s) = isRet0 s := by
  cases s with
  | return_ es => cases es <;> rfl
  | _ => rfl
theorem semis_rf (sh c : Bool) : ∀ b, semis (rfB sh c b) = semis b
  | .nil => rfl
  | .semi b => by rw [rfB, semis, semis, semis_rf sh c b]
  | .cons s b => rfl
theorem endsRet_rf (sh c : Bool) : ∀ b, endsRet (rfB sh c b) = endsRet b
  | .nil => rfl
  | .semi b => by rw [rfB, endsRet, endsRet, endsRet_rf sh c b]
  | .cons s b => by rw [rfB, endsRet, endsRet, semis_rf, ret_rf, endsRet_rf sh c b]
theorem do_rf (sh c : Bool) : ∀ b, doB (rfB sh c b) = doB b
  | .nil => rfl
  | .semi b => by rw [rfB, doB, doB, do_rf sh c b]
  | .cons s b => by cases s <;> rfl

theorem lead_rfE : ∀ (e : Ex) (sh), leadLp (rfE sh e) = leadLp e
  | .bin o l r, sh => by rw [rfE, leadLp, leadLp, lead_rfE l]
  | .member b x, sh => by rw [rfE, leadLp, leadLp, lead_rfE b]
  | .index b k, sh => by rw [rfE, leadLp, leadLp, lead_rfE b]
  | .call b t as, sh => by rw [rfE, leadLp, leadLp, lead_rfE b]
  | .method b x t as, sh => by rw [rfE, leadLp, leadLp, lead_rfE b]
  | .group e, sh => rfl
  | .var _, _ | .num _, _ | .str _, _ | .cst _, _ | .vararg, _ | .func _ _, _ | .un _ _, _ | .table _, _ => rfl
theorem lead_rfB (sh c : Bool) (b : Block) : leadB (rfB sh c b) = leadB b := by
  cases b with
  | cons s b =>
    cases s with
    | assign ts es => cases ts <;> simp [rfB, rfS, rfEs, leadB, leadS, leadEs, lead_rfE]
    | _ => simp [rfB, rfS, leadB, leadS, lead_rfE]
  | _ => rfl

theorem open_rfE : ∀ (e : Ex) (sh), openEnd (rfE sh e) = openEnd e
  | .bin o l r, sh => by rw [rfE, openEnd, openEnd, open_rfE r]
  | .un o e, sh => by rw [rfE, openEnd, openEnd, open_rfE e]
  | .member b x, sh => rfl
  | .index b k, sh => rfl
  | .call b t as, sh => rfl
  | .method b x t as, sh => rfl
  | .group e, sh => rfl
  | .var _, _ | .num _, _ | .str _, _ | .cst _, _ | .vararg, _ | .func _ _, _ | .table _, _ => rfl
theorem open_rfEs : ∀ (es : Exs) (sh), openEs (rfEs sh es) = openEs es
  | .nil, _ => rfl
  | .cons e .nil, sh => by rw [rfEs, rfEs, openEs, openEs, open_rfE]
  | .cons e (.cons f es), sh => by
    have ih := open_rfEs (.cons f es) sh
    exact ih
mutual
theorem open_rfS : ∀ (x : St), ∀ sh c, openS (rfS sh c x) = openS x
  | .do_ b => by
    have ih1 := open_rfB b
    intros
    simp only [rfE, rfEs, rfIts, rfS, rfI, rfT, rfB, openS, openI, openB, open_rfE, open_rfEs, *]
  | .if_ i => by
    have ih1 := open_rfI i
    intros
    simp only [rfE, rfEs, rfIts, rfS, rfI, rfT, rfB, openS, openI, openB, open_rfE, open_rfEs, *]
  | .while_ e b => by
    have ih1 := open_rfB b
    intros
    simp only [rfE, rfEs, rfIts, rfS, rfI, rfT, rfB, openS, openI, openB, open_rfE, open_rfEs, *]
  | .whileShort e b d => by
    have ih1 := open_rfB b
    intros
    simp only [rfE, rfEs, rfIts, rfS, rfI, rfT, rfB, openS, openI, openB, open_rfE, open_rfEs, *]
  | .repeat_ b e => by
    have ih1 := open_rfB b
    intros
    simp only [rfE, rfEs, rfIts, rfS, rfI, rfT, rfB, openS, openI, openB, open_rfE, open_rfEs, *]
  | .fornum x a b s d => by
    have ih1 := open_rfB d
    intros
    simp only [rfE, rfEs, rfIts, rfS, rfI, rfT, rfB, openS, openI, openB, open_rfE, open_rfEs, *]
  | .forin xs es d => by
    have ih1 := open_rfB d
    intros
    simp only [rfE, rfEs, rfIts, rfS, rfI, rfT, rfB, openS, openI, openB, open_rfE, open_rfEs, *]
  | .break_ => by
    intros
    simp only [rfE, rfEs, rfIts, rfS, rfI, rfT, rfB, openS, openI, openB, open_rfE, open_rfEs, *]
  | .return_ es => by
    intros
    simp only [rfE, rfEs, rfIts, rfS, rfI, rfT, rfB, openS, openI, openB, open_rfE, open_rfEs, *]
  | .local_ xs es => by
    intros
    simp only [rfE, rfEs, rfIts, rfS, rfI, rfT, rfB, openS, openI, openB, open_rfE, open_rfEs, *]
  | .localfn x ps b => by
    have ih1 := open_rfB b
    intros
    simp only [rfE, rfEs, rfIts, rfS, rfI, rfT, rfB, openS, openI, openB, open_rfE, open_rfEs, *]
  | .goto_ x => by
    intros
    simp only [rfE, rfEs, rfIts, rfS, rfI, rfT, rfB, openS, openI, openB, open_rfE, open_rfEs, *]
  | .label x => by
    intros
    simp only [rfE, rfEs, rfIts, rfS, rfI, rfT, rfB, openS, openI, openB, open_rfE, open_rfEs, *]
  | .func f ps b => by
    have ih1 := open_rfB b
    intros
    simp only [rfE, rfEs, rfIts, rfS, rfI, rfT, rfB, openS, openI, openB, open_rfE, open_rfEs, *]
  | .assign ts es => by
    intros
    simp only [rfE, rfEs, rfIts, rfS, rfI, rfT, rfB, openS, openI, openB, open_rfE, open_rfEs, *]
  | .opassign o t e => by
    intros
    simp only [rfE, rfEs, rfIts, rfS, rfI, rfT, rfB, openS, openI, openB, open_rfE, open_rfEs, *]
  | .call e => by
    intros
    simp only [rfE, rfEs, rfIts, rfS, rfI, rfT, rfB, openS, openI, openB, open_rfE, open_rfEs, *]
  | .print es => by
    intros
    simp only [rfE, rfEs, rfIts, rfS, rfI, rfT, rfB, openS, openI, openB, open_rfE, open_rfEs, *]
theorem open_rfI : ∀ (x : If), ∀ sh c, openI (rfI sh c x) = openI x
  | .long e b t => by
    have ih1 := open_rfB b
    intros
    simp only [rfE, rfEs, rfIts, rfS, rfI, rfT, rfB, openS, openI, openB, open_rfE, open_rfEs, *]
  | .short e b d => by
    have ih1 := open_rfB b
    intros
    simp only [rfE, rfEs, rfIts, rfS, rfI, rfT, rfB, openS, openI, openB, open_rfE, open_rfEs, *]
  | .shortElse e b b' d => by
    have ih1 := open_rfB b
    have ih2 := open_rfB b'
    intros
    simp only [rfE, rfEs, rfIts, rfS, rfI, rfT, rfB, openS, openI, openB, open_rfE, open_rfEs, *]
theorem open_rfB : ∀ (x : Block), ∀ sh c o, openB o (rfB sh c x) = openB o x
  | .nil => by
    intros
    simp only [rfE, rfEs, rfIts, rfS, rfI, rfT, rfB, openS, openI, openB, open_rfE, open_rfEs, *]
  | .semi b => by
    have ih1 := open_rfB b
    intros
    simp only [rfE, rfEs, rfIts, rfS, rfI, rfT, rfB, openS, openI, openB, open_rfE, open_rfEs, *]
  | .cons s b => by
    have ih1 := open_rfS s
    have ih2 := open_rfB b
    intros
    simp only [rfE, rfEs, rfIts, rfS, rfI, rfT, rfB, openS, openI, openB, open_rfE, open_rfEs, *]
end

mutual
theorem cond_rfS : ∀ (x : St), ∀ L sh c, condS L (rfS sh c x) = condS L x
  | .do_ b => by
    have ih1 := cond_rfB b
    intros
    simp only [rfE, rfEs, rfIts, rfS, rfI, rfT, rfB, condS, condI, condB, *]
  | .if_ i => by
    have ih1 := cond_rfI i
    intros
    simp only [rfE, rfEs, rfIts, rfS, rfI, rfT, rfB, condS, condI, condB, *]
  | .while_ e b => by
    have ih1 := cond_rfB b
    intros
    simp only [rfE, rfEs, rfIts, rfS, rfI, rfT, rfB, condS, condI, condB, *]
  | .whileShort e b d => by
    have ih1 := cond_rfB b
    intros
    simp only [rfE, rfEs, rfIts, rfS, rfI, rfT, rfB, condS, condI, condB, *]
  | .repeat_ b e => by
    have ih1 := cond_rfB b
    intros
    simp only [rfE, rfEs, rfIts, rfS, rfI, rfT, rfB, condS, condI, condB, *]
  | .fornum x a b s d => by
    have ih1 := cond_rfB d
    intros
    simp only [rfE, rfEs, rfIts, rfS, rfI, rfT, rfB, condS, condI, condB, *]
  | .forin xs es d => by
    have ih1 := cond_rfB d
    intros
    simp only [rfE, rfEs, rfIts, rfS, rfI, rfT, rfB, condS, condI, condB, *]
  | .break_ => by
    intros
    simp only [rfE, rfEs, rfIts, rfS, rfI, rfT, rfB, condS, condI, condB, *]
  | .return_ es => by
    intros
    simp only [rfE, rfEs, rfIts, rfS, rfI, rfT, rfB, condS, condI, condB, *]
  | .local_ xs es => by
    intros
    simp only [rfE, rfEs, rfIts, rfS, rfI, rfT, rfB, condS, condI, condB, *]
  | .localfn x ps b => by
    have ih1 := cond_rfB b
    intros
    simp only [rfE, rfEs, rfIts, rfS, rfI, rfT, rfB, condS, condI, condB, *]
  | .goto_ x => by
    intros
    simp only [rfE, rfEs, rfIts, rfS, rfI, rfT, rfB, condS, condI, condB, *]
  | .label x => by
    intros
    simp only [rfE, rfEs, rfIts, rfS, rfI, rfT, rfB, condS, condI, condB, *]
  | .func f ps b => by
    have ih1 := cond_rfB b
    intros
    simp only [rfE, rfEs, rfIts, rfS, rfI, rfT, rfB, condS, condI, condB, *]
  | .assign ts es => by
    intros
    simp only [rfE, rfEs, rfIts, rfS, rfI, rfT, rfB, condS, condI, condB, *]
  | .opassign o t e => by
    intros
    simp only [rfE, rfEs, rfIts, rfS, rfI, rfT, rfB, condS, condI, condB, *]
  | .call e => by
    intros
    simp only [rfE, rfEs, rfIts, rfS, rfI, rfT, rfB, condS, condI, condB, *]
  | .print es => by
    intros
    simp only [rfE, rfEs, rfIts, rfS, rfI, rfT, rfB, condS, condI, condB, *]
theorem cond_rfI : ∀ (x : If), ∀ L sh c, condI L (rfI sh c x) = condI L x
  | .long e b t => by
    have ih1 := cond_rfB b
    intros
    simp only [rfE, rfEs, rfIts, rfS, rfI, rfT, rfB, condS, condI, condB, *]
  | .short e b d => by
    have ih1 := cond_rfB b
    intros
    simp only [rfE, rfEs, rfIts, rfS, rfI, rfT, rfB, condS, condI, condB, *]
  | .shortElse e b b' d => by
    have ih1 := cond_rfB b
    have ih2 := cond_rfB b'
    intros
    simp only [rfE, rfEs, rfIts, rfS, rfI, rfT, rfB, condS, condI, condB, *]
theorem cond_rfB : ∀ (x : Block), ∀ L sh c o, condB L o (rfB sh c x) = condB L o x
  | .nil => by
    intros
    simp only [rfE, rfEs, rfIts, rfS, rfI, rfT, rfB, condS, condI, condB, *]
  | .semi b => by
    have ih1 := cond_rfB b
    intros
    simp only [rfE, rfEs, rfIts, rfS, rfI, rfT, rfB, condS, condI, condB, *]
  | .cons s b => by
    have ih1 := cond_rfS s
    have ih2 := cond_rfB b
    intros
    simp only [rfE, rfEs, rfIts, rfS, rfI, rfT, rfB, condS, condI, condB, *]
end

mutual
theorem dangle_rfS : ∀ (x : St), ∀ sh c, dangleS sh (rfS sh c x) = dangleS sh x
  | .do_ b => by
    have ih1 := dangle_rfB b
    intros
    simp only [rfE, rfEs, rfIts, rfS, rfI, rfT, rfB, dangleS, dangleI, dangleB, semis_rf, *]
  | .if_ i => by
    have ih1 := dangle_rfI i
    intros
    simp only [rfE, rfEs, rfIts, rfS, rfI, rfT, rfB, dangleS, dangleI, dangleB, semis_rf, *]
  | .while_ e b => by
    have ih1 := dangle_rfB b
    intros
    simp only [rfE, rfEs, rfIts, rfS, rfI, rfT, rfB, dangleS, dangleI, dangleB, semis_rf, *]
  | .whileShort e b d => by
    have ih1 := dangle_rfB b
    intro sh c
    cases sh <;> cases d <;> simp [rfS, rfI, dangleS, dangleI, ih1]
  | .repeat_ b e => by
    have ih1 := dangle_rfB b
    intros
    simp only [rfE, rfEs, rfIts, rfS, rfI, rfT, rfB, dangleS, dangleI, dangleB, semis_rf, *]
  | .fornum x a b s d => by
    have ih1 := dangle_rfB d
    intros
    simp only [rfE, rfEs, rfIts, rfS, rfI, rfT, rfB, dangleS, dangleI, dangleB, semis_rf, *]
  | .forin xs es d => by
    have ih1 := dangle_rfB d
    intros
    simp only [rfE, rfEs, rfIts, rfS, rfI, rfT, rfB, dangleS, dangleI, dangleB, semis_rf, *]
  | .break_ => by
    intros
    simp only [rfE, rfEs, rfIts, rfS, rfI, rfT, rfB, dangleS, dangleI, dangleB, semis_rf, *]
  | .return_ es => by
    intros
    simp only [rfE, rfEs, rfIts, rfS, rfI, rfT, rfB, dangleS, dangleI, dangleB, semis_rf, *]
  | .local_ xs es => by
    intros
    simp only [rfE, rfEs, rfIts, rfS, rfI, rfT, rfB, dangleS, dangleI, dangleB, semis_rf, *]
  | .localfn x ps b => by
    have ih1 := dangle_rfB b
    intros
    simp only [rfE, rfEs, rfIts, rfS, rfI, rfT, rfB, dangleS, dangleI, dangleB, semis_rf, *]
  | .goto_ x => by
    intros
    simp only [rfE, rfEs, rfIts, rfS, rfI, rfT, rfB, dangleS, dangleI, dangleB, semis_rf, *]
  | .label x => by
    intros
    simp only [rfE, rfEs, rfIts, rfS, rfI, rfT, rfB, dangleS, dangleI, dangleB, semis_rf, *]
  | .func f ps b => by
    have ih1 := dangle_rfB b
    intros
    simp only [rfE, rfEs, rfIts, rfS, rfI, rfT, rfB, dangleS, dangleI, dangleB, semis_rf, *]
  | .assign ts es => by
    intros
    simp only [rfE, rfEs, rfIts, rfS, rfI, rfT, rfB, dangleS, dangleI, dangleB, semis_rf, *]
  | .opassign o t e => by
    intros
    simp only [rfE, rfEs, rfIts, rfS, rfI, rfT, rfB, dangleS, dangleI, dangleB, semis_rf, *]
  | .call e => by
    intros
    simp only [rfE, rfEs, rfIts, rfS, rfI, rfT, rfB, dangleS, dangleI, dangleB, semis_rf, *]
  | .print es => by
    intros
    simp only [rfE, rfEs, rfIts, rfS, rfI, rfT, rfB, dangleS, dangleI, dangleB, semis_rf, *]
theorem dangle_rfI : ∀ (x : If), ∀ sh c, dangleI sh (rfI sh c x) = dangleI sh x
  | .long e b t => by
    have ih1 := dangle_rfB b
    intros
    simp only [rfE, rfEs, rfIts, rfS, rfI, rfT, rfB, dangleS, dangleI, dangleB, semis_rf, *]
  | .short e b d => by
    have ih1 := dangle_rfB b
    intro sh c
    cases sh <;> cases d <;> simp [rfS, rfI, dangleS, dangleI, ih1]
  | .shortElse e b b' d => by
    have ih1 := dangle_rfB b
    have ih2 := dangle_rfB b'
    intro sh c
    cases sh <;> cases d <;> simp [rfS, rfI, dangleS, dangleI, ih2]
theorem dangle_rfB : ∀ (x : Block), ∀ sh c, dangleB sh (rfB sh c x) = dangleB sh x
  | .nil => by
    intros
    simp only [rfE, rfEs, rfIts, rfS, rfI, rfT, rfB, dangleS, dangleI, dangleB, semis_rf, *]
  | .semi b => by
    have ih1 := dangle_rfB b
    intros
    simp only [rfE, rfEs, rfIts, rfS, rfI, rfT, rfB, dangleS, dangleI, dangleB, semis_rf, *]
  | .cons s b => by
    have ih1 := dangle_rfS s
    have ih2 := dangle_rfB b
    intros
    simp only [rfE, rfEs, rfIts, rfS, rfI, rfT, rfB, dangleS, dangleI, dangleB, semis_rf, *]
end

mutual
theorem calm_rfE : ∀ (x : Ex), calmE (rfE false x) = calmE x
  | .var x => by
    (try intros)
    simp only [rfE, rfEs, rfIts, rfS, rfI, rfT, rfB, calmE, calmEs, calmIts, calmS, calmI, calmT, calmB, *]
  | .num x => by
    (try intros)
    simp only [rfE, rfEs, rfIts, rfS, rfI, rfT, rfB, calmE, calmEs, calmIts, calmS, calmI, calmT, calmB, *]
  | .str x => by
    (try intros)
    simp only [rfE, rfEs, rfIts, rfS, rfI, rfT, rfB, calmE, calmEs, calmIts, calmS, calmI, calmT, calmB, *]
  | .cst x => by
    (try intros)
    simp only [rfE, rfEs, rfIts, rfS, rfI, rfT, rfB, calmE, calmEs, calmIts, calmS, calmI, calmT, calmB, *]
  | .vararg => by
    (try intros)
    simp only [rfE, rfEs, rfIts, rfS, rfI, rfT, rfB, calmE, calmEs, calmIts, calmS, calmI, calmT, calmB, *]
  | .func ps b => by
    have ih1 := calm_rfB b
    (try intros)
    simp only [rfE, rfEs, rfIts, rfS, rfI, rfT, rfB, calmE, calmEs, calmIts, calmS, calmI, calmT, calmB, *]
  | .group e => by
    have ih1 := calm_rfE e
    (try intros)
    simp only [rfE, rfEs, rfIts, rfS, rfI, rfT, rfB, calmE, calmEs, calmIts, calmS, calmI, calmT, calmB, *]
  | .un o e => by
    have ih1 := calm_rfE e
    (try intros)
    simp only [rfE, rfEs, rfIts, rfS, rfI, rfT, rfB, calmE, calmEs, calmIts, calmS, calmI, calmT, calmB, *]
  | .bin o l r => by
    have ih1 := calm_rfE l
    have ih2 := calm_rfE r
    (try intros)
    simp only [rfE, rfEs, rfIts, rfS, rfI, rfT, rfB, calmE, calmEs, calmIts, calmS, calmI, calmT, calmB, *]
  | .member b x => by
    have ih1 := calm_rfE b
    (try intros)
    simp only [rfE, rfEs, rfIts, rfS, rfI, rfT, rfB, calmE, calmEs, calmIts, calmS, calmI, calmT, calmB, *]
  | .index b k => by
    have ih1 := calm_rfE b
    have ih2 := calm_rfE k
    (try intros)
    simp only [rfE, rfEs, rfIts, rfS, rfI, rfT, rfB, calmE, calmEs, calmIts, calmS, calmI, calmT, calmB, *]
  | .call b t as => by
    have ih1 := calm_rfE b
    have ih2 := calm_rfEs as
    (try intros)
    simp only [rfE, rfEs, rfIts, rfS, rfI, rfT, rfB, calmE, calmEs, calmIts, calmS, calmI, calmT, calmB, *]
  | .method b x t as => by
    have ih1 := calm_rfE b
    have ih2 := calm_rfEs as
    (try intros)
    simp only [rfE, rfEs, rfIts, rfS, rfI, rfT, rfB, calmE, calmEs, calmIts, calmS, calmI, calmT, calmB, *]
  | .table its => by
    have ih1 := calm_rfIts its
    (try intros)
    simp only [rfE, rfEs, rfIts, rfS, rfI, rfT, rfB, calmE, calmEs, calmIts, calmS, calmI, calmT, calmB, *]
theorem calm_rfEs : ∀ (x : Exs), calmEs (rfEs false x) = calmEs x
  | .nil => by
    (try intros)
    simp only [rfE, rfEs, rfIts, rfS, rfI, rfT, rfB, calmE, calmEs, calmIts, calmS, calmI, calmT, calmB, *]
  | .cons e es => by
    have ih1 := calm_rfE e
    have ih2 := calm_rfEs es
    (try intros)
    simp only [rfE, rfEs, rfIts, rfS, rfI, rfT, rfB, calmE, calmEs, calmIts, calmS, calmI, calmT, calmB, *]
theorem calm_rfIts : ∀ (x : Its), calmIts (rfIts false x) = calmIts x
  | .nil => by
    (try intros)
    simp only [rfE, rfEs, rfIts, rfS, rfI, rfT, rfB, calmE, calmEs, calmIts, calmS, calmI, calmT, calmB, *]
  | .pos e its => by
    have ih1 := calm_rfE e
    have ih2 := calm_rfIts its
    (try intros)
    simp only [rfE, rfEs, rfIts, rfS, rfI, rfT, rfB, calmE, calmEs, calmIts, calmS, calmI, calmT, calmB, *]
  | .named x e its => by
    have ih1 := calm_rfE e
    have ih2 := calm_rfIts its
    (try intros)
    simp only [rfE, rfEs, rfIts, rfS, rfI, rfT, rfB, calmE, calmEs, calmIts, calmS, calmI, calmT, calmB, *]
  | .keyed k e its => by
    have ih1 := calm_rfE k
    have ih2 := calm_rfE e
    have ih3 := calm_rfIts its
    (try intros)
    simp only [rfE, rfEs, rfIts, rfS, rfI, rfT, rfB, calmE, calmEs, calmIts, calmS, calmI, calmT, calmB, *]
theorem calm_rfS : ∀ (x : St), ∀ c, calmS (rfS false c x) = calmS x
  | .do_ b => by
    have ih1 := calm_rfB b
    (try intros)
    simp only [rfE, rfEs, rfIts, rfS, rfI, rfT, rfB, calmE, calmEs, calmIts, calmS, calmI, calmT, calmB, *]
  | .if_ i => by
    have ih1 := calm_rfI i
    (try intros)
    simp only [rfE, rfEs, rfIts, rfS, rfI, rfT, rfB, calmE, calmEs, calmIts, calmS, calmI, calmT, calmB, *]
  | .while_ e b => by
    have ih1 := calm_rfE e
    have ih2 := calm_rfB b
    (try intros)
    simp only [rfE, rfEs, rfIts, rfS, rfI, rfT, rfB, calmE, calmEs, calmIts, calmS, calmI, calmT, calmB, *]
  | .whileShort e b d => by
    have ih1 := calm_rfE e
    have ih2 := calm_rfB b
    intro c
    cases d <;> simp [rfS, rfI, calmS, calmI, *]
  | .repeat_ b e => by
    have ih1 := calm_rfB b
    have ih2 := calm_rfE e
    (try intros)
    simp only [rfE, rfEs, rfIts, rfS, rfI, rfT, rfB, calmE, calmEs, calmIts, calmS, calmI, calmT, calmB, *]
  | .fornum x a b s d => by
    have ih1 := calm_rfE a
    have ih2 := calm_rfE b
    have ih3 := calm_rfEs s
    have ih4 := calm_rfB d
    (try intros)
    simp only [rfE, rfEs, rfIts, rfS, rfI, rfT, rfB, calmE, calmEs, calmIts, calmS, calmI, calmT, calmB, *]
  | .forin xs es d => by
    have ih1 := calm_rfEs es
    have ih2 := calm_rfB d
    (try intros)
    simp only [rfE, rfEs, rfIts, rfS, rfI, rfT, rfB, calmE, calmEs, calmIts, calmS, calmI, calmT, calmB, *]
  | .break_ => by
    (try intros)
    simp only [rfE, rfEs, rfIts, rfS, rfI, rfT, rfB, calmE, calmEs, calmIts, calmS, calmI, calmT, calmB, *]
  | .return_ es => by
    have ih1 := calm_rfEs es
    (try intros)
    simp only [rfE, rfEs, rfIts, rfS, rfI, rfT, rfB, calmE, calmEs, calmIts, calmS, calmI, calmT, calmB, *]
  | .local_ xs es => by
    have ih1 := calm_rfEs es
    (try intros)
    simp only [rfE, rfEs, rfIts, rfS, rfI, rfT, rfB, calmE, calmEs, calmIts, calmS, calmI, calmT, calmB, *]
  | .localfn x ps b => by
    have ih1 := calm_rfB b
    (try intros)
    simp only [rfE, rfEs, rfIts, rfS, rfI, rfT, rfB, calmE, calmEs, calmIts, calmS, calmI, calmT, calmB, *]
  | .goto_ x => by
    (try intros)
    simp only [rfE, rfEs, rfIts, rfS, rfI, rfT, rfB, calmE, calmEs, calmIts, calmS, calmI, calmT, calmB, *]
  | .label x => by
    (try intros)
    simp only [rfE, rfEs, rfIts, rfS, rfI, rfT, rfB, calmE, calmEs, calmIts, calmS, calmI, calmT, calmB, *]
  | .func f ps b => by
    have ih1 := calm_rfB b
    (try intros)
    simp only [rfE, rfEs, rfIts, rfS, rfI, rfT, rfB, calmE, calmEs, calmIts, calmS, calmI, calmT, calmB, *]
  | .assign ts es => by
    have ih1 := calm_rfEs ts
    have ih2 := calm_rfEs es
    (try intros)
    simp only [rfE, rfEs, rfIts, rfS, rfI, rfT, rfB, calmE, calmEs, calmIts, calmS, calmI, calmT, calmB, *]
  | .opassign o t e => by
    have ih1 := calm_rfE t
    have ih2 := calm_rfE e
    (try intros)
    simp only [rfE, rfEs, rfIts, rfS, rfI, rfT, rfB, calmE, calmEs, calmIts, calmS, calmI, calmT, calmB, *]
  | .call e => by
    have ih1 := calm_rfE e
    (try intros)
    simp only [rfE, rfEs, rfIts, rfS, rfI, rfT, rfB, calmE, calmEs, calmIts, calmS, calmI, calmT, calmB, *]
  | .print es => by
    have ih1 := calm_rfEs es
    (try intros)
    simp only [rfE, rfEs, rfIts, rfS, rfI, rfT, rfB, calmE, calmEs, calmIts, calmS, calmI, calmT, calmB, *]
theorem calm_rfI : ∀ (x : If), ∀ c, calmI (rfI false c x) = calmI x
  | .long e b t => by
    have ih1 := calm_rfE e
    have ih2 := calm_rfB b
    have ih3 := calm_rfT t
    (try intros)
    simp only [rfE, rfEs, rfIts, rfS, rfI, rfT, rfB, calmE, calmEs, calmIts, calmS, calmI, calmT, calmB, *]
  | .short e b d => by
    have ih1 := calm_rfE e
    have ih2 := calm_rfB b
    intro c
    cases d <;> simp [rfS, rfI, calmS, calmI, *]
  | .shortElse e b b' d => by
    have ih1 := calm_rfE e
    have ih2 := calm_rfB b
    have ih3 := calm_rfB b'
    intro c
    cases d <;> simp [rfS, rfI, calmS, calmI, *]
theorem calm_rfT : ∀ (x : Tail), calmT (rfT false x) = calmT x
  | .end_ => by
    (try intros)
    simp only [rfE, rfEs, rfIts, rfS, rfI, rfT, rfB, calmE, calmEs, calmIts, calmS, calmI, calmT, calmB, *]
  | .else_ b => by
    have ih1 := calm_rfB b
    (try intros)
    simp only [rfE, rfEs, rfIts, rfS, rfI, rfT, rfB, calmE, calmEs, calmIts, calmS, calmI, calmT, calmB, *]
  | .elseif_ i => by
    have ih1 := calm_rfI i
    (try intros)
    simp only [rfE, rfEs, rfIts, rfS, rfI, rfT, rfB, calmE, calmEs, calmIts, calmS, calmI, calmT, calmB, *]
theorem calm_rfB : ∀ (x : Block), ∀ c, calmB (rfB false c x) = calmB x
  | .nil => by
    (try intros)
    simp only [rfE, rfEs, rfIts, rfS, rfI, rfT, rfB, calmE, calmEs, calmIts, calmS, calmI, calmT, calmB, *]
  | .semi b => by
    have ih1 := calm_rfB b
    (try intros)
    simp only [rfE, rfEs, rfIts, rfS, rfI, rfT, rfB, calmE, calmEs, calmIts, calmS, calmI, calmT, calmB, *]
  | .cons s b => by
    have ih1 := calm_rfS s
    have ih2 := calm_rfB b
    (try intros)
    simp only [rfE, rfEs, rfIts, rfS, rfI, rfT, rfB, calmE, calmEs, calmIts, calmS, calmI, calmT, calmB, *]
end

theorem flag_ok {sh c c' d : Bool} (h : okFlag false sh c d) (hc : sh = false → c = c') : okFlag true sh c' (if sh then c' else d) := by
  unfold okFlag at *
  cases sh <;> simp_all

variable {L : Lang}
mutual
theorem fine_rfE : ∀ (x : Ex), ∀ sh, fE false L sh x → fE true L sh (rfE sh x)
  | .var x => by
    (try intros)
    simp only [fE, fEs, fIts, fS, fI, fT, fB, rfE, rfEs, rfIts, rfS, rfI, rfT, rfB]
  | .num x => by
    (try intros)
    simp only [fE, fEs, fIts, fS, fI, fT, fB, rfE, rfEs, rfIts, rfS, rfI, rfT, rfB]
  | .str x => by
    (try intros)
    simp only [fE, fEs, fIts, fS, fI, fT, fB, rfE, rfEs, rfIts, rfS, rfI, rfT, rfB]
  | .cst x => by
    (try intros)
    simp only [fE, fEs, fIts, fS, fI, fT, fB, rfE, rfEs, rfIts, rfS, rfI, rfT, rfB]
  | .vararg => by
    (try intros)
    simp only [fE, fEs, fIts, fS, fI, fT, fB, rfE, rfEs, rfIts, rfS, rfI, rfT, rfB]
  | .func ps b => by
    have ih1 := fine_rfB b
    intro sh h
    simp only [fE, rfE, fEs, rfEs, fIts, rfIts, lvl_rf, pre_rf, bare_rf] at *
    exact ih1 _ _ _ (fun _ => rfl) h
  | .group e => by
    have ih1 := fine_rfE e
    intro sh h
    simp only [fE, rfE, fEs, rfEs, fIts, rfIts, lvl_rf, pre_rf, bare_rf] at *
    exact ih1 _ h
  | .un o e => by
    have ih1 := fine_rfE e
    intro sh h
    simp only [fE, rfE, fEs, rfEs, fIts, rfIts, lvl_rf, pre_rf, bare_rf] at *
    exact ⟨h.1, h.2.1, ih1 _ h.2.2⟩
  | .bin o l r => by
    have ih1 := fine_rfE l
    have ih2 := fine_rfE r
    intro sh h
    simp only [fE, rfE, fEs, rfEs, fIts, rfIts, lvl_rf, pre_rf, bare_rf] at *
    exact ⟨h.1, h.2.1, h.2.2.1, ih1 _ h.2.2.2.1, ih2 _ h.2.2.2.2⟩
  | .member b x => by
    have ih1 := fine_rfE b
    intro sh h
    simp only [fE, rfE, fEs, rfEs, fIts, rfIts, lvl_rf, pre_rf, bare_rf] at *
    exact ⟨h.1, ih1 _ h.2⟩
  | .index b k => by
    have ih1 := fine_rfE b
    have ih2 := fine_rfE k
    intro sh h
    simp only [fE, rfE, fEs, rfEs, fIts, rfIts, lvl_rf, pre_rf, bare_rf] at *
    exact ⟨h.1, ih1 _ h.2.1, ih2 _ h.2.2⟩
  | .call b t as => by
    have ih1 := fine_rfE b
    have ih2 := fine_rfEs as
    intro sh h
    simp only [fE, rfE, fEs, rfEs, fIts, rfIts, lvl_rf, pre_rf, bare_rf] at *
    exact ⟨h.1, ih1 _ h.2.1, ih2 _ h.2.2.1, h.2.2.2⟩
  | .method b x t as => by
    have ih1 := fine_rfE b
    have ih2 := fine_rfEs as
    intro sh h
    simp only [fE, rfE, fEs, rfEs, fIts, rfIts, lvl_rf, pre_rf, bare_rf] at *
    exact ⟨h.1, ih1 _ h.2.1, ih2 _ h.2.2.1, h.2.2.2⟩
  | .table its => by
    have ih1 := fine_rfIts its
    intro sh h
    simp only [fE, rfE, fEs, rfEs, fIts, rfIts, lvl_rf, pre_rf, bare_rf] at *
    exact ih1 _ h
theorem fine_rfEs : ∀ (x : Exs), ∀ sh, fEs false L sh x → fEs true L sh (rfEs sh x)
  | .nil => by
    (try intros)
    simp only [fE, fEs, fIts, fS, fI, fT, fB, rfE, rfEs, rfIts, rfS, rfI, rfT, rfB]
  | .cons e es => by
    have ih1 := fine_rfE e
    have ih2 := fine_rfEs es
    intro sh h
    simp only [fE, rfE, fEs, rfEs, fIts, rfIts, lvl_rf, pre_rf, bare_rf] at *
    exact ⟨ih1 _ h.1, ih2 _ h.2⟩
theorem fine_rfIts : ∀ (x : Its), ∀ sh, fIts false L sh x → fIts true L sh (rfIts sh x)
  | .nil => by
    (try intros)
    simp only [fE, fEs, fIts, fS, fI, fT, fB, rfE, rfEs, rfIts, rfS, rfI, rfT, rfB]
  | .pos e its => by
    have ih1 := fine_rfE e
    have ih2 := fine_rfIts its
    intro sh h
    simp only [fE, rfE, fEs, rfEs, fIts, rfIts, lvl_rf, pre_rf, bare_rf] at *
    exact ⟨ih1 _ h.1, ih2 _ h.2⟩
  | .named x e its => by
    have ih1 := fine_rfE e
    have ih2 := fine_rfIts its
    intro sh h
    simp only [fE, rfE, fEs, rfEs, fIts, rfIts, lvl_rf, pre_rf, bare_rf] at *
    exact ⟨ih1 _ h.1, ih2 _ h.2⟩
  | .keyed k e its => by
    have ih1 := fine_rfE k
    have ih2 := fine_rfE e
    have ih3 := fine_rfIts its
    intro sh h
    simp only [fE, rfE, fEs, rfEs, fIts, rfIts, lvl_rf, pre_rf, bare_rf] at *
    exact ⟨ih1 _ h.1, ih2 _ h.2.1, ih3 _ h.2.2⟩
theorem fine_rfS : ∀ (x : St), ∀ sh c c', (sh = false → c = c') → fS false L sh c x → fS true L sh c' (rfS sh c' x)
  | .do_ b => by
    have ih1 := fine_rfB b
    intro sh c c' hc h
    simp only [fS, rfS, targets_rf, target_rf, call_rf, ne_eq, nil_rf] at *
    exact ih1 _ _ _ (fun _ => rfl) h
  | .if_ i => by
    have ih1 := fine_rfI i
    intro sh c c' hc h
    simp only [fS, rfS, targets_rf, target_rf, call_rf, ne_eq, nil_rf] at *
    exact ih1 _ _ _ hc h
  | .while_ e b => by
    have ih1 := fine_rfE e
    have ih2 := fine_rfB b
    intro sh c c' hc h
    simp only [fS, rfS, targets_rf, target_rf, call_rf, ne_eq, nil_rf] at *
    exact ⟨ih1 _ h.1, ih2 _ _ _ (fun _ => rfl) h.2⟩
  | .whileShort e b d => by
    have ih1 := fine_rfE e
    have ih2 := fine_rfB b
    intro sh c c' hc h
    simp only [fS, rfS, targets_rf, target_rf, call_rf, ne_eq, nil_rf] at *
    obtain ⟨h1, h2, h3, h4, h5, h6, h7⟩ := h
    rw [group_rf, or_flag, do_rf, lead_rfB]
    refine ⟨flag_ok h1 hc, h2, ih1 _ h3, ih2 _ _ _ ?_ h4, ?_, h6, h7⟩
    · cases sh <;> simp
    · rintro rfl hd
      have hd' : d = true := hd
      subst hd'
      rw [Bool.not_true, Bool.or_self, calm_rfE, calm_rfB]; exact h5 rfl rfl
  | .repeat_ b e => by
    have ih1 := fine_rfB b
    have ih2 := fine_rfE e
    intro sh c c' hc h
    simp only [fS, rfS, targets_rf, target_rf, call_rf, ne_eq, nil_rf] at *
    exact ⟨ih1 _ _ _ (fun _ => rfl) h.1, ih2 _ h.2⟩
  | .fornum x a b s d => by
    have ih1 := fine_rfE a
    have ih2 := fine_rfE b
    have ih3 := fine_rfEs s
    have ih4 := fine_rfB d
    intro sh c c' hc h
    simp only [fS, rfS, targets_rf, target_rf, call_rf, ne_eq, nil_rf] at *
    exact ⟨ih1 _ h.1, ih2 _ h.2.1, ih3 _ h.2.2.1, h.2.2.2.1.imp id one_rf, ih4 _ _ _ (fun _ => rfl) h.2.2.2.2⟩
  | .forin xs es d => by
    have ih1 := fine_rfEs es
    have ih2 := fine_rfB d
    intro sh c c' hc h
    simp only [fS, rfS, targets_rf, target_rf, call_rf, ne_eq, nil_rf] at *
    exact ⟨h.1, h.2.1, ih1 _ h.2.2.1, ih2 _ _ _ (fun _ => rfl) h.2.2.2⟩
  | .break_ => by
    (try intros)
    simp only [fE, fEs, fIts, fS, fI, fT, fB, rfE, rfEs, rfIts, rfS, rfI, rfT, rfB]
  | .return_ es => by
    have ih1 := fine_rfEs es
    intro sh c c' hc h
    simp only [fS, rfS, targets_rf, target_rf, call_rf, ne_eq, nil_rf] at *
    exact ih1 _ h
  | .local_ xs es => by
    have ih1 := fine_rfEs es
    intro sh c c' hc h
    simp only [fS, rfS, targets_rf, target_rf, call_rf, ne_eq, nil_rf] at *
    exact ⟨h.1, h.2.1, ih1 _ h.2.2⟩
  | .localfn x ps b => by
    have ih1 := fine_rfB b
    intro sh c c' hc h
    simp only [fS, rfS, targets_rf, target_rf, call_rf, ne_eq, nil_rf] at *
    exact ih1 _ _ _ (fun _ => rfl) h
  | .goto_ x => by
    (try intros)
    simp only [fE, fEs, fIts, fS, fI, fT, fB, rfE, rfEs, rfIts, rfS, rfI, rfT, rfB]
  | .label x => by
    (try intros)
    simp only [fE, fEs, fIts, fS, fI, fT, fB, rfE, rfEs, rfIts, rfS, rfI, rfT, rfB]
  | .func f ps b => by
    have ih1 := fine_rfB b
    intro sh c c' hc h
    simp only [fS, rfS, targets_rf, target_rf, call_rf, ne_eq, nil_rf] at *
    exact ih1 _ _ _ (fun _ => rfl) h
  | .assign ts es => by
    have ih1 := fine_rfEs ts
    have ih2 := fine_rfEs es
    intro sh c c' hc h
    simp only [fS, rfS, targets_rf, target_rf, call_rf, ne_eq, nil_rf] at *
    exact ⟨h.1, h.2.1, h.2.2.1, ih1 _ h.2.2.2.1, ih2 _ h.2.2.2.2⟩
  | .opassign o t e => by
    have ih1 := fine_rfE t
    have ih2 := fine_rfE e
    intro sh c c' hc h
    simp only [fS, rfS, targets_rf, target_rf, call_rf, ne_eq, nil_rf] at *
    exact ⟨h.1, ih1 _ h.2.1, ih2 _ h.2.2⟩
  | .call e => by
    have ih1 := fine_rfE e
    intro sh c c' hc h
    simp only [fS, rfS, targets_rf, target_rf, call_rf, ne_eq, nil_rf] at *
    exact ⟨h.1, ih1 _ h.2⟩
  | .print es => by
    have ih1 := fine_rfEs es
    intro sh c c' hc h
    simp only [fS, rfS, targets_rf, target_rf, call_rf, ne_eq, nil_rf] at *
    exact ⟨h.1, ih1 _ h.2⟩
theorem fine_rfI : ∀ (x : If), ∀ sh c c', (sh = false → c = c') → fI false L sh c x → fI true L sh c' (rfI sh c' x)
  | .long e b t => by
    have ih1 := fine_rfE e
    have ih2 := fine_rfB b
    have ih3 := fine_rfT t
    intro sh c c' hc h
    simp only [fI, rfI] at *
    rw [isElse_rf, dangle_rfB]
    exact ⟨ih1 _ h.1, ih2 _ _ _ (fun _ => rfl) h.2.1, ih3 _ h.2.2.1, h.2.2.2⟩
  | .short e b d => by
    have ih1 := fine_rfE e
    have ih2 := fine_rfB b
    intro sh c c' hc h
    simp only [fI, rfI] at *
    obtain ⟨h1, h2, h3, h4, h5, h6, h7⟩ := h
    rw [group_rf, or_flag, do_rf, lead_rfB]
    refine ⟨flag_ok h1 hc, h2, ih1 _ h3, ih2 _ _ _ ?_ h4, ?_, h6, h7⟩
    · cases sh <;> simp
    · rintro rfl hd
      have hd' : d = true := hd
      subst hd'
      rw [Bool.not_true, Bool.or_self, calm_rfE, calm_rfB]; exact h5 rfl rfl
  | .shortElse e b b' d => by
    have ih1 := fine_rfE e
    have ih2 := fine_rfB b
    have ih3 := fine_rfB b'
    intro sh c c' hc h
    simp only [fI, rfI] at *
    obtain ⟨h1, h2, h3, h4, h4', h5, h6, h7, h8⟩ := h
    rw [group_rf, or_flag, do_rf, lead_rfB, dangle_rfB]
    refine ⟨flag_ok h1 hc, h2, ih1 _ h3, ih2 _ _ _ (fun _ => rfl) h4, ih3 _ _ _ ?_ h4', ?_, h6, h7, h8⟩
    · cases sh <;> simp
    · rintro rfl hd
      have hd' : d = true := hd
      subst hd'
      rw [Bool.not_true, Bool.or_self, calm_rfE, calm_rfB, calm_rfB]; exact h5 rfl rfl
theorem fine_rfT : ∀ (x : Tail), ∀ sh, fT false L sh x → fT true L sh (rfT sh x)
  | .end_ => by
    (try intros)
    simp only [fE, fEs, fIts, fS, fI, fT, fB, rfE, rfEs, rfIts, rfS, rfI, rfT, rfB]
  | .else_ b => by
    have ih1 := fine_rfB b
    intro sh h
    rw [fT] at h
    rw [rfT, fT]; exact ih1 _ _ _ (fun _ => rfl) h
  | .elseif_ i => by
    have ih1 := fine_rfI i
    intro sh h
    rw [fT] at h
    rw [rfT, fT]; exact ⟨by cases i <;> exact h.1, ih1 _ _ _ (fun _ => rfl) h.2⟩
theorem fine_rfB : ∀ (x : Block), ∀ sh c c', (sh = false → c = c') → fB false L sh c x → fB true L sh c' (rfB sh c' x)
  | .nil => by
    (try intros)
    simp only [fE, fEs, fIts, fS, fI, fT, fB, rfE, rfEs, rfIts, rfS, rfI, rfT, rfB]
  | .semi b => by
    have ih1 := fine_rfB b
    intro sh c c' hc h
    rw [fB] at h
    rw [rfB, fB]; exact ih1 _ _ _ hc h
  | .cons s b => by
    have ih1 := fine_rfS s
    have ih2 := fine_rfB b
    intro sh c c' hc h
    rw [fB] at h
    rw [rfB, fB, open_rfS, lead_rfB, ret_rf, semis_rf, cond_rfS, do_rf, flag_rf]
    obtain ⟨h1, h2, h3, h4, h5, h6⟩ := h
    refine ⟨ih1 _ _ _ hc h1, ih2 _ _ _ hc h2, h3, ?_, h5, h6⟩
    intro d hd hs
    cases hf : flag s with
    | none => simp [hf] at hd
    | some d' =>
      rw [h4 d' hf ?_, rfB]
      cases sh <;> simp_all
end


theorem fine_rf {b : Block} (h : Fine false L b) : Fine true L (rfB false false b) :=
  ⟨fine_rfB b _ _ _ (fun _ => rfl) h.1, by rw [endsRet_rf]; exact h.2⟩

/-! ### What it means -/

open LuaNorm

theorem multi_rf (sh : Bool) : ∀ e : Ex, multi (rfE sh e) = multi e
  | .group e => by rw [rfE, multi, multi, multi_rf sh e]
  | .call _ _ _ | .method _ _ _ _ | .vararg | .bin _ _ _ | .un _ _ | .member _ _ | .index _ _ => rfl
  | .var _ | .num _ | .str _ | .cst _ | .func _ _ | .table _ => rfl
theorem len_rf (sh : Bool) : ∀ es : Exs, len (rfEs sh es) = len es
  | .nil => rfl
  | .cons e es => by rw [rfEs, len, len, len_rf sh es]

variable (V : Lit)
mutual
theorem norm_rfE : ∀ (x : Ex), ∀ sh all, nE L V all (rfE sh x) = nE L V all x
  | .var x => by
    (try intros)
    simp only [rfE, rfEs, rfIts, rfS, rfI, rfT, rfB, nE, nEs, nIts, nS, nI, nT, nB, multi_rf, len_rf, *]
  | .num x => by
    (try intros)
    simp only [rfE, rfEs, rfIts, rfS, rfI, rfT, rfB, nE, nEs, nIts, nS, nI, nT, nB, multi_rf, len_rf, *]
  | .str x => by
    (try intros)
    simp only [rfE, rfEs, rfIts, rfS, rfI, rfT, rfB, nE, nEs, nIts, nS, nI, nT, nB, multi_rf, len_rf, *]
  | .cst x => by
    (try intros)
    simp only [rfE, rfEs, rfIts, rfS, rfI, rfT, rfB, nE, nEs, nIts, nS, nI, nT, nB, multi_rf, len_rf, *]
  | .vararg => by
    (try intros)
    simp only [rfE, rfEs, rfIts, rfS, rfI, rfT, rfB, nE, nEs, nIts, nS, nI, nT, nB, multi_rf, len_rf, *]
  | .func ps b => by
    have ih1 := norm_rfB b
    (try intros)
    simp only [rfE, rfEs, rfIts, rfS, rfI, rfT, rfB, nE, nEs, nIts, nS, nI, nT, nB, multi_rf, len_rf, *]
  | .group e => by
    have ih1 := norm_rfE e
    (try intros)
    simp only [rfE, rfEs, rfIts, rfS, rfI, rfT, rfB, nE, nEs, nIts, nS, nI, nT, nB, multi_rf, len_rf, *]
  | .un o e => by
    have ih1 := norm_rfE e
    (try intros)
    simp only [rfE, rfEs, rfIts, rfS, rfI, rfT, rfB, nE, nEs, nIts, nS, nI, nT, nB, multi_rf, len_rf, *]
  | .bin o l r => by
    have ih1 := norm_rfE l
    have ih2 := norm_rfE r
    (try intros)
    simp only [rfE, rfEs, rfIts, rfS, rfI, rfT, rfB, nE, nEs, nIts, nS, nI, nT, nB, multi_rf, len_rf, *]
  | .member b x => by
    have ih1 := norm_rfE b
    (try intros)
    simp only [rfE, rfEs, rfIts, rfS, rfI, rfT, rfB, nE, nEs, nIts, nS, nI, nT, nB, multi_rf, len_rf, *]
  | .index b k => by
    have ih1 := norm_rfE b
    have ih2 := norm_rfE k
    (try intros)
    simp only [rfE, rfEs, rfIts, rfS, rfI, rfT, rfB, nE, nEs, nIts, nS, nI, nT, nB, multi_rf, len_rf, *]
  | .call b t as => by
    have ih1 := norm_rfE b
    have ih2 := norm_rfEs as
    (try intros)
    simp only [rfE, rfEs, rfIts, rfS, rfI, rfT, rfB, nE, nEs, nIts, nS, nI, nT, nB, multi_rf, len_rf, *]
  | .method b x t as => by
    have ih1 := norm_rfE b
    have ih2 := norm_rfEs as
    (try intros)
    simp only [rfE, rfEs, rfIts, rfS, rfI, rfT, rfB, nE, nEs, nIts, nS, nI, nT, nB, multi_rf, len_rf, *]
  | .table its => by
    have ih1 := norm_rfIts its
    (try intros)
    simp only [rfE, rfEs, rfIts, rfS, rfI, rfT, rfB, nE, nEs, nIts, nS, nI, nT, nB, multi_rf, len_rf, *]
theorem norm_rfEs : ∀ (x : Exs), ∀ sh all, nEs L V all (rfEs sh x) = nEs L V all x
  | .nil => by
    (try intros)
    simp only [rfE, rfEs, rfIts, rfS, rfI, rfT, rfB, nE, nEs, nIts, nS, nI, nT, nB, multi_rf, len_rf, *]
  | .cons e .nil => by
    have ih1 := norm_rfE e
    (try intros)
    simp only [rfE, rfEs, rfIts, rfS, rfI, rfT, rfB, nE, nEs, nIts, nS, nI, nT, nB, multi_rf, len_rf, *]
  | .cons e (.cons f es) => by
    have ih1 := norm_rfE e
    have ih2 := norm_rfEs (.cons f es)
    intro sh all
    exact congr_two Exs.cons (ih1 sh false) (ih2 sh all)
theorem norm_rfIts : ∀ (x : Its), ∀ sh, nIts L V (rfIts sh x) = nIts L V x
  | .nil => by
    (try intros)
    simp only [rfE, rfEs, rfIts, rfS, rfI, rfT, rfB, nE, nEs, nIts, nS, nI, nT, nB, multi_rf, len_rf, *]
  | .pos e .nil => by
    have ih1 := norm_rfE e
    (try intros)
    simp only [rfE, rfEs, rfIts, rfS, rfI, rfT, rfB, nE, nEs, nIts, nS, nI, nT, nB, multi_rf, len_rf, *]
  | .pos e (.pos f its) => by
    have ih1 := norm_rfE e
    have ih2 := norm_rfIts (.pos f its)
    intro sh
    exact congr_two Its.pos (ih1 sh false) (ih2 sh)
  | .pos e (.named y f its) => by
    have ih1 := norm_rfE e
    have ih2 := norm_rfIts (.named y f its)
    intro sh
    exact congr_two Its.pos (ih1 sh false) (ih2 sh)
  | .pos e (.keyed k f its) => by
    have ih1 := norm_rfE e
    have ih2 := norm_rfIts (.keyed k f its)
    intro sh
    exact congr_two Its.pos (ih1 sh false) (ih2 sh)
  | .named x e its => by
    have ih1 := norm_rfE e
    have ih2 := norm_rfIts its
    (try intros)
    simp only [rfE, rfEs, rfIts, rfS, rfI, rfT, rfB, nE, nEs, nIts, nS, nI, nT, nB, multi_rf, len_rf, *]
  | .keyed k e its => by
    have ih1 := norm_rfE k
    have ih2 := norm_rfE e
    have ih3 := norm_rfIts its
    (try intros)
    simp only [rfE, rfEs, rfIts, rfS, rfI, rfT, rfB, nE, nEs, nIts, nS, nI, nT, nB, multi_rf, len_rf, *]
theorem norm_rfS : ∀ (x : St), ∀ sh c, nS L V (rfS sh c x) = nS L V x
  | .do_ b => by
    have ih1 := norm_rfB b
    (try intros)
    simp only [rfE, rfEs, rfIts, rfS, rfI, rfT, rfB, nE, nEs, nIts, nS, nI, nT, nB, multi_rf, len_rf, *]
  | .if_ i => by
    have ih1 := norm_rfI i
    (try intros)
    simp only [rfE, rfEs, rfIts, rfS, rfI, rfT, rfB, nE, nEs, nIts, nS, nI, nT, nB, multi_rf, len_rf, *]
  | .while_ e b => by
    have ih1 := norm_rfE e
    have ih2 := norm_rfB b
    (try intros)
    simp only [rfE, rfEs, rfIts, rfS, rfI, rfT, rfB, nE, nEs, nIts, nS, nI, nT, nB, multi_rf, len_rf, *]
  | .whileShort e b d => by
    have ih1 := norm_rfE e
    have ih2 := norm_rfB b
    (try intros)
    simp only [rfE, rfEs, rfIts, rfS, rfI, rfT, rfB, nE, nEs, nIts, nS, nI, nT, nB, multi_rf, len_rf, *]
  | .repeat_ b e => by
    have ih1 := norm_rfB b
    have ih2 := norm_rfE e
    (try intros)
    simp only [rfE, rfEs, rfIts, rfS, rfI, rfT, rfB, nE, nEs, nIts, nS, nI, nT, nB, multi_rf, len_rf, *]
  | .fornum x a b s d => by
    have ih1 := norm_rfE a
    have ih2 := norm_rfE b
    have ih3 := norm_rfEs s
    have ih4 := norm_rfB d
    (try intros)
    simp only [rfE, rfEs, rfIts, rfS, rfI, rfT, rfB, nE, nEs, nIts, nS, nI, nT, nB, multi_rf, len_rf, *]
  | .forin xs es d => by
    have ih1 := norm_rfEs es
    have ih2 := norm_rfB d
    (try intros)
    simp only [rfE, rfEs, rfIts, rfS, rfI, rfT, rfB, nE, nEs, nIts, nS, nI, nT, nB, multi_rf, len_rf, *]
  | .break_ => by
    (try intros)
    simp only [rfE, rfEs, rfIts, rfS, rfI, rfT, rfB, nE, nEs, nIts, nS, nI, nT, nB, multi_rf, len_rf, *]
  | .return_ es => by
    have ih1 := norm_rfEs es
    (try intros)
    simp only [rfE, rfEs, rfIts, rfS, rfI, rfT, rfB, nE, nEs, nIts, nS, nI, nT, nB, multi_rf, len_rf, *]
  | .local_ xs es => by
    have ih1 := norm_rfEs es
    (try intros)
    simp only [rfE, rfEs, rfIts, rfS, rfI, rfT, rfB, nE, nEs, nIts, nS, nI, nT, nB, multi_rf, len_rf, *]
  | .localfn x ps b => by
    have ih1 := norm_rfB b
    (try intros)
    simp only [rfE, rfEs, rfIts, rfS, rfI, rfT, rfB, nE, nEs, nIts, nS, nI, nT, nB, multi_rf, len_rf, *]
  | .goto_ x => by
    (try intros)
    simp only [rfE, rfEs, rfIts, rfS, rfI, rfT, rfB, nE, nEs, nIts, nS, nI, nT, nB, multi_rf, len_rf, *]
  | .label x => by
    (try intros)
    simp only [rfE, rfEs, rfIts, rfS, rfI, rfT, rfB, nE, nEs, nIts, nS, nI, nT, nB, multi_rf, len_rf, *]
  | .func f ps b => by
    have ih1 := norm_rfB b
    (try intros)
    simp only [rfE, rfEs, rfIts, rfS, rfI, rfT, rfB, nE, nEs, nIts, nS, nI, nT, nB, multi_rf, len_rf, *]
  | .assign ts es => by
    have ih1 := norm_rfEs ts
    have ih2 := norm_rfEs es
    (try intros)
    simp only [rfE, rfEs, rfIts, rfS, rfI, rfT, rfB, nE, nEs, nIts, nS, nI, nT, nB, multi_rf, len_rf, *]
  | .opassign o t e => by
    have ih1 := norm_rfE t
    have ih2 := norm_rfE e
    (try intros)
    simp only [rfE, rfEs, rfIts, rfS, rfI, rfT, rfB, nE, nEs, nIts, nS, nI, nT, nB, multi_rf, len_rf, *]
  | .call e => by
    have ih1 := norm_rfE e
    (try intros)
    simp only [rfE, rfEs, rfIts, rfS, rfI, rfT, rfB, nE, nEs, nIts, nS, nI, nT, nB, multi_rf, len_rf, *]
  | .print es => by
    have ih1 := norm_rfEs es
    (try intros)
    simp only [rfE, rfEs, rfIts, rfS, rfI, rfT, rfB, nE, nEs, nIts, nS, nI, nT, nB, multi_rf, len_rf, *]
theorem norm_rfI : ∀ (x : If), ∀ sh c, nI L V (rfI sh c x) = nI L V x
  | .long e b t => by
    have ih1 := norm_rfE e
    have ih2 := norm_rfB b
    have ih3 := norm_rfT t
    (try intros)
    simp only [rfE, rfEs, rfIts, rfS, rfI, rfT, rfB, nE, nEs, nIts, nS, nI, nT, nB, multi_rf, len_rf, *]
  | .short e b d => by
    have ih1 := norm_rfE e
    have ih2 := norm_rfB b
    (try intros)
    simp only [rfE, rfEs, rfIts, rfS, rfI, rfT, rfB, nE, nEs, nIts, nS, nI, nT, nB, multi_rf, len_rf, *]
  | .shortElse e b b' d => by
    have ih1 := norm_rfE e
    have ih2 := norm_rfB b
    have ih3 := norm_rfB b'
    (try intros)
    simp only [rfE, rfEs, rfIts, rfS, rfI, rfT, rfB, nE, nEs, nIts, nS, nI, nT, nB, multi_rf, len_rf, *]
theorem norm_rfT : ∀ (x : Tail), ∀ sh, nT L V (rfT sh x) = nT L V x
  | .end_ => by
    (try intros)
    simp only [rfE, rfEs, rfIts, rfS, rfI, rfT, rfB, nE, nEs, nIts, nS, nI, nT, nB, multi_rf, len_rf, *]
  | .else_ b => by
    have ih1 := norm_rfB b
    (try intros)
    simp only [rfE, rfEs, rfIts, rfS, rfI, rfT, rfB, nE, nEs, nIts, nS, nI, nT, nB, multi_rf, len_rf, *]
  | .elseif_ i => by
    have ih1 := norm_rfI i
    (try intros)
    simp only [rfE, rfEs, rfIts, rfS, rfI, rfT, rfB, nE, nEs, nIts, nS, nI, nT, nB, multi_rf, len_rf, *]
theorem norm_rfB : ∀ (x : Block), ∀ sh c, nB L V (rfB sh c x) = nB L V x
  | .nil => by
    (try intros)
    simp only [rfE, rfEs, rfIts, rfS, rfI, rfT, rfB, nE, nEs, nIts, nS, nI, nT, nB, multi_rf, len_rf, *]
  | .semi b => by
    have ih1 := norm_rfB b
    (try intros)
    simp only [rfE, rfEs, rfIts, rfS, rfI, rfT, rfB, nE, nEs, nIts, nS, nI, nT, nB, multi_rf, len_rf, *]
  | .cons s b => by
    have ih1 := norm_rfS s
    have ih2 := norm_rfB b
    (try intros)
    simp only [rfE, rfEs, rfIts, rfS, rfI, rfT, rfB, nE, nEs, nIts, nS, nI, nT, nB, multi_rf, len_rf, *]
end


end Verif.Mini
