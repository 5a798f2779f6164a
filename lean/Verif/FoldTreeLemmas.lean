import Verif.FoldTree
import Verif.ConstFoldOps
namespace Verif
open Spec

variable {V S : Type}

/-- The value of a constant in a world. -/
def litOf (w : W V S) (lang : Lang) (v : LV) : Option V := (LV.repr lang v).map w.inj

/-- A constant of the language whose comparison is decided correctly (see C22_string_counterexample). -/
def LV.Good (lang : Lang) (v : LV) : Prop :=
  (∃ x, LV.repr lang v = some x) ∧ (lang = .picotron → ∀ s, v = .str s → PlainText s)

end Verif

namespace Verif.Spec

mutual
/-- All constants are good. -/
def Ex.Good (lang : Lang) : Ex → Prop
  | .const v => v.Good lang
  | .var _ => True
  | .group e => e.Good lang
  | .un _ e => e.Good lang
  | .bin _ l r => l.Good lang ∧ r.Good lang
  | .builtin _ args => args.Good lang
  | .call _ args => args.Good lang
  | .other _ args => args.Good lang
def Exs.Good (lang : Lang) : Exs → Prop
  | .nil => True
  | .cons e es => e.Good lang ∧ es.Good lang
end

/-- Expressions that may yield any number of values. -/
def Ex.multi : Ex → Bool
  | .call _ _ => true
  | .builtin _ _ => true
  | _ => false

def _root_.Verif.BinOp.logic (op : BinOp) : Bool := op == .and || op == .or

mutual
/-- No `and`/`or` whose right side yields several values where all values count (`m`). -/
def Ex.Safe (m : Bool) : Ex → Prop
  | .const _ => True
  | .var _ => True
  | .group e => e.Safe false
  | .un _ e => e.Safe false
  | .bin op l r => l.Safe false ∧ r.Safe (m && op.logic) ∧ ((m && op.logic) = true → r.multi = false)
  | .builtin _ args => args.Safe
  | .call _ args => args.Safe
  | .other _ args => args.Safe
def Exs.Safe : Exs → Prop
  | .nil => True
  | .cons e .nil => e.Safe true
  | .cons e (.cons e' es) => e.Safe false ∧ (Exs.cons e' es).Safe
end

theorem Ex.safe_mono {m : Bool} : ∀ {e : Ex}, e.Safe m → e.Safe false
  | .const _, _ => by simp only [Ex.Safe]
  | .var _, _ => by simp only [Ex.Safe]
  | .group _, h => h
  | .un _ _, h => h
  | .bin op l r, h => by
    simp only [Ex.Safe, Bool.false_and, Bool.false_eq_true, false_implies, and_true] at h ⊢
    exact ⟨h.1, Ex.safe_mono h.2.1⟩
  | .builtin _ _, h => h
  | .call _ _, h => h
  | .other _ _, h => h

end Verif.Spec

namespace Verif
open Spec

variable {V S : Type}

/-- First value and state. -/
def oneVal (w : W V S) (lit : LV → Option V) (ρ : Nat → Option Nat) (e : Ex) (s : S) : Option (V × S) :=
  (w.vals lit ρ e s).map fun p => (w.first p.1, p.2)

section
variable (w : W V S) (lit : LV → Option V) (ρ : Nat → Option Nat)

theorem vals_group (e : Ex) (s : S) : w.vals lit ρ (.group e) s = (oneVal w lit ρ e s).map fun p => ([p.1], p.2) := by
  simp only [W.vals, oneVal]; cases w.vals lit ρ e s <;> rfl

theorem vals_un (op : UnOp) (e : Ex) (s : S) :
    w.vals lit ρ (.un op e) s = (oneVal w lit ρ e s).bind fun p => (w.un op p.1 p.2).map fun q => ([q.1], q.2) := by
  simp only [W.vals, oneVal]; cases w.vals lit ρ e s <;> rfl

theorem vals_bin (op : BinOp) (l r : Ex) (s : S) :
    w.vals lit ρ (.bin op l r) s = (oneVal w lit ρ l s).bind fun p =>
      if (op = .and ∧ w.truthy p.1 = false) ∨ (op = .or ∧ w.truthy p.1 = true) then some ([p.1], p.2)
      else (oneVal w lit ρ r p.2).bind fun q =>
        if op = .and ∨ op = .or then some ([q.1], q.2) else (w.bin op p.1 q.1 q.2).map fun t => ([t.1], t.2) := by
  simp only [W.vals, oneVal]
  cases w.vals lit ρ l s with
  | none => rfl
  | some p =>
    simp only [Option.map_some, Option.bind_some]
    split
    · rfl
    · cases w.vals lit ρ r p.2 <;> rfl

theorem one_of_vals {e e' : Ex} (h : ∀ s, w.vals lit ρ e' s = w.vals lit ρ e s) (s : S) : oneVal w lit ρ e' s = oneVal w lit ρ e s := by
  simp only [oneVal, h]
end

theorem vals_const {w : W V S} {lang : Lang} {ρ : Nat → Option Nat} {v : LV} {x : Val} (h : LV.repr lang v = some x) (s : S) :
    w.vals (litOf w lang) ρ (.const v) s = some ([w.inj x], s) := by
  simp only [W.vals, litOf, h]; rfl

/-- A known constant: replacing the node or not makes no difference. -/
theorem set_vals {w : W V S} {c : FoldCtx} {ρ : Nat → Option Nat} {e node : Ex} {v : LV} {x : Val} (hx : LV.repr c.lang v = some x)
    (he : ∀ s, w.vals (litOf w c.lang) ρ e s = some ([w.inj x], s))
    (hn : ∀ s, w.vals (litOf w c.lang) ρ node s = w.vals (litOf w c.lang) ρ e s) (s : S) :
    w.vals (litOf w c.lang) ρ (c.set node v).1 s = w.vals (litOf w c.lang) ρ e s ∧ (c.set node v).2 = some v := by
  unfold FoldCtx.set
  split
  · exact ⟨hn s, rfl⟩
  · exact ⟨by rw [vals_const hx, he], rfl⟩

/-! ### Single operations keep constants good -/

theorem PlainText.append {s t : List Nat} (hs : PlainText s) (ht : PlainText t) : PlainText (s ++ t) := by
  intro c hc
  rcases List.mem_append.mp hc with h | h
  · exact hs c h
  · exact ht c h

theorem good_of_repr {lang : Lang} {v : LV} {x : Val} (h : LV.repr lang v = some x) (hn : ∀ s, v ≠ .str s) : v.Good lang :=
  ⟨⟨x, h⟩, fun _ s e => absurd e (hn s)⟩

theorem tostr_plain {lang : Lang} {v : LV} {t : List Nat} (hl : lang = .picotron) (hv : v.Good lang) (h : luaTostr v = some (some t)) :
    PlainText t := by
  cases v with
  | nil => cases h
  | bool => cases h
  | str s => cases h; exact hv.2 hl _ rfl
  | fix n => obtain ⟨x, hx⟩ := hv.1; obtain ⟨e, _⟩ := repr_fix_inv hx; rw [e] at hl; cases hl
  | int i =>
    obtain ⟨x, hx⟩ := hv.1
    obtain ⟨_, h1, _⟩ := repr_int_inv hx
    rw [luaTostr_int h1] at h
    cases h
    intro c hc; have := decText_ascii i c hc; omega

theorem luaShift_not_str {d : Nat} {f : ShiftFn} {a b v : LV} (h : luaShift d f a b = some (some v)) : ∀ s, v ≠ .str s := by
  fun_induction luaShift d f a b <;> intro s <;> simp_all [LV.mkFix, LV.mkInt] <;> (try (subst h; simp)) <;> rename_i ih <;> exact ih s

theorem foldBin_str {d : Nat} {op : BinOp} {a b : LV} {s : List Nat} (h : foldBin d op a b = some (some (.str s))) :
    op = .cat ∨ .str s = a ∨ .str s = b := by
  cases op <;> simp only [foldBin, Option.some.injEq, reduceCtorEq] at h
  case or => split at h <;> simp [h]
  case and => split at h <;> simp [h]
  case cat => exact Or.inl rfl
  case shl => exact absurd rfl (luaShift_not_str h s)
  case shr => exact absurd rfl (luaShift_not_str h s)
  case lshr => exact absurd rfl (luaShift_not_str h s)
  case rotl => exact absurd rfl (luaShift_not_str h s)
  case rotr => exact absurd rfl (luaShift_not_str h s)
  case eq => unfold luaEq at h; split at h <;> simp at h
  case ne => unfold luaNe at h; split at h <;> simp at h
  case lt => unfold luaLt at h; split at h <;> simp at h
  case le => unfold luaLe at h; split at h <;> simp at h
  case gt => unfold luaGt at h; split at h <;> simp at h
  case ge => unfold luaGe at h; split at h <;> simp at h
  case add => unfold luaAdd at h; split at h <;> simp [LV.mkFix, LV.mkInt] at h
  case sub => unfold luaSub at h; split at h <;> simp [LV.mkFix, LV.mkInt] at h
  case bor => unfold luaBor at h; split at h <;> simp [LV.mkFix, LV.mkInt] at h
  case band => unfold luaBand at h; split at h <;> simp [LV.mkFix, LV.mkInt] at h
  case bxor => unfold luaBxor at h; split at h <;> simp [LV.mkFix, LV.mkInt] at h
  case mul => unfold luaMul at h; split at h <;> simp [LV.mkFix, LV.mkInt] at h
  case div => unfold luaDiv at h; split at h <;> simp [LV.mkFix] at h
  case mod => unfold luaMod at h; split at h <;> simp [LV.mkFix, LV.mkInt] at h
  case idiv =>
    unfold luaIdiv at h
    split at h
    · split at h
      · rename_i c _; cases c <;> simp [luaFloor, LV.mkFix] at h
      · simp at h
    · simp [LV.mkInt] at h
    · simp at h

theorem un_good {lang : Lang} {op : UnOp} {a v : LV} (ha : a.Good lang) (h : foldUn lang op a = some (some v)) : v.Good lang := by
  obtain ⟨x, hx⟩ := ha.1
  obtain ⟨w, h1, h2⟩ := un_ok op hx h
  refine good_of_repr h1 ?_
  intro s hs; subst hs
  cases op <;> simp only [foldUn, Option.some.injEq] at h
  · cases a <;> simp [luaNeg, LV.mkFix, LV.mkInt] at h
  · cases a <;> simp [luaBnot, LV.mkFix, LV.mkInt] at h
  · simp [luaNot] at h
  · cases a <;> simp [luaLen] at h
    cases lang
    · simp only at h; split at h <;> simp [LV.mkFix] at h
    · simp [LV.mkInt] at h

theorem bin_good {lang : Lang} {d : Nat} {op : BinOp} {a b v : LV} (ha : a.Good lang) (hb : b.Good lang)
    (h : foldBin d op a b = some (some v)) : v.Good lang ∧ ∀ arith x y z, LV.repr lang a = some x → LV.repr lang b = some y →
      LV.repr lang v = some z → rtBin arith op x y = some z := by
  obtain ⟨x, hx⟩ := ha.1
  obtain ⟨y, hy⟩ := hb.1
  have hc : CmpOk lang a b := by
    intro hl s hs
    rcases hs with rfl | rfl
    · exact ha.2 hl s rfl
    · exact hb.2 hl s rfl
  have key := fun arith => bin_ok (arith := arith) op hx hy (fun _ => hc) h
  constructor
  · obtain ⟨w, h1, _⟩ := key true
    refine ⟨⟨w, h1⟩, ?_⟩
    rintro hl s rfl
    rcases foldBin_str h with rfl | rfl | rfl
    · simp only [foldBin, luaCat] at h
      split at h
      · rename_i p q e1 e2
        simp only [Option.some.injEq, LV.str.injEq] at h
        subst h
        exact (tostr_plain hl ha e1).append (tostr_plain hl hb e2)
      · simp at h
      · simp at h
    · exact ha.2 hl s rfl
    · exact hb.2 hl s rfl
  · intro arith x' y' z ex ey ez
    rw [hx] at ex; cases ex
    rw [hy] at ey; cases ey
    obtain ⟨w, h1, h2⟩ := key arith
    rw [h1] at ez; cases ez
    exact h2

theorem signed_not_str {a : LV} {p : Int} (h : signedValue a = some p) : ∀ s, a ≠ .str s := by
  rintro s rfl; cases h

theorem foldCall_str {d : Nat} {f : Builtin} {args : List LV} {s : List Nat} :
    foldCall .picotron d f args ≠ some (some (.str s)) := by
  intro h
  match args with
  | [] => cases f <;> cases h
  | [a] =>
    cases f <;> first | (cases h; done) | skip
    · replace h : luaAbs a = some (.str s) := Option.some.inj h
      unfold luaAbs at h; split at h <;> simp [LV.mkFix, LV.mkInt] at h
    · replace h : luaCeil a = some (.str s) := Option.some.inj h
      unfold luaCeil at h; split at h <;> simp [LV.mkFix] at h
      split at h <;> simp at h
    · replace h : luaFloor a = some (.str s) := Option.some.inj h
      unfold luaFloor at h; split at h <;> simp [LV.mkFix] at h
  | [a, b] =>
    cases f <;> first | (cases h; done) | skip
    · replace h : luaMax a b = some (.str s) := Option.some.inj h
      unfold luaMax at h; split at h
      · rename_i e1 e2
        simp only [Option.some.injEq] at h
        split at h
        · exact signed_not_str e1 s h
        · exact signed_not_str e2 s h
      · cases h
    · replace h : luaMin a b = some (.str s) := Option.some.inj h
      unfold luaMin at h; split at h
      · rename_i e1 e2
        simp only [Option.some.injEq] at h
        split at h
        · exact signed_not_str e1 s h
        · exact signed_not_str e2 s h
      · cases h
  | [a, b, c] =>
    cases f <;> first | (cases h; done) | skip
    replace h : luaMid a b c = some (.str s) := Option.some.inj h
    unfold luaMid at h; split at h
    · rename_i e1 e2 e3
      simp only [Option.some.injEq] at h
      split at h
      · exact signed_not_str e2 s h
      · split at h
        · exact signed_not_str e1 s h
        · exact signed_not_str e3 s h
    · cases h
  | _ :: _ :: _ :: _ :: _ => cases f <;> cases h

theorem mapM_repr {lang : Lang} {args : List LV} (hg : ∀ a ∈ args, a.Good lang) : ∃ xs, args.mapM (LV.repr lang) = some xs := by
  induction args with
  | nil => exact ⟨[], rfl⟩
  | cons a as ih =>
    obtain ⟨x, hx⟩ := (hg a (by simp)).1
    obtain ⟨xs, hxs⟩ := ih fun b hb => hg b (List.mem_cons_of_mem _ hb)
    exact ⟨x :: xs, by simp [hx, hxs]⟩

theorem call_good {lang : Lang} {d : Nat} {f : Builtin} {args : List LV} {v : LV} (hg : ∀ a ∈ args, a.Good lang)
    (h : foldCall lang d f args = some (some v)) : v.Good lang ∧ ∀ arith xs z, args.mapM (LV.repr lang) = some xs →
      LV.repr lang v = some z → rtCall arith f xs = some z := by
  obtain ⟨xs, hx⟩ := mapM_repr hg
  constructor
  · obtain ⟨w, h1, _⟩ := call_ok (arith := true) f hx h
    refine ⟨⟨w, h1⟩, ?_⟩
    rintro rfl s rfl
    exact absurd h foldCall_str
  · intro arith xs' z ex ez
    rw [hx] at ex; cases ex
    obtain ⟨w, h1, h2⟩ := call_ok (arith := arith) f hx h
    rw [h1] at ez; cases ez
    exact h2

/-! ### Whole expressions -/

theorem one_const {w : W V S} {lang : Lang} {ρ : Nat → Option Nat} {e : Ex} {y : Val}
    (h : ∀ s, w.vals (litOf w lang) ρ e s = some ([w.inj y], s)) (s : S) : oneVal w (litOf w lang) ρ e s = some (w.inj y, s) := by
  unfold oneVal; rw [h]; rfl

section
variable {w : W V S} {c : FoldCtx} {arith : Bool} {ρ : Nat → Option Nat}

/-- What the fold of an expression guarantees. -/
structure ExOk (w : W V S) (lang : Lang) (ρ : Nat → Option Nat) (e e' : Ex) (k : Option LV) : Prop where
  one : ∀ s, oneVal w (litOf w lang) ρ e' s = oneVal w (litOf w lang) ρ e s
  all : e.Safe true → ∀ s, w.vals (litOf w lang) ρ e' s = w.vals (litOf w lang) ρ e s
  good : ∀ v, k = some v → v.Good lang
  known : ∀ v x, k = some v → LV.repr lang v = some x → ∀ s, w.vals (litOf w lang) ρ e s = some ([w.inj x], s)

/-- The node is left as rebuilt from its folded children. -/
theorem ExOk.same {e e' : Ex} (h : ∀ s, w.vals (litOf w c.lang) ρ e' s = w.vals (litOf w c.lang) ρ e s) :
    ExOk w c.lang ρ e e' none where
  one := fun s => by unfold oneVal; rw [h]
  all := fun _ => h
  good := fun _ h => by cases h
  known := fun _ _ h => by cases h

/-- The node has a known value. -/
theorem ExOk.set {e e' : Ex} {v : LV} (hg : v.Good c.lang) (h : ∀ s, w.vals (litOf w c.lang) ρ e' s = w.vals (litOf w c.lang) ρ e s)
    (hv : ∀ x s, LV.repr c.lang v = some x → w.vals (litOf w c.lang) ρ e s = some ([w.inj x], s)) :
    ExOk w c.lang ρ e (c.set e' v).1 (c.set e' v).2 := by
  obtain ⟨x, hx⟩ := hg.1
  have key := set_vals (c := c) (node := e') hx (fun s => hv x s hx) h
  refine ⟨fun s => by unfold oneVal; rw [(key s).1], fun _ s => (key s).1, ?_, ?_⟩
  · intro v' hv'
    have : (c.set e' v).2 = some v := by unfold FoldCtx.set; split <;> rfl
    rw [this] at hv'; cases hv'; exact hg
  · intro v' x' hv' hx' s
    have : (c.set e' v).2 = some v := by unfold FoldCtx.set; split <;> rfl
    rw [this] at hv'; cases hv'; exact hv x' s hx'

theorem stepUn_ok (hw : w.Ok c.lang arith) {op : UnOp} {e e1 : Ex} {k : Option LV} {r : Ex × Option LV} (h : ExOk w c.lang ρ e e1 k)
    (hr : c.stepUn op e1 k = some r) : ExOk w c.lang ρ (.un op e) r.1 r.2 := by
  have hs : ∀ s, w.vals (litOf w c.lang) ρ (.un op e1) s = w.vals (litOf w c.lang) ρ (.un op e) s := by
    intro s; rw [vals_un, vals_un, h.one]
  cases k with
  | none => simp only [FoldCtx.stepUn, Option.some.injEq] at hr; subst hr; exact .same hs
  | some v =>
    simp only [FoldCtx.stepUn, Option.map_eq_some_iff] at hr
    obtain ⟨q, hq, rfl⟩ := hr
    cases q with
    | none => exact .same hs
    | some z =>
      have hg := h.good v rfl
      refine .set (un_good hg hq) hs ?_
      intro x s hx
      obtain ⟨y, hy⟩ := hg.1
      obtain ⟨u, h1, h2⟩ := un_ok op hy hq
      rw [hx] at h1; cases h1
      rw [vals_un, one_const (fun s => h.known v y rfl hy s)]
      simp only [Option.bind_some, hw.un op y x s h2, Option.map_some]

theorem stepBuiltin_ok (hw : w.Ok c.lang arith) {f : Builtin} {es es1 : Exs} {k : Option (List LV)} {r : Ex × Option LV}
    (h1 : ∀ s, w.args (litOf w c.lang) ρ es1 s = w.args (litOf w c.lang) ρ es s)
    (h2 : ∀ vs, k = some vs → ∀ a ∈ vs, a.Good c.lang)
    (h3 : ∀ vs xs s, k = some vs → vs.mapM (LV.repr c.lang) = some xs → w.args (litOf w c.lang) ρ es s = some (xs.map w.inj, s))
    (hr : c.stepBuiltin f es1 k = some r) : ExOk w c.lang ρ (.builtin f es) r.1 r.2 := by
  have hs : ∀ s, w.vals (litOf w c.lang) ρ (.builtin f es1) s = w.vals (litOf w c.lang) ρ (.builtin f es) s := by
    intro s; simp only [W.vals, h1]
  cases k with
  | none => simp only [FoldCtx.stepBuiltin, Option.some.injEq] at hr; subst hr; exact .same hs
  | some vs =>
    simp only [FoldCtx.stepBuiltin, Option.map_eq_some_iff] at hr
    obtain ⟨q, hq, rfl⟩ := hr
    cases q with
    | none => exact .same hs
    | some z =>
      obtain ⟨g1, g2⟩ := call_good (h2 vs rfl) hq
      obtain ⟨xs, hxs⟩ := mapM_repr (h2 vs rfl)
      refine .set g1 hs ?_
      intro x s hx
      simp only [W.vals, h3 vs xs s rfl hxs, Option.bind_some]
      exact hw.builtin f xs x s (g2 arith xs x hxs hx)

theorem stepBin_ok (hw : w.Ok c.lang arith) {op : BinOp} {l l1 r r1 : Ex} {kl kr : Option LV} {q : Ex × Option LV}
    (hl : ExOk w c.lang ρ l l1 kl) (hr : ExOk w c.lang ρ r r1 kr) (hm : ((Ex.bin op l r).Safe true → op.logic = true → r.multi = false))
    (hrs : (Ex.bin op l r).Safe true → op.logic = true → r.Safe true)
    (hone : r.multi = false → ∀ s p, w.vals (litOf w c.lang) ρ r s = some p → p.1 = [w.first p.1])
    (hq : c.stepBin op l1 kl r1 kr = some q) : ExOk w c.lang ρ (.bin op l r) q.1 q.2 := by
  have hs : ∀ s, w.vals (litOf w c.lang) ρ (.bin op l1 r1) s = w.vals (litOf w c.lang) ρ (.bin op l r) s := by
    intro s; rw [vals_bin, vals_bin, hl.one]; simp only [hr.one]
  -- the node is replaced by its right side
  have right : ∀ a, kl = some a → (op = .and ∧ a.truthy = true) ∨ (op = .or ∧ a.truthy = false) → ExOk w c.lang ρ (.bin op l r) r1 none := by
    intro a ha hop
    have hg := hl.good a ha
    obtain ⟨x, hx⟩ := hg.1
    have ht : w.truthy (w.inj x) = a.truthy := by rw [hw.truthy, repr_truthy hx]
    have e : ∀ s, w.vals (litOf w c.lang) ρ (.bin op l r) s = (oneVal w (litOf w c.lang) ρ r s).map fun p => ([p.1], p.2) := by
      intro s
      rw [vals_bin, one_const (fun s => hl.known a x ha hx s)]
      simp only [Option.bind_some, ht]
      rcases hop with ⟨rfl, h⟩ | ⟨rfl, h⟩
      · simp only [h]; cases oneVal w (litOf w c.lang) ρ r s <;> simp
      · simp only [h]; cases oneVal w (litOf w c.lang) ρ r s <;> simp
    have hlog : op.logic = true := by rcases hop with ⟨rfl, _⟩ | ⟨rfl, _⟩ <;> rfl
    refine ⟨?_, ?_, fun _ h => by (cases h), fun _ _ h => by (cases h)⟩
    · intro s
      rw [hr.one]
      conv => rhs; unfold oneVal
      rw [e]
      cases oneVal w (litOf w c.lang) ρ r s <;> rfl
    · intro hsafe s
      rw [hr.all (hrs hsafe hlog), e]
      cases hv : w.vals (litOf w c.lang) ρ r s with
      | none => simp [oneVal, hv]
      | some p =>
        have := hone (hm hsafe hlog) s p hv
        simp only [oneVal, hv, Option.map_some, Option.some.injEq]
        rw [← this]
  -- the node is known to be its left side
  have left : ∀ a, kl = some a → (op = .and ∧ a.truthy = false) ∨ (op = .or ∧ a.truthy = true) →
      ExOk w c.lang ρ (.bin op l r) (c.set (.bin op l1 r1) a).1 (c.set (.bin op l1 r1) a).2 := by
    intro a ha hop
    have hg := hl.good a ha
    refine .set hg hs ?_
    intro x s hx
    have ht : w.truthy (w.inj x) = a.truthy := by rw [hw.truthy, repr_truthy hx]
    rw [vals_bin, one_const (fun s => hl.known a x ha hx s)]
    simp only [Option.bind_some, ht]
    rw [if_pos hop]
  cases kl with
  | none => simp only [FoldCtx.stepBin, Option.some.injEq] at hq; subst hq; exact .same hs
  | some a =>
    cases kr with
    | none =>
      simp only [FoldCtx.stepBin] at hq
      by_cases h1 : op = .and
      · rw [if_pos h1, Option.some.injEq] at hq; subst hq
        split
        · rename_i ht; exact right a rfl (Or.inl ⟨h1, ht⟩)
        · rename_i ht; exact left a rfl (Or.inl ⟨h1, by simpa using ht⟩)
      · rw [if_neg h1] at hq
        by_cases h2 : op = .or
        · rw [if_pos h2, Option.some.injEq] at hq; subst hq
          split
          · rename_i ht; exact left a rfl (Or.inr ⟨h2, ht⟩)
          · rename_i ht; exact right a rfl (Or.inr ⟨h2, by simpa using ht⟩)
        · rw [if_neg h2, Option.some.injEq] at hq; subst hq; exact .same hs
    | some b =>
      simp only [FoldCtx.stepBin, Option.map_eq_some_iff] at hq
      obtain ⟨z, hz, rfl⟩ := hq
      cases z with
      | none => exact .same hs
      | some v =>
        have ga := hl.good a rfl
        have gb := hr.good b rfl
        obtain ⟨g1, g2⟩ := bin_good ga gb hz
        refine .set g1 hs ?_
        intro x s hx
        obtain ⟨xa, ha⟩ := ga.1
        obtain ⟨xb, hb⟩ := gb.1
        have hrt := g2 arith xa xb x ha hb hx
        rw [vals_bin, one_const (fun s => hl.known a xa rfl ha s)]
        simp only [Option.bind_some]
        have ht : w.truthy (w.inj xa) = xa.truthy := hw.truthy _
        by_cases h1 : op = .and
        · subst h1
          simp only [rtBin, Option.some.injEq] at hrt
          subst hrt
          simp only [ht, one_const (fun s => hr.known b xb rfl hb s)]
          cases xa.truthy <;> simp
        · by_cases h2 : op = .or
          · subst h2
            simp only [rtBin, Option.some.injEq] at hrt
            subst hrt
            simp only [ht, one_const (fun s => hr.known b xb rfl hb s)]
            cases xa.truthy <;> simp
          · rw [if_neg (by simp [h1, h2]), one_const (fun s => hr.known b xb rfl hb s)]
            simp only [Option.bind_some]
            rw [if_neg (by simp [h1, h2]), hw.bin op xa xb x s hrt]; rfl

theorem single_of_not_multi {lit : LV → Option V} {e : Ex} (h : e.multi = false) (s : S) (p : List V × S)
    (hp : w.vals lit ρ e s = some p) : p.1 = [w.first p.1] := by
  cases e with
  | const v => simp only [W.vals, Option.map_eq_some_iff] at hp; obtain ⟨_, _, rfl⟩ := hp; rfl
  | var x => simp only [W.vals, Option.some.injEq] at hp; subst hp; rfl
  | group e => simp only [W.vals, Option.map_eq_some_iff] at hp; obtain ⟨_, _, rfl⟩ := hp; rfl
  | un op e =>
    simp only [W.vals, Option.bind_eq_some_iff, Option.map_eq_some_iff] at hp
    obtain ⟨_, _, _, _, rfl⟩ := hp; rfl
  | bin op l r =>
    rw [vals_bin] at hp
    simp only [Option.bind_eq_some_iff] at hp
    obtain ⟨a, _, hp⟩ := hp
    split at hp
    · cases hp; rfl
    · simp only [Option.bind_eq_some_iff] at hp
      obtain ⟨b, _, hp⟩ := hp
      split at hp
      · cases hp; rfl
      · simp only [Option.map_eq_some_iff] at hp; obtain ⟨_, _, rfl⟩ := hp; rfl
  | builtin => cases h
  | call => cases h
  | other k es =>
    simp only [W.vals, Option.bind_eq_some_iff, Option.map_eq_some_iff] at hp
    obtain ⟨_, _, _, _, rfl⟩ := hp; rfl

/-- The constants of variables are what the program reads. -/
def ConstsHold (w : W V S) (c : FoldCtx) : Prop :=
  ∀ x v, c.Γ x = some v → v.Good c.lang ∧ ∀ y ρ s, LV.repr c.lang v = some y → w.read ρ x s = w.inj y

mutual
theorem ex_ok (hw : w.Ok c.lang arith) (hΓ : ConstsHold w c) : ∀ (e : Ex) {r : Ex × Option LV}, e.Good c.lang → e.Safe false →
    c.ex e = some r → ExOk w c.lang ρ e r.1 r.2
  | .const v, r, hg, _, h => by
    simp only [FoldCtx.ex, Option.some.injEq] at h; subst h
    exact ⟨fun _ => rfl, fun _ _ => rfl, fun _ h => by cases h; exact hg, fun _ x h hx s => by cases h; exact vals_const hx s⟩
  | .var x, r, _, _, h => by
    simp only [FoldCtx.ex, Option.some.injEq] at h; subst h
    split
    · rename_i v hv
      obtain ⟨g1, g2⟩ := hΓ x v hv
      refine .set g1 (fun _ => rfl) ?_
      intro y s hy
      simp only [W.vals, g2 y ρ s hy]
    · exact .same fun _ => rfl
  | .group e, r, hg, hs, h => by
    simp only [FoldCtx.ex, Option.map_eq_some_iff] at h
    obtain ⟨p, hp, rfl⟩ := h
    have ih := ex_ok hw hΓ e hg hs hp
    have e1 : ∀ s, w.vals (litOf w c.lang) ρ (.group p.1) s = w.vals (litOf w c.lang) ρ (.group e) s := by
      intro s; rw [vals_group, vals_group, ih.one]
    refine ⟨fun s => by unfold oneVal; rw [e1], fun _ => e1, ih.good, ?_⟩
    intro v x hk hx s
    rw [vals_group, one_const (fun s => ih.known v x hk hx s)]; rfl
  | .un op e, r, hg, hs, h => by
    simp only [FoldCtx.ex, Option.bind_eq_some_iff] at h
    obtain ⟨p, hp, hr⟩ := h
    exact stepUn_ok hw (ex_ok hw hΓ e hg hs hp) hr
  | .bin op l r, q, hg, hs, h => by
    simp only [FoldCtx.ex, Option.bind_eq_some_iff] at h
    obtain ⟨p, hp, t, ht, hr⟩ := h
    have hs' := hs
    simp only [Ex.Safe, Bool.false_and] at hs'
    refine stepBin_ok hw (ex_ok hw hΓ l hg.1 hs'.1 hp) (ex_ok hw hΓ r hg.2 hs'.2.1 ht) ?_ ?_ (fun h => single_of_not_multi h) hr
    · intro hsafe hlog
      simp only [Ex.Safe, Bool.true_and] at hsafe
      exact hsafe.2.2 hlog
    · intro hsafe hlog
      simp only [Ex.Safe, Bool.true_and, hlog] at hsafe
      exact hsafe.2.1
  | .builtin f es, r, hg, hs, h => by
    simp only [FoldCtx.ex, Option.bind_eq_some_iff] at h
    obtain ⟨p, hp, hr⟩ := h
    obtain ⟨h1, h2, h3⟩ := exs_ok hw hΓ es hg hs hp
    exact stepBuiltin_ok hw h1 h2 h3 hr
  | .call k es, r, hg, hs, h => by
    simp only [FoldCtx.ex, Option.map_eq_some_iff] at h
    obtain ⟨p, hp, rfl⟩ := h
    obtain ⟨h1, _, _⟩ := exs_ok hw hΓ es hg hs hp
    exact .same fun s => by simp only [W.vals, h1]
  | .other k es, r, hg, hs, h => by
    simp only [FoldCtx.ex, Option.map_eq_some_iff] at h
    obtain ⟨p, hp, rfl⟩ := h
    obtain ⟨h1, _, _⟩ := exs_ok hw hΓ es hg hs hp
    exact .same fun s => by simp only [W.vals, h1]
theorem exs_ok (hw : w.Ok c.lang arith) (hΓ : ConstsHold w c) : ∀ (es : Exs) {r : Exs × Option (List LV)}, es.Good c.lang → es.Safe →
    c.exs es = some r → (∀ s, w.args (litOf w c.lang) ρ r.1 s = w.args (litOf w c.lang) ρ es s) ∧
      (∀ vs, r.2 = some vs → ∀ a ∈ vs, a.Good c.lang) ∧
      (∀ vs xs s, r.2 = some vs → vs.mapM (LV.repr c.lang) = some xs → w.args (litOf w c.lang) ρ es s = some (xs.map w.inj, s))
  | .nil, r, _, _, h => by
    simp only [FoldCtx.exs, Option.some.injEq] at h; subst h
    refine ⟨fun _ => rfl, fun _ h => by cases h; simp, ?_⟩
    intro vs xs s h hx
    cases h; simp at hx; subst hx; rfl
  | .cons e .nil, r, hg, hs, h => by
    simp only [FoldCtx.exs, Option.bind_eq_some_iff, Option.map_some, Option.some.injEq] at h
    obtain ⟨p, hp, rfl⟩ := h
    have ih := ex_ok hw hΓ e hg.1 (Ex.safe_mono hs) hp
    refine ⟨ih.all hs, ?_, ?_⟩
    · intro vs hv a ha
      cases hk : p.2 with
      | none => simp [hk] at hv
      | some v =>
        simp only [hk, Option.some.injEq] at hv; subst hv
        simp only [List.mem_cons, List.not_mem_nil, or_false] at ha; subst ha
        exact ih.good _ hk
    · intro vs xs s hv hx
      cases hk : p.2 with
      | none => simp [hk] at hv
      | some v =>
        simp only [hk, Option.some.injEq] at hv; subst hv
        obtain ⟨x, hx1⟩ := (ih.good _ hk).1
        simp [hx1] at hx; subst hx
        exact ih.known v x hk hx1 s
  | .cons e (.cons e' es), r, hg, hs, h => by
    have hx := h
    simp only [FoldCtx.exs, Option.bind_eq_some_iff, Option.map_eq_some_iff] at h
    obtain ⟨p, hp, q, ⟨p', hp', q', hq', rfl⟩, rfl⟩ := h
    have ih := ex_ok hw hΓ e hg.1 hs.1 hp
    have ihs := exs_ok hw hΓ (.cons e' es) (r := (.cons p'.1 q'.1, match p'.2, q'.2 with
      | some v, some vs => some (v :: vs)
      | _, _ => none)) hg.2 hs.2 (by simp only [FoldCtx.exs, hp', hq']; rfl)
    have step : ∀ (e : Ex) (e' : Ex) (es : Exs) s, w.args (litOf w c.lang) ρ (.cons e (.cons e' es)) s =
        (oneVal w (litOf w c.lang) ρ e s).bind fun p => (w.args (litOf w c.lang) ρ (.cons e' es) p.2).map fun q => (p.1 :: q.1, q.2) := by
      intro e e' es s
      simp only [W.args, oneVal]; cases w.vals (litOf w c.lang) ρ e s <;> rfl
    obtain ⟨h1, h2, h3⟩ := ihs
    refine ⟨?_, ?_, ?_⟩
    · intro s
      rw [step, step, ih.one]
      simp only [h1]
    · intro vs hv a ha
      simp only at hv
      split at hv
      · rename_i v ws k1 k2
        cases hv
        rcases List.mem_cons.mp ha with rfl | ha
        · exact ih.good _ k1
        · exact h2 ws k2 a ha
      · cases hv
    · intro vs xs s hv hxs
      simp only at hv
      split at hv
      · rename_i v ws k1 k2
        cases hv
        obtain ⟨x, hx1⟩ := (ih.good _ k1).1
        cases hm : ws.mapM (LV.repr c.lang) with
        | none => simp [hx1, hm] at hxs
        | some ys =>
          simp [hx1, hm] at hxs; subst hxs
          rw [step, one_const (fun s => ih.known v x k1 hx1 s)]
          simp only [Option.bind_some, h3 ws ys s k2 hm, Option.map_some, List.map_cons]
      · cases hv
end
end

end Verif
