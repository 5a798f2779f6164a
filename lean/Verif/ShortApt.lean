import Verif.ShortNorm
import Verif.Spec.Plain
import Verif.MinifyTokens
/-
Programs for which making or undoing shorthands works, and their tokens.
-/
set_option linter.unusedVariables false
set_option linter.unusedSimpArgs false
set_option linter.unusedSectionVars false
set_option linter.unusedTactic false
namespace Verif.Mini
open Syntax Tidy Plain
open Paren (Op Lang prec Ctx)

/-! ### Plain programs -/

theorem lead_paren : ∀ e, leadLp e = parenE e
  | .bin _ l _ => by rw [leadLp, parenE]; exact lead_paren l
  | .member b _ => by rw [leadLp, parenE]; exact lead_paren b
  | .index b _ => by rw [leadLp, parenE]; exact lead_paren b
  | .call b _ _ => by rw [leadLp, parenE]; exact lead_paren b
  | .method b _ _ _ => by rw [leadLp, parenE]; exact lead_paren b
  | .group _ | .var _ | .num _ | .str _ | .cst _ | .vararg | .func _ _ | .un _ _ | .table _ => rfl

theorem leadB_paren (b : Block) : leadB b = parenB b := by
  rcases b with _ | _ | ⟨s, b⟩
  · rfl
  · rfl
  · cases s <;> simp only [leadB, leadS, parenB, lead_paren]
    case assign ts es => cases ts <;> simp only [leadEs, parenB, lead_paren]

variable (O : Sh) (L : Lang)

theorem new_cond {p : Pc} {s : St} (h : plS s) (hn : newS O p s = true) : isCond s = true := by
  cases s <;> simp [newS, isCond, plS] at *

theorem cond_cond {p : Pc} {s : St} (h : plS s) (hn : condS L (kS O p s) = true) : isCond s = true := by
  cases s <;> simp only [kS, condS, isCond, plS] at * <;> try (cases hn; done)
  case call => split_ifs at hn <;> simp [condS] at hn

theorem opens_plain {b : Block} {q : Prop} (h : plB b) (hp : parenB b = false) : Opens q b := by
  refine ⟨(leadB_paren b).trans hp, ?_⟩
  rintro - b' rfl
  rw [plB] at h
  exact h.1

mutual
theorem apt_plainE : ∀ (x : Ex), ∀ p sh, plE x → aptE O L p sh x
  | .var x => by
    intros
    simp only [aptE, aptEs, aptIts, aptS, aptI, aptB]
  | .num x => by
    intros
    simp only [aptE, aptEs, aptIts, aptS, aptI, aptB]
  | .str x => by
    intros
    simp only [aptE, aptEs, aptIts, aptS, aptI, aptB]
  | .cst x => by
    intros
    simp only [aptE, aptEs, aptIts, aptS, aptI, aptB]
  | .vararg => by
    intros
    simp only [aptE, aptEs, aptIts, aptS, aptI, aptB]
  | .func ps b => by
    have ih1 := apt_plainB b
    intro p sh h
    simp only [plE, plEs, plIts, plS, plI, plT, plB, aptE, aptEs, aptIts, aptS, aptI] at *
    exact ih1 _ _ h
  | .group e => by
    have ih1 := apt_plainE e
    intro p sh h
    simp only [plE, plEs, plIts, plS, plI, plT, plB, aptE, aptEs, aptIts, aptS, aptI] at *
    exact ih1 _ _ h
  | .un o e => by
    have ih1 := apt_plainE e
    intro p sh h
    simp only [plE, plEs, plIts, plS, plI, plT, plB, aptE, aptEs, aptIts, aptS, aptI] at *
    exact ih1 _ _ h
  | .bin o l r => by
    have ih1 := apt_plainE l
    have ih2 := apt_plainE r
    intro p sh h
    simp only [plE, plEs, plIts, plS, plI, plT, plB, aptE, aptEs, aptIts, aptS, aptI] at *
    exact ⟨ih1 _ _ h.1, ih2 _ _ h.2⟩
  | .member b x => by
    have ih1 := apt_plainE b
    intro p sh h
    simp only [plE, plEs, plIts, plS, plI, plT, plB, aptE, aptEs, aptIts, aptS, aptI] at *
    exact ih1 _ _ h
  | .index b k => by
    have ih1 := apt_plainE b
    have ih2 := apt_plainE k
    intro p sh h
    simp only [plE, plEs, plIts, plS, plI, plT, plB, aptE, aptEs, aptIts, aptS, aptI] at *
    exact ⟨ih1 _ _ h.1, ih2 _ _ h.2⟩
  | .call b t as => by
    have ih1 := apt_plainE b
    have ih2 := apt_plainEs as
    intro p sh h
    simp only [plE, plEs, plIts, plS, plI, plT, plB, aptE, aptEs, aptIts, aptS, aptI] at *
    exact ⟨ih1 _ _ h.1, ih2 _ _ h.2⟩
  | .method b x t as => by
    have ih1 := apt_plainE b
    have ih2 := apt_plainEs as
    intro p sh h
    simp only [plE, plEs, plIts, plS, plI, plT, plB, aptE, aptEs, aptIts, aptS, aptI] at *
    exact ⟨ih1 _ _ h.1, ih2 _ _ h.2⟩
  | .table its => by
    have ih1 := apt_plainIts its
    intro p sh h
    simp only [plE, plEs, plIts, plS, plI, plT, plB, aptE, aptEs, aptIts, aptS, aptI] at *
    exact ih1 _ _ h
theorem apt_plainEs : ∀ (x : Exs), ∀ p sh, plEs x → aptEs O L p sh x
  | .nil => by
    intros
    simp only [aptE, aptEs, aptIts, aptS, aptI, aptB]
  | .cons e es => by
    have ih1 := apt_plainE e
    have ih2 := apt_plainEs es
    intro p sh h
    simp only [plE, plEs, plIts, plS, plI, plT, plB, aptE, aptEs, aptIts, aptS, aptI] at *
    exact ⟨ih1 _ _ h.1, ih2 _ _ h.2⟩
theorem apt_plainIts : ∀ (x : Its), ∀ p sh, plIts x → aptIts O L p sh x
  | .nil => by
    intros
    simp only [aptE, aptEs, aptIts, aptS, aptI, aptB]
  | .pos e its => by
    have ih1 := apt_plainE e
    have ih2 := apt_plainIts its
    intro p sh h
    simp only [plE, plEs, plIts, plS, plI, plT, plB, aptE, aptEs, aptIts, aptS, aptI] at *
    exact ⟨ih1 _ _ h.1, ih2 _ _ h.2⟩
  | .named x e its => by
    have ih1 := apt_plainE e
    have ih2 := apt_plainIts its
    intro p sh h
    simp only [plE, plEs, plIts, plS, plI, plT, plB, aptE, aptEs, aptIts, aptS, aptI] at *
    exact ⟨ih1 _ _ h.1, ih2 _ _ h.2⟩
  | .keyed k e its => by
    have ih1 := apt_plainE k
    have ih2 := apt_plainE e
    have ih3 := apt_plainIts its
    intro p sh h
    simp only [plE, plEs, plIts, plS, plI, plT, plB, aptE, aptEs, aptIts, aptS, aptI] at *
    exact ⟨ih1 _ _ h.1, ih2 _ _ h.2.1, ih3 _ _ h.2.2⟩
theorem apt_plainS : ∀ (x : St), ∀ p sh, plS x → aptS O L p sh x
  | .do_ b => by
    have ih1 := apt_plainB b
    intro p sh h
    simp only [plE, plEs, plIts, plS, plI, plT, plB, aptE, aptEs, aptIts, aptS, aptI] at *
    exact ih1 _ _ h
  | .if_ i => by
    have ih1 := apt_plainI i
    intro p sh h
    simp only [plE, plEs, plIts, plS, plI, plT, plB, aptE, aptEs, aptIts, aptS, aptI] at *
    exact ih1 _ _ _ h
  | .while_ e b => by
    have ih1 := apt_plainE e
    have ih2 := apt_plainB b
    intro p sh h
    simp only [plE, plEs, plIts, plS, plI, plT, plB, aptE, aptEs, aptIts, aptS, aptI] at *
    exact ⟨ih1 _ _ h.1, ih2 _ _ h.2.1, fun _ => opens_plain h.2.1 h.2.2⟩
  | .whileShort e b d => by
    have ih1 := apt_plainE e
    have ih2 := apt_plainB b
    intro p sh h
    simp only [plE, plEs, plIts, plS, plI, plT, plB, aptE, aptEs, aptIts, aptS, aptI] at *
  | .repeat_ b e => by
    have ih1 := apt_plainB b
    have ih2 := apt_plainE e
    intro p sh h
    simp only [plE, plEs, plIts, plS, plI, plT, plB, aptE, aptEs, aptIts, aptS, aptI] at *
    exact ⟨ih1 _ _ h.1, ih2 _ _ h.2⟩
  | .fornum x a b s d => by
    have ih1 := apt_plainE a
    have ih2 := apt_plainE b
    have ih3 := apt_plainEs s
    have ih4 := apt_plainB d
    intro p sh h
    simp only [plE, plEs, plIts, plS, plI, plT, plB, aptE, aptEs, aptIts, aptS, aptI] at *
    exact ⟨ih1 _ _ h.1, ih2 _ _ h.2.1, ih3 _ _ h.2.2.1, ih4 _ _ h.2.2.2⟩
  | .forin xs es d => by
    have ih1 := apt_plainEs es
    have ih2 := apt_plainB d
    intro p sh h
    simp only [plE, plEs, plIts, plS, plI, plT, plB, aptE, aptEs, aptIts, aptS, aptI] at *
    exact ⟨ih1 _ _ h.1, ih2 _ _ h.2⟩
  | .break_ => by
    intros
    simp only [aptE, aptEs, aptIts, aptS, aptI, aptB]
  | .return_ es => by
    have ih1 := apt_plainEs es
    intro p sh h
    simp only [plE, plEs, plIts, plS, plI, plT, plB, aptE, aptEs, aptIts, aptS, aptI] at *
    exact ih1 _ _ h
  | .local_ xs es => by
    have ih1 := apt_plainEs es
    intro p sh h
    simp only [plE, plEs, plIts, plS, plI, plT, plB, aptE, aptEs, aptIts, aptS, aptI] at *
    exact ih1 _ _ h
  | .localfn x ps b => by
    have ih1 := apt_plainB b
    intro p sh h
    simp only [plE, plEs, plIts, plS, plI, plT, plB, aptE, aptEs, aptIts, aptS, aptI] at *
    exact ih1 _ _ h
  | .goto_ x => by
    intros
    simp only [aptE, aptEs, aptIts, aptS, aptI, aptB]
  | .label x => by
    intros
    simp only [aptE, aptEs, aptIts, aptS, aptI, aptB]
  | .func f ps b => by
    have ih1 := apt_plainB b
    intro p sh h
    simp only [plE, plEs, plIts, plS, plI, plT, plB, aptE, aptEs, aptIts, aptS, aptI] at *
    exact ih1 _ _ h
  | .assign ts es => by
    have ih1 := apt_plainEs ts
    have ih2 := apt_plainEs es
    intro p sh h
    simp only [plE, plEs, plIts, plS, plI, plT, plB, aptE, aptEs, aptIts, aptS, aptI] at *
    exact ⟨ih1 _ _ h.1, ih2 _ _ h.2⟩
  | .opassign o t e => by
    have ih1 := apt_plainE t
    have ih2 := apt_plainE e
    intro p sh h
    simp only [plE, plEs, plIts, plS, plI, plT, plB, aptE, aptEs, aptIts, aptS, aptI] at *
    exact ⟨ih1 _ _ h.1, ih2 _ _ h.2⟩
  | .call e => by
    have ih1 := apt_plainE e
    intro p sh h
    simp only [plE, plEs, plIts, plS, plI, plT, plB, aptE, aptEs, aptIts, aptS, aptI] at *
    refine ⟨ih1 _ _ h.1, fun hm hn => ?_⟩
    obtain ⟨t, as, rfl⟩ := isPrint_iff.1 (may_print _ ((Bool.and_eq_true _ _).mp hm).2).1
    rw [argsOf] at hn
    exact h.2 t (by rw [hn])
  | .print es => by
    have ih1 := apt_plainEs es
    intro p sh h
    simp only [plE, plEs, plIts, plS, plI, plT, plB, aptE, aptEs, aptIts, aptS, aptI] at *
theorem apt_plainI : ∀ (x : If), ∀ can p sh, plI x → aptI O L can p sh x
  | .long e b .end_ => by
    have ih1 := apt_plainE e
    have ih2 := apt_plainB b
    intro can p sh h
    simp only [plE, plEs, plIts, plS, plI, plT, plB, aptE, aptEs, aptIts, aptS, aptI] at *
    exact ⟨ih1 _ _ h.1, ih2 _ _ h.2.1, fun _ => opens_plain h.2.1 h.2.2.1⟩
  | .long e b (.else_ b') => by
    have ih1 := apt_plainE e
    have ih2 := apt_plainB b
    have ih3 := apt_plainB b'
    intro can p sh h
    simp only [plE, plEs, plIts, plS, plI, plT, plB, aptE, aptEs, aptIts, aptS, aptI] at *
    exact ⟨ih1 _ _ h.1, ih2 _ _ h.2.1, ih3 _ _ h.2.2.2, fun _ => opens_plain h.2.1 h.2.2.1⟩
  | .long e b (.elseif_ i) => by
    have ih1 := apt_plainE e
    have ih2 := apt_plainB b
    have ih3 := apt_plainI i
    intro can p sh h
    simp only [plE, plEs, plIts, plS, plI, plT, plB, aptE, aptEs, aptIts, aptS, aptI] at *
    exact ⟨ih1 _ _ h.1, ih2 _ _ h.2.1, ih3 _ _ _ h.2.2.2⟩
  | .short e b d => by
    have ih1 := apt_plainE e
    have ih2 := apt_plainB b
    intro can p sh h
    simp only [plE, plEs, plIts, plS, plI, plT, plB, aptE, aptEs, aptIts, aptS, aptI] at *
  | .shortElse e b b' d => by
    have ih1 := apt_plainE e
    have ih2 := apt_plainB b
    have ih3 := apt_plainB b'
    intro can p sh h
    simp only [plE, plEs, plIts, plS, plI, plT, plB, aptE, aptEs, aptIts, aptS, aptI] at *
theorem apt_plainB : ∀ (x : Block), ∀ p sh, plB x → aptB O L p sh x
  | .nil => by
    intros
    simp only [aptE, aptEs, aptIts, aptS, aptI, aptB]
  | .semi b => by
    have ih1 := apt_plainB b
    intro p sh h
    rw [plB] at h
    rw [aptB]
    exact ih1 _ _ h.2
  | .cons s .nil => by
    have ih1 := apt_plainS s
    intro p sh h
    rw [plB] at h
    simp only [aptB]
    exact ih1 _ _ h.1
  | .cons s (.semi b) => by
    have ih1 := apt_plainS s
    have ih2 := apt_plainB (.semi b)
    intro p sh h
    rw [plB] at h
    rw [aptB]
    · exact ⟨ih1 _ _ h.1, ih2 _ _ h.2.1, fun hn => (leadB_paren _).trans (h.2.2 (new_cond O h.1 hn)).1, fun hn => (h.2.2 (cond_cond O L h.1 hn)).2⟩
    · simp
  | .cons s (.cons r b) => by
    have ih1 := apt_plainS s
    have ih2 := apt_plainB (.cons r b)
    intro p sh h
    rw [plB] at h
    rw [aptB]
    · exact ⟨ih1 _ _ h.1, ih2 _ _ h.2.1, fun hn => (leadB_paren _).trans (h.2.2 (new_cond O h.1 hn)).1, fun hn => (h.2.2 (cond_cond O L h.1 hn)).2⟩
    · simp
end

/-! ### Undoing all shorthands -/

variable {O L}
variable (hi : O.undoIf = true) (hw : O.undoWhile = true) (mi : O.makeIf = false) (mw : O.makeWhile = false) (mp : O.makePrint = false)
include hi hw mi mw mp

theorem undo_dangleS (sh : Bool) (p : Pc) (s : St) : dangleS sh (kS O p s) = false := by
  cases s <;> simp only [kS, dangleS, hw, mw, mp, Bool.false_and, Bool.false_eq_true, if_false, if_true]
  case if_ i =>
    rcases i with ⟨e, b, _ | _ | _⟩ | _ | _ <;> simp [kI, dangleI, hi, mi]

theorem undo_condS (p : Pc) (s : St) : condS L (kS O p s) = false := by
  cases s <;> simp only [kS, condS, hw, mw, mp, Bool.false_and, Bool.false_eq_true, if_false, if_true]
  case if_ i =>
    rcases i with ⟨e, b, _ | _ | _⟩ | _ | _ <;> simp [kI, condI, hi, mi]

theorem undo_newS (p : Pc) (s : St) : newS O p s = false := by
  cases s <;> simp [newS, hw, mw]
  case if_ i =>
    rcases i with ⟨e, b, _ | _ | _⟩ | _ | _ <;> simp [newI, hi, mi]

theorem undo_dangleB (sh : Bool) (p : Pc) : ∀ b, dangleB sh (kB O p b) = false
  | .nil => rfl
  | .semi b => by rw [kB, dangleB]; exact undo_dangleB sh p b
  | .cons s .nil => by simp only [kB, dangleB, semis, if_true]; exact undo_dangleS hi hw mi mw mp _ _ _
  | .cons s (.semi b) => by
    rw [show kB O p (.cons s (.semi b)) = .cons (kS O p.mid s) (kB O p (.semi b)) from rfl, dangleB, undo_dangleS hi hw mi mw mp, undo_dangleB sh p (.semi b), ite_self]
  | .cons s (.cons r b) => by
    rw [show kB O p (.cons s (.cons r b)) = .cons (kS O p.mid s) (kB O p (.cons r b)) from rfl, dangleB, undo_dangleS hi hw mi mw mp,
      undo_dangleB sh p (.cons r b), ite_self]

mutual
theorem apt_undoE : ∀ (x : Ex), ∀ p sh sh', tE L sh x → aptE O L p sh' x
  | .var x => by
    intros
    simp only [aptE, aptEs, aptIts, aptS, aptI, aptB]
  | .num x => by
    intros
    simp only [aptE, aptEs, aptIts, aptS, aptI, aptB]
  | .str x => by
    intros
    simp only [aptE, aptEs, aptIts, aptS, aptI, aptB]
  | .cst x => by
    intros
    simp only [aptE, aptEs, aptIts, aptS, aptI, aptB]
  | .vararg => by
    intros
    simp only [aptE, aptEs, aptIts, aptS, aptI, aptB]
  | .func ps b => by
    have ih1 := apt_undoB b
    intro p sh sh' h
    simp only [tE, tEs, tIts, tS, tI, tT, tB, aptE, aptEs, aptIts, aptS, aptI, hi, hw, mi, mw, mp, Bool.false_and, Bool.and_false, Bool.or_false, if_true] at h ⊢
    exact ih1 _ _ _ h
  | .group e => by
    have ih1 := apt_undoE e
    intro p sh sh' h
    simp only [tE, tEs, tIts, tS, tI, tT, tB, aptE, aptEs, aptIts, aptS, aptI, hi, hw, mi, mw, mp, Bool.false_and, Bool.and_false, Bool.or_false, if_true] at h ⊢
    exact ih1 _ _ _ h
  | .un o e => by
    have ih1 := apt_undoE e
    intro p sh sh' h
    simp only [tE, tEs, tIts, tS, tI, tT, tB, aptE, aptEs, aptIts, aptS, aptI, hi, hw, mi, mw, mp, Bool.false_and, Bool.and_false, Bool.or_false, if_true] at h ⊢
    exact ih1 _ _ _ h
  | .bin o l r => by
    have ih1 := apt_undoE l
    have ih2 := apt_undoE r
    intro p sh sh' h
    simp only [tE, tEs, tIts, tS, tI, tT, tB, aptE, aptEs, aptIts, aptS, aptI, hi, hw, mi, mw, mp, Bool.false_and, Bool.and_false, Bool.or_false, if_true] at h ⊢
    exact ⟨ih1 _ _ _ h.1, ih2 _ _ _ h.2⟩
  | .member b x => by
    have ih1 := apt_undoE b
    intro p sh sh' h
    simp only [tE, tEs, tIts, tS, tI, tT, tB, aptE, aptEs, aptIts, aptS, aptI, hi, hw, mi, mw, mp, Bool.false_and, Bool.and_false, Bool.or_false, if_true] at h ⊢
    exact ih1 _ _ _ h
  | .index b k => by
    have ih1 := apt_undoE b
    have ih2 := apt_undoE k
    intro p sh sh' h
    simp only [tE, tEs, tIts, tS, tI, tT, tB, aptE, aptEs, aptIts, aptS, aptI, hi, hw, mi, mw, mp, Bool.false_and, Bool.and_false, Bool.or_false, if_true] at h ⊢
    exact ⟨ih1 _ _ _ h.1, ih2 _ _ _ h.2⟩
  | .call b t as => by
    have ih1 := apt_undoE b
    have ih2 := apt_undoEs as
    intro p sh sh' h
    simp only [tE, tEs, tIts, tS, tI, tT, tB, aptE, aptEs, aptIts, aptS, aptI, hi, hw, mi, mw, mp, Bool.false_and, Bool.and_false, Bool.or_false, if_true] at h ⊢
    exact ⟨ih1 _ _ _ h.1, ih2 _ _ _ h.2⟩
  | .method b x t as => by
    have ih1 := apt_undoE b
    have ih2 := apt_undoEs as
    intro p sh sh' h
    simp only [tE, tEs, tIts, tS, tI, tT, tB, aptE, aptEs, aptIts, aptS, aptI, hi, hw, mi, mw, mp, Bool.false_and, Bool.and_false, Bool.or_false, if_true] at h ⊢
    exact ⟨ih1 _ _ _ h.1, ih2 _ _ _ h.2⟩
  | .table its => by
    have ih1 := apt_undoIts its
    intro p sh sh' h
    simp only [tE, tEs, tIts, tS, tI, tT, tB, aptE, aptEs, aptIts, aptS, aptI, hi, hw, mi, mw, mp, Bool.false_and, Bool.and_false, Bool.or_false, if_true] at h ⊢
    exact ih1 _ _ _ h
theorem apt_undoEs : ∀ (x : Exs), ∀ p sh sh', tEs L sh x → aptEs O L p sh' x
  | .nil => by
    intros
    simp only [aptE, aptEs, aptIts, aptS, aptI, aptB]
  | .cons e es => by
    have ih1 := apt_undoE e
    have ih2 := apt_undoEs es
    intro p sh sh' h
    simp only [tE, tEs, tIts, tS, tI, tT, tB, aptE, aptEs, aptIts, aptS, aptI, hi, hw, mi, mw, mp, Bool.false_and, Bool.and_false, Bool.or_false, if_true] at h ⊢
    exact ⟨ih1 _ _ _ h.1, ih2 _ _ _ h.2⟩
theorem apt_undoIts : ∀ (x : Its), ∀ p sh sh', tIts L sh x → aptIts O L p sh' x
  | .nil => by
    intros
    simp only [aptE, aptEs, aptIts, aptS, aptI, aptB]
  | .pos e its => by
    have ih1 := apt_undoE e
    have ih2 := apt_undoIts its
    intro p sh sh' h
    simp only [tE, tEs, tIts, tS, tI, tT, tB, aptE, aptEs, aptIts, aptS, aptI, hi, hw, mi, mw, mp, Bool.false_and, Bool.and_false, Bool.or_false, if_true] at h ⊢
    exact ⟨ih1 _ _ _ h.1, ih2 _ _ _ h.2⟩
  | .named x e its => by
    have ih1 := apt_undoE e
    have ih2 := apt_undoIts its
    intro p sh sh' h
    simp only [tE, tEs, tIts, tS, tI, tT, tB, aptE, aptEs, aptIts, aptS, aptI, hi, hw, mi, mw, mp, Bool.false_and, Bool.and_false, Bool.or_false, if_true] at h ⊢
    exact ⟨ih1 _ _ _ h.1, ih2 _ _ _ h.2⟩
  | .keyed k e its => by
    have ih1 := apt_undoE k
    have ih2 := apt_undoE e
    have ih3 := apt_undoIts its
    intro p sh sh' h
    simp only [tE, tEs, tIts, tS, tI, tT, tB, aptE, aptEs, aptIts, aptS, aptI, hi, hw, mi, mw, mp, Bool.false_and, Bool.and_false, Bool.or_false, if_true] at h ⊢
    exact ⟨ih1 _ _ _ h.1, ih2 _ _ _ h.2.1, ih3 _ _ _ h.2.2⟩
theorem apt_undoS : ∀ (x : St), ∀ p sh sh', tS L sh x → aptS O L p sh' x
  | .do_ b => by
    have ih1 := apt_undoB b
    intro p sh sh' h
    simp only [tE, tEs, tIts, tS, tI, tT, tB, aptE, aptEs, aptIts, aptS, aptI, hi, hw, mi, mw, mp, Bool.false_and, Bool.and_false, Bool.or_false, if_true] at h ⊢
    exact ih1 _ _ _ h
  | .if_ i => by
    have ih1 := apt_undoI i
    intro p sh sh' h
    simp only [tE, tEs, tIts, tS, tI, tT, tB, aptE, aptEs, aptIts, aptS, aptI, hi, hw, mi, mw, mp, Bool.false_and, Bool.and_false, Bool.or_false, if_true] at h ⊢
    exact ih1 _ _ _ _ h (fun _ => rfl)
  | .while_ e b => by
    have ih1 := apt_undoE e
    have ih2 := apt_undoB b
    intro p sh sh' h
    simp only [tE, tEs, tIts, tS, tI, tT, tB, aptE, aptEs, aptIts, aptS, aptI, hi, hw, mi, mw, mp, Bool.false_and, Bool.and_false, Bool.or_false, if_true] at h ⊢
    exact ⟨ih1 _ _ _ h.1, ih2 _ _ _ h.2, nofun⟩
  | .whileShort e b d => by
    have ih1 := apt_undoE e
    have ih2 := apt_undoB b
    intro p sh sh' h
    simp only [tE, tEs, tIts, tS, tI, tT, tB, aptE, aptEs, aptIts, aptS, aptI, hi, hw, mi, mw, mp, Bool.false_and, Bool.and_false, Bool.or_false, if_true] at h ⊢
    exact ⟨ih1 _ _ _ h.2.1, ih2 _ _ _ h.2.2.1, nofun⟩
  | .repeat_ b e => by
    have ih1 := apt_undoB b
    have ih2 := apt_undoE e
    intro p sh sh' h
    simp only [tE, tEs, tIts, tS, tI, tT, tB, aptE, aptEs, aptIts, aptS, aptI, hi, hw, mi, mw, mp, Bool.false_and, Bool.and_false, Bool.or_false, if_true] at h ⊢
    exact ⟨ih1 _ _ _ h.1, ih2 _ _ _ h.2⟩
  | .fornum x a b s d => by
    have ih1 := apt_undoE a
    have ih2 := apt_undoE b
    have ih3 := apt_undoEs s
    have ih4 := apt_undoB d
    intro p sh sh' h
    simp only [tE, tEs, tIts, tS, tI, tT, tB, aptE, aptEs, aptIts, aptS, aptI, hi, hw, mi, mw, mp, Bool.false_and, Bool.and_false, Bool.or_false, if_true] at h ⊢
    exact ⟨ih1 _ _ _ h.1, ih2 _ _ _ h.2.1, ih3 _ _ _ h.2.2.1, ih4 _ _ _ h.2.2.2⟩
  | .forin xs es d => by
    have ih1 := apt_undoEs es
    have ih2 := apt_undoB d
    intro p sh sh' h
    simp only [tE, tEs, tIts, tS, tI, tT, tB, aptE, aptEs, aptIts, aptS, aptI, hi, hw, mi, mw, mp, Bool.false_and, Bool.and_false, Bool.or_false, if_true] at h ⊢
    exact ⟨ih1 _ _ _ h.1, ih2 _ _ _ h.2.1⟩
  | .break_ => by
    intros
    simp only [aptE, aptEs, aptIts, aptS, aptI, aptB]
  | .return_ es => by
    have ih1 := apt_undoEs es
    intro p sh sh' h
    simp only [tE, tEs, tIts, tS, tI, tT, tB, aptE, aptEs, aptIts, aptS, aptI, hi, hw, mi, mw, mp, Bool.false_and, Bool.and_false, Bool.or_false, if_true] at h ⊢
    exact ih1 _ _ _ h
  | .local_ xs es => by
    have ih1 := apt_undoEs es
    intro p sh sh' h
    simp only [tE, tEs, tIts, tS, tI, tT, tB, aptE, aptEs, aptIts, aptS, aptI, hi, hw, mi, mw, mp, Bool.false_and, Bool.and_false, Bool.or_false, if_true] at h ⊢
    exact ih1 _ _ _ h
  | .localfn x ps b => by
    have ih1 := apt_undoB b
    intro p sh sh' h
    simp only [tE, tEs, tIts, tS, tI, tT, tB, aptE, aptEs, aptIts, aptS, aptI, hi, hw, mi, mw, mp, Bool.false_and, Bool.and_false, Bool.or_false, if_true] at h ⊢
    exact ih1 _ _ _ h
  | .goto_ x => by
    intros
    simp only [aptE, aptEs, aptIts, aptS, aptI, aptB]
  | .label x => by
    intros
    simp only [aptE, aptEs, aptIts, aptS, aptI, aptB]
  | .func f ps b => by
    have ih1 := apt_undoB b
    intro p sh sh' h
    simp only [tE, tEs, tIts, tS, tI, tT, tB, aptE, aptEs, aptIts, aptS, aptI, hi, hw, mi, mw, mp, Bool.false_and, Bool.and_false, Bool.or_false, if_true] at h ⊢
    exact ih1 _ _ _ h
  | .assign ts es => by
    have ih1 := apt_undoEs ts
    have ih2 := apt_undoEs es
    intro p sh sh' h
    simp only [tE, tEs, tIts, tS, tI, tT, tB, aptE, aptEs, aptIts, aptS, aptI, hi, hw, mi, mw, mp, Bool.false_and, Bool.and_false, Bool.or_false, if_true] at h ⊢
    exact ⟨ih1 _ _ _ h.2.1, ih2 _ _ _ h.2.2⟩
  | .opassign o t e => by
    have ih1 := apt_undoE t
    have ih2 := apt_undoE e
    intro p sh sh' h
    simp only [tE, tEs, tIts, tS, tI, tT, tB, aptE, aptEs, aptIts, aptS, aptI, hi, hw, mi, mw, mp, Bool.false_and, Bool.and_false, Bool.or_false, if_true] at h ⊢
    exact ⟨ih1 _ _ _ h.2.1, ih2 _ _ _ h.2.2⟩
  | .call e => by
    have ih1 := apt_undoE e
    intro p sh sh' h
    simp only [tE, tEs, tIts, tS, tI, tT, tB, aptE, aptEs, aptIts, aptS, aptI, hi, hw, mi, mw, mp, Bool.false_and, Bool.and_false, Bool.or_false, if_true] at h ⊢
    exact ⟨ih1 _ _ _ h, nofun⟩
  | .print es => by
    have ih1 := apt_undoEs es
    intro p sh sh' h
    simp only [tE, tEs, tIts, tS, tI, tT, tB, aptE, aptEs, aptIts, aptS, aptI, hi, hw, mi, mw, mp, Bool.false_and, Bool.and_false, Bool.or_false, if_true] at h ⊢
    exact ih1 _ _ _ h
theorem apt_undoI : ∀ (x : If), ∀ can p sh sh', tI L sh x → (isLong x = false → can = true) → aptI O L can p sh' x
  | .long e b .end_ => by
    have ih1 := apt_undoE e
    have ih2 := apt_undoB b
    intro can p sh sh' h hc
    simp only [tE, tEs, tIts, tS, tI, tT, tB, aptE, aptEs, aptIts, aptS, aptI, hi, hw, mi, mw, mp, Bool.false_and, Bool.and_false, Bool.or_false, if_true] at h ⊢
    exact ⟨ih1 _ _ _ h.1, ih2 _ _ _ h.2.1, nofun⟩
  | .long e b (.else_ b') => by
    have ih1 := apt_undoE e
    have ih2 := apt_undoB b
    have ih3 := apt_undoB b'
    intro can p sh sh' h hc
    simp only [tE, tEs, tIts, tS, tI, tT, tB, aptE, aptEs, aptIts, aptS, aptI, hi, hw, mi, mw, mp, Bool.false_and, Bool.and_false, Bool.or_false, if_true] at h ⊢
    exact ⟨ih1 _ _ _ h.1, ih2 _ _ _ h.2.1, ih3 _ _ _ h.2.2.1, nofun⟩
  | .long e b (.elseif_ i) => by
    have ih1 := apt_undoE e
    have ih2 := apt_undoB b
    have ih3 := apt_undoI i
    intro can p sh sh' h hc
    simp only [tE, tEs, tIts, tS, tI, tT, tB, aptE, aptEs, aptIts, aptS, aptI, hi, hw, mi, mw, mp, Bool.false_and, Bool.and_false, Bool.or_false, if_true] at h ⊢
    exact ⟨ih1 _ _ _ h.1, ih2 _ _ _ h.2.1, ih3 _ _ _ _ h.2.2.1.2 (fun h' => by rw [show isLong i = Tidy.isLong i from by cases i <;> rfl, h.2.2.1.1] at h'; cases h')⟩
  | .short e b d => by
    have ih1 := apt_undoE e
    have ih2 := apt_undoB b
    intro can p sh sh' h hc
    simp only [tE, tEs, tIts, tS, tI, tT, tB, aptE, aptEs, aptIts, aptS, aptI, hi, hw, mi, mw, mp, Bool.false_and, Bool.and_false, Bool.or_false, if_true] at h ⊢
    rw [hc rfl]
    exact ⟨ih1 _ _ _ h.2.1, ih2 _ _ _ h.2.2.1, nofun⟩
  | .shortElse e b b' d => by
    have ih1 := apt_undoE e
    have ih2 := apt_undoB b
    have ih3 := apt_undoB b'
    intro can p sh sh' h hc
    simp only [tE, tEs, tIts, tS, tI, tT, tB, aptE, aptEs, aptIts, aptS, aptI, hi, hw, mi, mw, mp, Bool.false_and, Bool.and_false, Bool.or_false, if_true] at h ⊢
    rw [hc rfl]
    exact ⟨ih1 _ _ _ h.2.1, ih2 _ _ _ h.2.2.1, ih3 _ _ _ h.2.2.2.1, nofun, undo_dangleB hi hw mi mw mp _ _ _⟩
theorem apt_undoB : ∀ (x : Block), ∀ p sh sh', tB L sh x → aptB O L p sh' x
  | .nil => by
    intros
    simp only [aptE, aptEs, aptIts, aptS, aptI, aptB]
  | .semi b => by
    have ih1 := apt_undoB b
    intro p sh sh' h
    rw [tB] at h
    rw [aptB]
    exact ih1 _ _ _ h
  | .cons s .nil => by
    have ih1 := apt_undoS s
    intro p sh sh' h
    rw [tB] at h
    simp only [aptB]
    exact ih1 _ _ _ h.1
  | .cons s (.semi b) => by
    have ih1 := apt_undoS s
    have ih2 := apt_undoB (.semi b)
    intro p sh sh' h
    rw [tB] at h
    rw [aptB]
    · exact ⟨ih1 _ _ _ h.1, ih2 _ _ _ h.2.1, fun hn => absurd hn (by simp [undo_newS hi hw mi mw mp]), fun hn => absurd hn (by simp [undo_condS hi hw mi mw mp])⟩
    · simp
  | .cons s (.cons r b) => by
    have ih1 := apt_undoS s
    have ih2 := apt_undoB (.cons r b)
    intro p sh sh' h
    rw [tB] at h
    rw [aptB]
    · exact ⟨ih1 _ _ _ h.1, ih2 _ _ _ h.2.1, fun hn => absurd hn (by simp [undo_newS hi hw mi mw mp]), fun hn => absurd hn (by simp [undo_condS hi hw mi mw mp])⟩
    · simp
end

omit hi hw mi mw mp

/-! ### Tokens -/

variable {Q : K → Prop} {th : K} (hQ : ∀ k, Fixed k → Q k) (hth : Fixed th)
include hQ hth

theorem allT_fill {b b' : Block} {sh : Bool} (h : AllT Q (prB th sh b')) : AllT Q (prB th sh (fill b b')) := by
  unfold fill
  split_ifs
  · simp only [prB, allT_t, allT_nil, and_true]; exact hQ _ trivial
  · trivial
  · exact h

omit hQ hth in
theorem sepEs_k (p : Pc) (es : Exs) : sepEs (kEs O p es) = sepEs es := by cases es <;> simp [kEs, sepEs]
omit hQ hth in
theorem eqEs_k (p : Pc) (es : Exs) : eqEs (kEs O p es) = eqEs es := by cases es <;> simp [kEs, eqEs]
omit hQ hth in
theorem sepIts_k (p : Pc) (its : Its) : sepIts (kIts O p its) = sepIts its := by cases its <;> simp [kIts, sepIts]

omit hQ hth
mutual
theorem allT_shE : ∀ (x : Ex), ∀ sh, AllT Q (prE th sh x) ↔ AllT Q (prE th false x)
  | .var x => by
    intro sh
    simp only [prE, prEs, prIts, prS, prI, prT, prB, allT_append, allT_t, allT_nl, allT_nil, allT_brk]
  | .num x => by
    intro sh
    simp only [prE, prEs, prIts, prS, prI, prT, prB, allT_append, allT_t, allT_nl, allT_nil, allT_brk]
  | .str x => by
    intro sh
    simp only [prE, prEs, prIts, prS, prI, prT, prB, allT_append, allT_t, allT_nl, allT_nil, allT_brk]
  | .cst x => by
    intro sh
    simp only [prE, prEs, prIts, prS, prI, prT, prB, allT_append, allT_t, allT_nl, allT_nil, allT_brk]
  | .vararg => by
    intro sh
    simp only [prE, prEs, prIts, prS, prI, prT, prB, allT_append, allT_t, allT_nl, allT_nil, allT_brk]
  | .func ps b => by
    have ih1 := allT_shB b
    intro sh
    simp only [prE, prEs, prIts, prS, prI, prT, prB, allT_append, allT_t, allT_nl, allT_nil, allT_brk]
    all_goals simp only [fun s => propext (ih1 s)]
  | .group e => by
    have ih1 := allT_shE e
    intro sh
    simp only [prE, prEs, prIts, prS, prI, prT, prB, allT_append, allT_t, allT_nl, allT_nil, allT_brk]
    all_goals simp only [fun s => propext (ih1 s)]
  | .un o e => by
    have ih1 := allT_shE e
    intro sh
    simp only [prE, prEs, prIts, prS, prI, prT, prB, allT_append, allT_t, allT_nl, allT_nil, allT_brk]
    all_goals simp only [fun s => propext (ih1 s)]
  | .bin o l r => by
    have ih1 := allT_shE l
    have ih2 := allT_shE r
    intro sh
    simp only [prE, prEs, prIts, prS, prI, prT, prB, allT_append, allT_t, allT_nl, allT_nil, allT_brk]
    all_goals simp only [fun s => propext (ih1 s), fun s => propext (ih2 s)]
  | .member b x => by
    have ih1 := allT_shE b
    intro sh
    simp only [prE, prEs, prIts, prS, prI, prT, prB, allT_append, allT_t, allT_nl, allT_nil, allT_brk]
    all_goals simp only [fun s => propext (ih1 s)]
  | .index b k => by
    have ih1 := allT_shE b
    have ih2 := allT_shE k
    intro sh
    simp only [prE, prEs, prIts, prS, prI, prT, prB, allT_append, allT_t, allT_nl, allT_nil, allT_brk]
    all_goals simp only [fun s => propext (ih1 s), fun s => propext (ih2 s)]
  | .table its => by
    have ih1 := allT_shIts its
    intro sh
    simp only [prE, prEs, prIts, prS, prI, prT, prB, allT_append, allT_t, allT_nl, allT_nil, allT_brk]
    all_goals simp only [fun s => propext (ih1 s)]
  | .call b false as => by
    have ih1 := allT_shE b
    have ih2 := allT_shEs as
    intro sh
    simp only [prE, prEs, prIts, prS, prI, prT, prB, allT_append, allT_t, allT_nl, allT_nil, allT_brk]
    all_goals simp only [fun s => propext (ih1 s), fun s => propext (ih2 s)]
  | .call b true as => by
    have ih1 := allT_shE b
    have ih2 := allT_shEs as
    intro sh
    simp only [prE, prEs, prIts, prS, prI, prT, prB, allT_append, allT_t, allT_nl, allT_nil, allT_brk]
    all_goals simp only [fun s => propext (ih1 s), fun s => propext (ih2 s)]
  | .method b x false as => by
    have ih1 := allT_shE b
    have ih2 := allT_shEs as
    intro sh
    simp only [prE, prEs, prIts, prS, prI, prT, prB, allT_append, allT_t, allT_nl, allT_nil, allT_brk]
    all_goals simp only [fun s => propext (ih1 s), fun s => propext (ih2 s)]
  | .method b x true as => by
    have ih1 := allT_shE b
    have ih2 := allT_shEs as
    intro sh
    simp only [prE, prEs, prIts, prS, prI, prT, prB, allT_append, allT_t, allT_nl, allT_nil, allT_brk]
    all_goals simp only [fun s => propext (ih1 s), fun s => propext (ih2 s)]
theorem allT_shEs : ∀ (x : Exs), ∀ sh, AllT Q (prEs th sh x) ↔ AllT Q (prEs th false x)
  | .nil => by
    intro sh
    simp only [prE, prEs, prIts, prS, prI, prT, prB, allT_append, allT_t, allT_nl, allT_nil, allT_brk]
  | .cons e es => by
    have ih1 := allT_shE e
    have ih2 := allT_shEs es
    intro sh
    simp only [prE, prEs, prIts, prS, prI, prT, prB, allT_append, allT_t, allT_nl, allT_nil, allT_brk]
    all_goals simp only [fun s => propext (ih1 s), fun s => propext (ih2 s)]
theorem allT_shIts : ∀ (x : Its), ∀ sh, AllT Q (prIts th sh x) ↔ AllT Q (prIts th false x)
  | .nil => by
    intro sh
    simp only [prE, prEs, prIts, prS, prI, prT, prB, allT_append, allT_t, allT_nl, allT_nil, allT_brk]
  | .pos e its => by
    have ih1 := allT_shE e
    have ih2 := allT_shIts its
    intro sh
    simp only [prE, prEs, prIts, prS, prI, prT, prB, allT_append, allT_t, allT_nl, allT_nil, allT_brk]
    all_goals simp only [fun s => propext (ih1 s), fun s => propext (ih2 s)]
  | .named x e its => by
    have ih1 := allT_shE e
    have ih2 := allT_shIts its
    intro sh
    simp only [prE, prEs, prIts, prS, prI, prT, prB, allT_append, allT_t, allT_nl, allT_nil, allT_brk]
    all_goals simp only [fun s => propext (ih1 s), fun s => propext (ih2 s)]
  | .keyed k e its => by
    have ih1 := allT_shE k
    have ih2 := allT_shE e
    have ih3 := allT_shIts its
    intro sh
    simp only [prE, prEs, prIts, prS, prI, prT, prB, allT_append, allT_t, allT_nl, allT_nil, allT_brk]
    all_goals simp only [fun s => propext (ih1 s), fun s => propext (ih2 s), fun s => propext (ih3 s)]
theorem allT_shS : ∀ (x : St), ∀ sh, AllT Q (prS th sh x) ↔ AllT Q (prS th false x)
  | .do_ b => by
    have ih1 := allT_shB b
    intro sh
    simp only [prE, prEs, prIts, prS, prI, prT, prB, allT_append, allT_t, allT_nl, allT_nil, allT_brk]
    all_goals simp only [fun s => propext (ih1 s)]
  | .if_ i => by
    have ih1 := allT_shI i
    intro sh
    simp only [prE, prEs, prIts, prS, prI, prT, prB, allT_append, allT_t, allT_nl, allT_nil, allT_brk]
    all_goals simp only [fun s => propext (ih1 s)]
  | .while_ e b => by
    have ih1 := allT_shE e
    have ih2 := allT_shB b
    intro sh
    simp only [prE, prEs, prIts, prS, prI, prT, prB, allT_append, allT_t, allT_nl, allT_nil, allT_brk]
    all_goals simp only [fun s => propext (ih1 s), fun s => propext (ih2 s)]
  | .whileShort e b d => by
    have ih1 := allT_shE e
    have ih2 := allT_shB b
    intro sh
    simp only [prE, prEs, prIts, prS, prI, prT, prB, allT_append, allT_t, allT_nl, allT_nil, allT_brk]
    all_goals simp only [fun s => propext (ih1 s), fun s => propext (ih2 s)]
  | .repeat_ b e => by
    have ih1 := allT_shB b
    have ih2 := allT_shE e
    intro sh
    simp only [prE, prEs, prIts, prS, prI, prT, prB, allT_append, allT_t, allT_nl, allT_nil, allT_brk]
    all_goals simp only [fun s => propext (ih1 s), fun s => propext (ih2 s)]
  | .fornum x a b s d => by
    have ih1 := allT_shE a
    have ih2 := allT_shE b
    have ih3 := allT_shEs s
    have ih4 := allT_shB d
    intro sh
    simp only [prE, prEs, prIts, prS, prI, prT, prB, allT_append, allT_t, allT_nl, allT_nil, allT_brk]
    all_goals simp only [fun s => propext (ih1 s), fun s => propext (ih2 s), fun s => propext (ih3 s), fun s => propext (ih4 s)]
  | .forin xs es d => by
    have ih1 := allT_shEs es
    have ih2 := allT_shB d
    intro sh
    simp only [prE, prEs, prIts, prS, prI, prT, prB, allT_append, allT_t, allT_nl, allT_nil, allT_brk]
    all_goals simp only [fun s => propext (ih1 s), fun s => propext (ih2 s)]
  | .break_ => by
    intro sh
    simp only [prE, prEs, prIts, prS, prI, prT, prB, allT_append, allT_t, allT_nl, allT_nil, allT_brk]
  | .return_ es => by
    have ih1 := allT_shEs es
    intro sh
    simp only [prE, prEs, prIts, prS, prI, prT, prB, allT_append, allT_t, allT_nl, allT_nil, allT_brk]
    all_goals simp only [fun s => propext (ih1 s)]
  | .local_ xs es => by
    have ih1 := allT_shEs es
    intro sh
    simp only [prE, prEs, prIts, prS, prI, prT, prB, allT_append, allT_t, allT_nl, allT_nil, allT_brk]
    all_goals simp only [fun s => propext (ih1 s)]
  | .localfn x ps b => by
    have ih1 := allT_shB b
    intro sh
    simp only [prE, prEs, prIts, prS, prI, prT, prB, allT_append, allT_t, allT_nl, allT_nil, allT_brk]
    all_goals simp only [fun s => propext (ih1 s)]
  | .goto_ x => by
    intro sh
    simp only [prE, prEs, prIts, prS, prI, prT, prB, allT_append, allT_t, allT_nl, allT_nil, allT_brk]
  | .label x => by
    intro sh
    simp only [prE, prEs, prIts, prS, prI, prT, prB, allT_append, allT_t, allT_nl, allT_nil, allT_brk]
  | .func f ps b => by
    have ih1 := allT_shB b
    intro sh
    simp only [prE, prEs, prIts, prS, prI, prT, prB, allT_append, allT_t, allT_nl, allT_nil, allT_brk]
    all_goals simp only [fun s => propext (ih1 s)]
  | .assign ts es => by
    have ih1 := allT_shEs ts
    have ih2 := allT_shEs es
    intro sh
    simp only [prE, prEs, prIts, prS, prI, prT, prB, allT_append, allT_t, allT_nl, allT_nil, allT_brk]
    all_goals simp only [fun s => propext (ih1 s), fun s => propext (ih2 s)]
  | .opassign o t e => by
    have ih1 := allT_shE t
    have ih2 := allT_shE e
    intro sh
    simp only [prE, prEs, prIts, prS, prI, prT, prB, allT_append, allT_t, allT_nl, allT_nil, allT_brk]
    all_goals simp only [fun s => propext (ih1 s), fun s => propext (ih2 s)]
  | .call e => by
    have ih1 := allT_shE e
    intro sh
    simp only [prE, prEs, prIts, prS, prI, prT, prB, allT_append, allT_t, allT_nl, allT_nil, allT_brk]
    all_goals simp only [fun s => propext (ih1 s)]
  | .print es => by
    have ih1 := allT_shEs es
    intro sh
    simp only [prE, prEs, prIts, prS, prI, prT, prB, allT_append, allT_t, allT_nl, allT_nil, allT_brk]
    all_goals simp only [fun s => propext (ih1 s)]
theorem allT_shI : ∀ (x : If), ∀ sh, AllT Q (prI th sh x) ↔ AllT Q (prI th false x)
  | .long e b t => by
    have ih1 := allT_shE e
    have ih2 := allT_shB b
    have ih3 := allT_shT t
    intro sh
    simp only [prE, prEs, prIts, prS, prI, prT, prB, allT_append, allT_t, allT_nl, allT_nil, allT_brk]
    all_goals simp only [fun s => propext (ih1 s), fun s => propext (ih2 s), fun s => propext (ih3 s)]
  | .short e b d => by
    have ih1 := allT_shE e
    have ih2 := allT_shB b
    intro sh
    simp only [prE, prEs, prIts, prS, prI, prT, prB, allT_append, allT_t, allT_nl, allT_nil, allT_brk]
    all_goals simp only [fun s => propext (ih1 s), fun s => propext (ih2 s)]
  | .shortElse e b b' d => by
    have ih1 := allT_shE e
    have ih2 := allT_shB b
    have ih3 := allT_shB b'
    intro sh
    simp only [prE, prEs, prIts, prS, prI, prT, prB, allT_append, allT_t, allT_nl, allT_nil, allT_brk]
    all_goals simp only [fun s => propext (ih1 s), fun s => propext (ih2 s), fun s => propext (ih3 s)]
theorem allT_shT : ∀ (x : Syntax.Tail), ∀ sh, AllT Q (prT th sh x) ↔ AllT Q (prT th false x)
  | .end_ => by
    intro sh
    simp only [prE, prEs, prIts, prS, prI, prT, prB, allT_append, allT_t, allT_nl, allT_nil, allT_brk]
  | .else_ b => by
    have ih1 := allT_shB b
    intro sh
    simp only [prE, prEs, prIts, prS, prI, prT, prB, allT_append, allT_t, allT_nl, allT_nil, allT_brk]
    all_goals simp only [fun s => propext (ih1 s)]
  | .elseif_ i => by
    have ih1 := allT_shI i
    intro sh
    simp only [prE, prEs, prIts, prS, prI, prT, prB, allT_append, allT_t, allT_nl, allT_nil, allT_brk]
    all_goals simp only [fun s => propext (ih1 s)]
theorem allT_shB : ∀ (x : Block), ∀ sh, AllT Q (prB th sh x) ↔ AllT Q (prB th false x)
  | .nil => by
    intro sh
    simp only [prE, prEs, prIts, prS, prI, prT, prB, allT_append, allT_t, allT_nl, allT_nil, allT_brk]
  | .semi b => by
    have ih1 := allT_shB b
    intro sh
    simp only [prE, prEs, prIts, prS, prI, prT, prB, allT_append, allT_t, allT_nl, allT_nil, allT_brk]
    all_goals simp only [fun s => propext (ih1 s)]
  | .cons s b => by
    have ih1 := allT_shS s
    have ih2 := allT_shB b
    intro sh
    simp only [prE, prEs, prIts, prS, prI, prT, prB, allT_append, allT_t, allT_nl, allT_nil, allT_brk]
    all_goals simp only [fun s => propext (ih1 s), fun s => propext (ih2 s)]
end
include hQ hth

mutual
theorem all_kE : ∀ (x : Ex), ∀ p, AllT Q (prE th false x) → AllT Q (prE th false (kE O p x))
  | .var x => by
    intro p h
    simp only [kE, kEs, kIts, kS, kI, kB, prE, prEs, prIts, prS, prI, prT, prB, allT_append, allT_t, allT_nl, allT_nil, allT_brk, sepEs_k, eqEs_k, sepIts_k] at h ⊢
    all_goals simp_all [hQ .comma trivial, hQ .eq trivial, hQ .lp trivial, hQ .rp trivial, hQ .lb trivial, hQ .rb trivial, hQ .lc trivial, hQ .rc trivial, hQ .dots trivial, hQ .semi trivial, hQ .dot trivial, hQ .colon trivial, hQ .dcolon trivial, hQ .quest trivial, hQ .kDo trivial, hQ .kIf trivial, hQ .kElse trivial, hQ .kElseif trivial, hQ .kEnd trivial, hQ .kWhile trivial, hQ .kRepeat trivial, hQ .kUntil trivial, hQ .kFor trivial, hQ .kIn trivial, hQ .kFunction trivial, hQ .kBreak trivial, hQ .kReturn trivial, hQ .kLocal trivial, hQ .kGoto trivial, hQ th hth, -Bool.forall_bool]
  | .num x => by
    intro p h
    simp only [kE, kEs, kIts, kS, kI, kB, prE, prEs, prIts, prS, prI, prT, prB, allT_append, allT_t, allT_nl, allT_nil, allT_brk, sepEs_k, eqEs_k, sepIts_k] at h ⊢
    all_goals simp_all [hQ .comma trivial, hQ .eq trivial, hQ .lp trivial, hQ .rp trivial, hQ .lb trivial, hQ .rb trivial, hQ .lc trivial, hQ .rc trivial, hQ .dots trivial, hQ .semi trivial, hQ .dot trivial, hQ .colon trivial, hQ .dcolon trivial, hQ .quest trivial, hQ .kDo trivial, hQ .kIf trivial, hQ .kElse trivial, hQ .kElseif trivial, hQ .kEnd trivial, hQ .kWhile trivial, hQ .kRepeat trivial, hQ .kUntil trivial, hQ .kFor trivial, hQ .kIn trivial, hQ .kFunction trivial, hQ .kBreak trivial, hQ .kReturn trivial, hQ .kLocal trivial, hQ .kGoto trivial, hQ th hth, -Bool.forall_bool]
  | .str x => by
    intro p h
    simp only [kE, kEs, kIts, kS, kI, kB, prE, prEs, prIts, prS, prI, prT, prB, allT_append, allT_t, allT_nl, allT_nil, allT_brk, sepEs_k, eqEs_k, sepIts_k] at h ⊢
    all_goals simp_all [hQ .comma trivial, hQ .eq trivial, hQ .lp trivial, hQ .rp trivial, hQ .lb trivial, hQ .rb trivial, hQ .lc trivial, hQ .rc trivial, hQ .dots trivial, hQ .semi trivial, hQ .dot trivial, hQ .colon trivial, hQ .dcolon trivial, hQ .quest trivial, hQ .kDo trivial, hQ .kIf trivial, hQ .kElse trivial, hQ .kElseif trivial, hQ .kEnd trivial, hQ .kWhile trivial, hQ .kRepeat trivial, hQ .kUntil trivial, hQ .kFor trivial, hQ .kIn trivial, hQ .kFunction trivial, hQ .kBreak trivial, hQ .kReturn trivial, hQ .kLocal trivial, hQ .kGoto trivial, hQ th hth, -Bool.forall_bool]
  | .cst x => by
    intro p h
    simp only [kE, kEs, kIts, kS, kI, kB, prE, prEs, prIts, prS, prI, prT, prB, allT_append, allT_t, allT_nl, allT_nil, allT_brk, sepEs_k, eqEs_k, sepIts_k] at h ⊢
    all_goals simp_all [hQ .comma trivial, hQ .eq trivial, hQ .lp trivial, hQ .rp trivial, hQ .lb trivial, hQ .rb trivial, hQ .lc trivial, hQ .rc trivial, hQ .dots trivial, hQ .semi trivial, hQ .dot trivial, hQ .colon trivial, hQ .dcolon trivial, hQ .quest trivial, hQ .kDo trivial, hQ .kIf trivial, hQ .kElse trivial, hQ .kElseif trivial, hQ .kEnd trivial, hQ .kWhile trivial, hQ .kRepeat trivial, hQ .kUntil trivial, hQ .kFor trivial, hQ .kIn trivial, hQ .kFunction trivial, hQ .kBreak trivial, hQ .kReturn trivial, hQ .kLocal trivial, hQ .kGoto trivial, hQ th hth, -Bool.forall_bool]
  | .vararg => by
    intro p h
    simp only [kE, kEs, kIts, kS, kI, kB, prE, prEs, prIts, prS, prI, prT, prB, allT_append, allT_t, allT_nl, allT_nil, allT_brk, sepEs_k, eqEs_k, sepIts_k] at h ⊢
    all_goals simp_all [hQ .comma trivial, hQ .eq trivial, hQ .lp trivial, hQ .rp trivial, hQ .lb trivial, hQ .rb trivial, hQ .lc trivial, hQ .rc trivial, hQ .dots trivial, hQ .semi trivial, hQ .dot trivial, hQ .colon trivial, hQ .dcolon trivial, hQ .quest trivial, hQ .kDo trivial, hQ .kIf trivial, hQ .kElse trivial, hQ .kElseif trivial, hQ .kEnd trivial, hQ .kWhile trivial, hQ .kRepeat trivial, hQ .kUntil trivial, hQ .kFor trivial, hQ .kIn trivial, hQ .kFunction trivial, hQ .kBreak trivial, hQ .kReturn trivial, hQ .kLocal trivial, hQ .kGoto trivial, hQ th hth, -Bool.forall_bool]
  | .func ps b => by
    have ih1 := all_kB b
    intro p h
    simp only [kE, kEs, kIts, kS, kI, kB, prE, prEs, prIts, prS, prI, prT, prB, allT_append, allT_t, allT_nl, allT_nil, allT_brk, sepEs_k, eqEs_k, sepIts_k] at h ⊢
    all_goals simp_all [hQ .comma trivial, hQ .eq trivial, hQ .lp trivial, hQ .rp trivial, hQ .lb trivial, hQ .rb trivial, hQ .lc trivial, hQ .rc trivial, hQ .dots trivial, hQ .semi trivial, hQ .dot trivial, hQ .colon trivial, hQ .dcolon trivial, hQ .quest trivial, hQ .kDo trivial, hQ .kIf trivial, hQ .kElse trivial, hQ .kElseif trivial, hQ .kEnd trivial, hQ .kWhile trivial, hQ .kRepeat trivial, hQ .kUntil trivial, hQ .kFor trivial, hQ .kIn trivial, hQ .kFunction trivial, hQ .kBreak trivial, hQ .kReturn trivial, hQ .kLocal trivial, hQ .kGoto trivial, hQ th hth, -Bool.forall_bool]
  | .group e => by
    have ih1 := all_kE e
    intro p h
    simp only [kE, kEs, kIts, kS, kI, kB, prE, prEs, prIts, prS, prI, prT, prB, allT_append, allT_t, allT_nl, allT_nil, allT_brk, sepEs_k, eqEs_k, sepIts_k] at h ⊢
    all_goals simp_all [hQ .comma trivial, hQ .eq trivial, hQ .lp trivial, hQ .rp trivial, hQ .lb trivial, hQ .rb trivial, hQ .lc trivial, hQ .rc trivial, hQ .dots trivial, hQ .semi trivial, hQ .dot trivial, hQ .colon trivial, hQ .dcolon trivial, hQ .quest trivial, hQ .kDo trivial, hQ .kIf trivial, hQ .kElse trivial, hQ .kElseif trivial, hQ .kEnd trivial, hQ .kWhile trivial, hQ .kRepeat trivial, hQ .kUntil trivial, hQ .kFor trivial, hQ .kIn trivial, hQ .kFunction trivial, hQ .kBreak trivial, hQ .kReturn trivial, hQ .kLocal trivial, hQ .kGoto trivial, hQ th hth, -Bool.forall_bool]
  | .un o e => by
    have ih1 := all_kE e
    intro p h
    simp only [kE, kEs, kIts, kS, kI, kB, prE, prEs, prIts, prS, prI, prT, prB, allT_append, allT_t, allT_nl, allT_nil, allT_brk, sepEs_k, eqEs_k, sepIts_k] at h ⊢
    all_goals simp_all [hQ .comma trivial, hQ .eq trivial, hQ .lp trivial, hQ .rp trivial, hQ .lb trivial, hQ .rb trivial, hQ .lc trivial, hQ .rc trivial, hQ .dots trivial, hQ .semi trivial, hQ .dot trivial, hQ .colon trivial, hQ .dcolon trivial, hQ .quest trivial, hQ .kDo trivial, hQ .kIf trivial, hQ .kElse trivial, hQ .kElseif trivial, hQ .kEnd trivial, hQ .kWhile trivial, hQ .kRepeat trivial, hQ .kUntil trivial, hQ .kFor trivial, hQ .kIn trivial, hQ .kFunction trivial, hQ .kBreak trivial, hQ .kReturn trivial, hQ .kLocal trivial, hQ .kGoto trivial, hQ th hth, -Bool.forall_bool]
  | .bin o l r => by
    have ih1 := all_kE l
    have ih2 := all_kE r
    intro p h
    simp only [kE, kEs, kIts, kS, kI, kB, prE, prEs, prIts, prS, prI, prT, prB, allT_append, allT_t, allT_nl, allT_nil, allT_brk, sepEs_k, eqEs_k, sepIts_k] at h ⊢
    all_goals simp_all [hQ .comma trivial, hQ .eq trivial, hQ .lp trivial, hQ .rp trivial, hQ .lb trivial, hQ .rb trivial, hQ .lc trivial, hQ .rc trivial, hQ .dots trivial, hQ .semi trivial, hQ .dot trivial, hQ .colon trivial, hQ .dcolon trivial, hQ .quest trivial, hQ .kDo trivial, hQ .kIf trivial, hQ .kElse trivial, hQ .kElseif trivial, hQ .kEnd trivial, hQ .kWhile trivial, hQ .kRepeat trivial, hQ .kUntil trivial, hQ .kFor trivial, hQ .kIn trivial, hQ .kFunction trivial, hQ .kBreak trivial, hQ .kReturn trivial, hQ .kLocal trivial, hQ .kGoto trivial, hQ th hth, -Bool.forall_bool]
  | .member b x => by
    have ih1 := all_kE b
    intro p h
    simp only [kE, kEs, kIts, kS, kI, kB, prE, prEs, prIts, prS, prI, prT, prB, allT_append, allT_t, allT_nl, allT_nil, allT_brk, sepEs_k, eqEs_k, sepIts_k] at h ⊢
    all_goals simp_all [hQ .comma trivial, hQ .eq trivial, hQ .lp trivial, hQ .rp trivial, hQ .lb trivial, hQ .rb trivial, hQ .lc trivial, hQ .rc trivial, hQ .dots trivial, hQ .semi trivial, hQ .dot trivial, hQ .colon trivial, hQ .dcolon trivial, hQ .quest trivial, hQ .kDo trivial, hQ .kIf trivial, hQ .kElse trivial, hQ .kElseif trivial, hQ .kEnd trivial, hQ .kWhile trivial, hQ .kRepeat trivial, hQ .kUntil trivial, hQ .kFor trivial, hQ .kIn trivial, hQ .kFunction trivial, hQ .kBreak trivial, hQ .kReturn trivial, hQ .kLocal trivial, hQ .kGoto trivial, hQ th hth, -Bool.forall_bool]
  | .index b k => by
    have ih1 := all_kE b
    have ih2 := all_kE k
    intro p h
    simp only [kE, kEs, kIts, kS, kI, kB, prE, prEs, prIts, prS, prI, prT, prB, allT_append, allT_t, allT_nl, allT_nil, allT_brk, sepEs_k, eqEs_k, sepIts_k] at h ⊢
    all_goals simp_all [hQ .comma trivial, hQ .eq trivial, hQ .lp trivial, hQ .rp trivial, hQ .lb trivial, hQ .rb trivial, hQ .lc trivial, hQ .rc trivial, hQ .dots trivial, hQ .semi trivial, hQ .dot trivial, hQ .colon trivial, hQ .dcolon trivial, hQ .quest trivial, hQ .kDo trivial, hQ .kIf trivial, hQ .kElse trivial, hQ .kElseif trivial, hQ .kEnd trivial, hQ .kWhile trivial, hQ .kRepeat trivial, hQ .kUntil trivial, hQ .kFor trivial, hQ .kIn trivial, hQ .kFunction trivial, hQ .kBreak trivial, hQ .kReturn trivial, hQ .kLocal trivial, hQ .kGoto trivial, hQ th hth, -Bool.forall_bool]
  | .table its => by
    have ih1 := all_kIts its
    intro p h
    simp only [kE, kEs, kIts, kS, kI, kB, prE, prEs, prIts, prS, prI, prT, prB, allT_append, allT_t, allT_nl, allT_nil, allT_brk, sepEs_k, eqEs_k, sepIts_k] at h ⊢
    all_goals simp_all [hQ .comma trivial, hQ .eq trivial, hQ .lp trivial, hQ .rp trivial, hQ .lb trivial, hQ .rb trivial, hQ .lc trivial, hQ .rc trivial, hQ .dots trivial, hQ .semi trivial, hQ .dot trivial, hQ .colon trivial, hQ .dcolon trivial, hQ .quest trivial, hQ .kDo trivial, hQ .kIf trivial, hQ .kElse trivial, hQ .kElseif trivial, hQ .kEnd trivial, hQ .kWhile trivial, hQ .kRepeat trivial, hQ .kUntil trivial, hQ .kFor trivial, hQ .kIn trivial, hQ .kFunction trivial, hQ .kBreak trivial, hQ .kReturn trivial, hQ .kLocal trivial, hQ .kGoto trivial, hQ th hth, -Bool.forall_bool]
  | .call b false as => by
    have ih1 := all_kE b
    have ih2 := all_kEs as
    intro p h
    simp only [kE, kEs, kIts, kS, kI, kB, prE, prEs, prIts, prS, prI, prT, prB, allT_append, allT_t, allT_nl, allT_nil, allT_brk, sepEs_k, eqEs_k, sepIts_k] at h ⊢
    all_goals simp_all [hQ .comma trivial, hQ .eq trivial, hQ .lp trivial, hQ .rp trivial, hQ .lb trivial, hQ .rb trivial, hQ .lc trivial, hQ .rc trivial, hQ .dots trivial, hQ .semi trivial, hQ .dot trivial, hQ .colon trivial, hQ .dcolon trivial, hQ .quest trivial, hQ .kDo trivial, hQ .kIf trivial, hQ .kElse trivial, hQ .kElseif trivial, hQ .kEnd trivial, hQ .kWhile trivial, hQ .kRepeat trivial, hQ .kUntil trivial, hQ .kFor trivial, hQ .kIn trivial, hQ .kFunction trivial, hQ .kBreak trivial, hQ .kReturn trivial, hQ .kLocal trivial, hQ .kGoto trivial, hQ th hth, -Bool.forall_bool]
  | .call b true as => by
    have ih1 := all_kE b
    have ih2 := all_kEs as
    intro p h
    simp only [kE, kEs, kIts, kS, kI, kB, prE, prEs, prIts, prS, prI, prT, prB, allT_append, allT_t, allT_nl, allT_nil, allT_brk, sepEs_k, eqEs_k, sepIts_k] at h ⊢
    all_goals simp_all [hQ .comma trivial, hQ .eq trivial, hQ .lp trivial, hQ .rp trivial, hQ .lb trivial, hQ .rb trivial, hQ .lc trivial, hQ .rc trivial, hQ .dots trivial, hQ .semi trivial, hQ .dot trivial, hQ .colon trivial, hQ .dcolon trivial, hQ .quest trivial, hQ .kDo trivial, hQ .kIf trivial, hQ .kElse trivial, hQ .kElseif trivial, hQ .kEnd trivial, hQ .kWhile trivial, hQ .kRepeat trivial, hQ .kUntil trivial, hQ .kFor trivial, hQ .kIn trivial, hQ .kFunction trivial, hQ .kBreak trivial, hQ .kReturn trivial, hQ .kLocal trivial, hQ .kGoto trivial, hQ th hth, -Bool.forall_bool]
  | .method b x false as => by
    have ih1 := all_kE b
    have ih2 := all_kEs as
    intro p h
    simp only [kE, kEs, kIts, kS, kI, kB, prE, prEs, prIts, prS, prI, prT, prB, allT_append, allT_t, allT_nl, allT_nil, allT_brk, sepEs_k, eqEs_k, sepIts_k] at h ⊢
    all_goals simp_all [hQ .comma trivial, hQ .eq trivial, hQ .lp trivial, hQ .rp trivial, hQ .lb trivial, hQ .rb trivial, hQ .lc trivial, hQ .rc trivial, hQ .dots trivial, hQ .semi trivial, hQ .dot trivial, hQ .colon trivial, hQ .dcolon trivial, hQ .quest trivial, hQ .kDo trivial, hQ .kIf trivial, hQ .kElse trivial, hQ .kElseif trivial, hQ .kEnd trivial, hQ .kWhile trivial, hQ .kRepeat trivial, hQ .kUntil trivial, hQ .kFor trivial, hQ .kIn trivial, hQ .kFunction trivial, hQ .kBreak trivial, hQ .kReturn trivial, hQ .kLocal trivial, hQ .kGoto trivial, hQ th hth, -Bool.forall_bool]
  | .method b x true as => by
    have ih1 := all_kE b
    have ih2 := all_kEs as
    intro p h
    simp only [kE, kEs, kIts, kS, kI, kB, prE, prEs, prIts, prS, prI, prT, prB, allT_append, allT_t, allT_nl, allT_nil, allT_brk, sepEs_k, eqEs_k, sepIts_k] at h ⊢
    all_goals simp_all [hQ .comma trivial, hQ .eq trivial, hQ .lp trivial, hQ .rp trivial, hQ .lb trivial, hQ .rb trivial, hQ .lc trivial, hQ .rc trivial, hQ .dots trivial, hQ .semi trivial, hQ .dot trivial, hQ .colon trivial, hQ .dcolon trivial, hQ .quest trivial, hQ .kDo trivial, hQ .kIf trivial, hQ .kElse trivial, hQ .kElseif trivial, hQ .kEnd trivial, hQ .kWhile trivial, hQ .kRepeat trivial, hQ .kUntil trivial, hQ .kFor trivial, hQ .kIn trivial, hQ .kFunction trivial, hQ .kBreak trivial, hQ .kReturn trivial, hQ .kLocal trivial, hQ .kGoto trivial, hQ th hth, -Bool.forall_bool]
theorem all_kEs : ∀ (x : Exs), ∀ p, AllT Q (prEs th false x) → AllT Q (prEs th false (kEs O p x))
  | .nil => by
    intro p h
    simp only [kE, kEs, kIts, kS, kI, kB, prE, prEs, prIts, prS, prI, prT, prB, allT_append, allT_t, allT_nl, allT_nil, allT_brk, sepEs_k, eqEs_k, sepIts_k] at h ⊢
    all_goals simp_all [hQ .comma trivial, hQ .eq trivial, hQ .lp trivial, hQ .rp trivial, hQ .lb trivial, hQ .rb trivial, hQ .lc trivial, hQ .rc trivial, hQ .dots trivial, hQ .semi trivial, hQ .dot trivial, hQ .colon trivial, hQ .dcolon trivial, hQ .quest trivial, hQ .kDo trivial, hQ .kIf trivial, hQ .kElse trivial, hQ .kElseif trivial, hQ .kEnd trivial, hQ .kWhile trivial, hQ .kRepeat trivial, hQ .kUntil trivial, hQ .kFor trivial, hQ .kIn trivial, hQ .kFunction trivial, hQ .kBreak trivial, hQ .kReturn trivial, hQ .kLocal trivial, hQ .kGoto trivial, hQ th hth, -Bool.forall_bool]
  | .cons e es => by
    have ih1 := all_kE e
    have ih2 := all_kEs es
    intro p h
    simp only [kE, kEs, kIts, kS, kI, kB, prE, prEs, prIts, prS, prI, prT, prB, allT_append, allT_t, allT_nl, allT_nil, allT_brk, sepEs_k, eqEs_k, sepIts_k] at h ⊢
    all_goals simp_all [hQ .comma trivial, hQ .eq trivial, hQ .lp trivial, hQ .rp trivial, hQ .lb trivial, hQ .rb trivial, hQ .lc trivial, hQ .rc trivial, hQ .dots trivial, hQ .semi trivial, hQ .dot trivial, hQ .colon trivial, hQ .dcolon trivial, hQ .quest trivial, hQ .kDo trivial, hQ .kIf trivial, hQ .kElse trivial, hQ .kElseif trivial, hQ .kEnd trivial, hQ .kWhile trivial, hQ .kRepeat trivial, hQ .kUntil trivial, hQ .kFor trivial, hQ .kIn trivial, hQ .kFunction trivial, hQ .kBreak trivial, hQ .kReturn trivial, hQ .kLocal trivial, hQ .kGoto trivial, hQ th hth, -Bool.forall_bool]
theorem all_kIts : ∀ (x : Its), ∀ p, AllT Q (prIts th false x) → AllT Q (prIts th false (kIts O p x))
  | .nil => by
    intro p h
    simp only [kE, kEs, kIts, kS, kI, kB, prE, prEs, prIts, prS, prI, prT, prB, allT_append, allT_t, allT_nl, allT_nil, allT_brk, sepEs_k, eqEs_k, sepIts_k] at h ⊢
    all_goals simp_all [hQ .comma trivial, hQ .eq trivial, hQ .lp trivial, hQ .rp trivial, hQ .lb trivial, hQ .rb trivial, hQ .lc trivial, hQ .rc trivial, hQ .dots trivial, hQ .semi trivial, hQ .dot trivial, hQ .colon trivial, hQ .dcolon trivial, hQ .quest trivial, hQ .kDo trivial, hQ .kIf trivial, hQ .kElse trivial, hQ .kElseif trivial, hQ .kEnd trivial, hQ .kWhile trivial, hQ .kRepeat trivial, hQ .kUntil trivial, hQ .kFor trivial, hQ .kIn trivial, hQ .kFunction trivial, hQ .kBreak trivial, hQ .kReturn trivial, hQ .kLocal trivial, hQ .kGoto trivial, hQ th hth, -Bool.forall_bool]
  | .pos e its => by
    have ih1 := all_kE e
    have ih2 := all_kIts its
    intro p h
    simp only [kE, kEs, kIts, kS, kI, kB, prE, prEs, prIts, prS, prI, prT, prB, allT_append, allT_t, allT_nl, allT_nil, allT_brk, sepEs_k, eqEs_k, sepIts_k] at h ⊢
    all_goals simp_all [hQ .comma trivial, hQ .eq trivial, hQ .lp trivial, hQ .rp trivial, hQ .lb trivial, hQ .rb trivial, hQ .lc trivial, hQ .rc trivial, hQ .dots trivial, hQ .semi trivial, hQ .dot trivial, hQ .colon trivial, hQ .dcolon trivial, hQ .quest trivial, hQ .kDo trivial, hQ .kIf trivial, hQ .kElse trivial, hQ .kElseif trivial, hQ .kEnd trivial, hQ .kWhile trivial, hQ .kRepeat trivial, hQ .kUntil trivial, hQ .kFor trivial, hQ .kIn trivial, hQ .kFunction trivial, hQ .kBreak trivial, hQ .kReturn trivial, hQ .kLocal trivial, hQ .kGoto trivial, hQ th hth, -Bool.forall_bool]
  | .named x e its => by
    have ih1 := all_kE e
    have ih2 := all_kIts its
    intro p h
    simp only [kE, kEs, kIts, kS, kI, kB, prE, prEs, prIts, prS, prI, prT, prB, allT_append, allT_t, allT_nl, allT_nil, allT_brk, sepEs_k, eqEs_k, sepIts_k] at h ⊢
    all_goals simp_all [hQ .comma trivial, hQ .eq trivial, hQ .lp trivial, hQ .rp trivial, hQ .lb trivial, hQ .rb trivial, hQ .lc trivial, hQ .rc trivial, hQ .dots trivial, hQ .semi trivial, hQ .dot trivial, hQ .colon trivial, hQ .dcolon trivial, hQ .quest trivial, hQ .kDo trivial, hQ .kIf trivial, hQ .kElse trivial, hQ .kElseif trivial, hQ .kEnd trivial, hQ .kWhile trivial, hQ .kRepeat trivial, hQ .kUntil trivial, hQ .kFor trivial, hQ .kIn trivial, hQ .kFunction trivial, hQ .kBreak trivial, hQ .kReturn trivial, hQ .kLocal trivial, hQ .kGoto trivial, hQ th hth, -Bool.forall_bool]
  | .keyed k e its => by
    have ih1 := all_kE k
    have ih2 := all_kE e
    have ih3 := all_kIts its
    intro p h
    simp only [kE, kEs, kIts, kS, kI, kB, prE, prEs, prIts, prS, prI, prT, prB, allT_append, allT_t, allT_nl, allT_nil, allT_brk, sepEs_k, eqEs_k, sepIts_k] at h ⊢
    all_goals simp_all [hQ .comma trivial, hQ .eq trivial, hQ .lp trivial, hQ .rp trivial, hQ .lb trivial, hQ .rb trivial, hQ .lc trivial, hQ .rc trivial, hQ .dots trivial, hQ .semi trivial, hQ .dot trivial, hQ .colon trivial, hQ .dcolon trivial, hQ .quest trivial, hQ .kDo trivial, hQ .kIf trivial, hQ .kElse trivial, hQ .kElseif trivial, hQ .kEnd trivial, hQ .kWhile trivial, hQ .kRepeat trivial, hQ .kUntil trivial, hQ .kFor trivial, hQ .kIn trivial, hQ .kFunction trivial, hQ .kBreak trivial, hQ .kReturn trivial, hQ .kLocal trivial, hQ .kGoto trivial, hQ th hth, -Bool.forall_bool]
theorem all_kS : ∀ (x : St), ∀ p, AllT Q (prS th false x) → AllT Q (prS th false (kS O p x))
  | .do_ b => by
    have ih1 := all_kB b
    intro p h
    simp only [kE, kEs, kIts, kS, kI, kB, prE, prEs, prIts, prS, prI, prT, prB, allT_append, allT_t, allT_nl, allT_nil, allT_brk, sepEs_k, eqEs_k, sepIts_k] at h ⊢
    all_goals simp_all [hQ .comma trivial, hQ .eq trivial, hQ .lp trivial, hQ .rp trivial, hQ .lb trivial, hQ .rb trivial, hQ .lc trivial, hQ .rc trivial, hQ .dots trivial, hQ .semi trivial, hQ .dot trivial, hQ .colon trivial, hQ .dcolon trivial, hQ .quest trivial, hQ .kDo trivial, hQ .kIf trivial, hQ .kElse trivial, hQ .kElseif trivial, hQ .kEnd trivial, hQ .kWhile trivial, hQ .kRepeat trivial, hQ .kUntil trivial, hQ .kFor trivial, hQ .kIn trivial, hQ .kFunction trivial, hQ .kBreak trivial, hQ .kReturn trivial, hQ .kLocal trivial, hQ .kGoto trivial, hQ th hth, -Bool.forall_bool]
  | .if_ i => by
    have ih1 := all_kI i
    intro p h
    simp only [kE, kEs, kIts, kS, kI, kB, prE, prEs, prIts, prS, prI, prT, prB, allT_append, allT_t, allT_nl, allT_nil, allT_brk, sepEs_k, eqEs_k, sepIts_k] at h ⊢
    all_goals simp_all [hQ .comma trivial, hQ .eq trivial, hQ .lp trivial, hQ .rp trivial, hQ .lb trivial, hQ .rb trivial, hQ .lc trivial, hQ .rc trivial, hQ .dots trivial, hQ .semi trivial, hQ .dot trivial, hQ .colon trivial, hQ .dcolon trivial, hQ .quest trivial, hQ .kDo trivial, hQ .kIf trivial, hQ .kElse trivial, hQ .kElseif trivial, hQ .kEnd trivial, hQ .kWhile trivial, hQ .kRepeat trivial, hQ .kUntil trivial, hQ .kFor trivial, hQ .kIn trivial, hQ .kFunction trivial, hQ .kBreak trivial, hQ .kReturn trivial, hQ .kLocal trivial, hQ .kGoto trivial, hQ th hth, -Bool.forall_bool]
  | .while_ e b => by
    have ih1 := all_kE e
    have ih2 := all_kB b
    intro p h
    simp only [kE, kEs, kIts, kS, kI, kB, prE, prEs, prIts, prS, prI, prT, prB, allT_append, allT_t, allT_nl, allT_nil, allT_brk, sepEs_k, eqEs_k, sepIts_k] at h ⊢
    split_ifs <;> simp only [prE, prS, prI, prT, allT_append, allT_t, allT_nl, allT_nil, allT_brk]
    all_goals
      try simp only [allT_shE _ (_ || _), allT_shB _ (_ || _)] at h
      try simp only [allT_shE _ (_ || _), allT_shB _ (_ || _)]
      simp_all [allT_fill hQ hth, hQ .comma trivial, hQ .eq trivial, hQ .lp trivial, hQ .rp trivial, hQ .lb trivial, hQ .rb trivial, hQ .lc trivial, hQ .rc trivial, hQ .dots trivial, hQ .semi trivial, hQ .dot trivial, hQ .colon trivial, hQ .dcolon trivial, hQ .quest trivial, hQ .kDo trivial, hQ .kIf trivial, hQ .kElse trivial, hQ .kElseif trivial, hQ .kEnd trivial, hQ .kWhile trivial, hQ .kRepeat trivial, hQ .kUntil trivial, hQ .kFor trivial, hQ .kIn trivial, hQ .kFunction trivial, hQ .kBreak trivial, hQ .kReturn trivial, hQ .kLocal trivial, hQ .kGoto trivial, hQ th hth, -Bool.forall_bool]
  | .whileShort e b d => by
    have ih1 := all_kE e
    have ih2 := all_kB b
    intro p h
    simp only [kE, kEs, kIts, kS, kI, kB, prE, prEs, prIts, prS, prI, prT, prB, allT_append, allT_t, allT_nl, allT_nil, allT_brk, sepEs_k, eqEs_k, sepIts_k] at h ⊢
    split_ifs <;> simp only [prE, prS, prI, prT, allT_append, allT_t, allT_nl, allT_nil, allT_brk]
    all_goals
      try simp only [allT_shE _ (_ || _), allT_shB _ (_ || _)] at h
      try simp only [allT_shE _ (_ || _), allT_shB _ (_ || _)]
      simp_all [allT_fill hQ hth, hQ .comma trivial, hQ .eq trivial, hQ .lp trivial, hQ .rp trivial, hQ .lb trivial, hQ .rb trivial, hQ .lc trivial, hQ .rc trivial, hQ .dots trivial, hQ .semi trivial, hQ .dot trivial, hQ .colon trivial, hQ .dcolon trivial, hQ .quest trivial, hQ .kDo trivial, hQ .kIf trivial, hQ .kElse trivial, hQ .kElseif trivial, hQ .kEnd trivial, hQ .kWhile trivial, hQ .kRepeat trivial, hQ .kUntil trivial, hQ .kFor trivial, hQ .kIn trivial, hQ .kFunction trivial, hQ .kBreak trivial, hQ .kReturn trivial, hQ .kLocal trivial, hQ .kGoto trivial, hQ th hth, -Bool.forall_bool]
  | .repeat_ b e => by
    have ih1 := all_kB b
    have ih2 := all_kE e
    intro p h
    simp only [kE, kEs, kIts, kS, kI, kB, prE, prEs, prIts, prS, prI, prT, prB, allT_append, allT_t, allT_nl, allT_nil, allT_brk, sepEs_k, eqEs_k, sepIts_k] at h ⊢
    all_goals simp_all [hQ .comma trivial, hQ .eq trivial, hQ .lp trivial, hQ .rp trivial, hQ .lb trivial, hQ .rb trivial, hQ .lc trivial, hQ .rc trivial, hQ .dots trivial, hQ .semi trivial, hQ .dot trivial, hQ .colon trivial, hQ .dcolon trivial, hQ .quest trivial, hQ .kDo trivial, hQ .kIf trivial, hQ .kElse trivial, hQ .kElseif trivial, hQ .kEnd trivial, hQ .kWhile trivial, hQ .kRepeat trivial, hQ .kUntil trivial, hQ .kFor trivial, hQ .kIn trivial, hQ .kFunction trivial, hQ .kBreak trivial, hQ .kReturn trivial, hQ .kLocal trivial, hQ .kGoto trivial, hQ th hth, -Bool.forall_bool]
  | .fornum x a b s d => by
    have ih1 := all_kE a
    have ih2 := all_kE b
    have ih3 := all_kEs s
    have ih4 := all_kB d
    intro p h
    simp only [kE, kEs, kIts, kS, kI, kB, prE, prEs, prIts, prS, prI, prT, prB, allT_append, allT_t, allT_nl, allT_nil, allT_brk, sepEs_k, eqEs_k, sepIts_k] at h ⊢
    all_goals simp_all [hQ .comma trivial, hQ .eq trivial, hQ .lp trivial, hQ .rp trivial, hQ .lb trivial, hQ .rb trivial, hQ .lc trivial, hQ .rc trivial, hQ .dots trivial, hQ .semi trivial, hQ .dot trivial, hQ .colon trivial, hQ .dcolon trivial, hQ .quest trivial, hQ .kDo trivial, hQ .kIf trivial, hQ .kElse trivial, hQ .kElseif trivial, hQ .kEnd trivial, hQ .kWhile trivial, hQ .kRepeat trivial, hQ .kUntil trivial, hQ .kFor trivial, hQ .kIn trivial, hQ .kFunction trivial, hQ .kBreak trivial, hQ .kReturn trivial, hQ .kLocal trivial, hQ .kGoto trivial, hQ th hth, -Bool.forall_bool]
  | .forin xs es d => by
    have ih1 := all_kEs es
    have ih2 := all_kB d
    intro p h
    simp only [kE, kEs, kIts, kS, kI, kB, prE, prEs, prIts, prS, prI, prT, prB, allT_append, allT_t, allT_nl, allT_nil, allT_brk, sepEs_k, eqEs_k, sepIts_k] at h ⊢
    all_goals simp_all [hQ .comma trivial, hQ .eq trivial, hQ .lp trivial, hQ .rp trivial, hQ .lb trivial, hQ .rb trivial, hQ .lc trivial, hQ .rc trivial, hQ .dots trivial, hQ .semi trivial, hQ .dot trivial, hQ .colon trivial, hQ .dcolon trivial, hQ .quest trivial, hQ .kDo trivial, hQ .kIf trivial, hQ .kElse trivial, hQ .kElseif trivial, hQ .kEnd trivial, hQ .kWhile trivial, hQ .kRepeat trivial, hQ .kUntil trivial, hQ .kFor trivial, hQ .kIn trivial, hQ .kFunction trivial, hQ .kBreak trivial, hQ .kReturn trivial, hQ .kLocal trivial, hQ .kGoto trivial, hQ th hth, -Bool.forall_bool]
  | .break_ => by
    intro p h
    simp only [kE, kEs, kIts, kS, kI, kB, prE, prEs, prIts, prS, prI, prT, prB, allT_append, allT_t, allT_nl, allT_nil, allT_brk, sepEs_k, eqEs_k, sepIts_k] at h ⊢
    all_goals simp_all [hQ .comma trivial, hQ .eq trivial, hQ .lp trivial, hQ .rp trivial, hQ .lb trivial, hQ .rb trivial, hQ .lc trivial, hQ .rc trivial, hQ .dots trivial, hQ .semi trivial, hQ .dot trivial, hQ .colon trivial, hQ .dcolon trivial, hQ .quest trivial, hQ .kDo trivial, hQ .kIf trivial, hQ .kElse trivial, hQ .kElseif trivial, hQ .kEnd trivial, hQ .kWhile trivial, hQ .kRepeat trivial, hQ .kUntil trivial, hQ .kFor trivial, hQ .kIn trivial, hQ .kFunction trivial, hQ .kBreak trivial, hQ .kReturn trivial, hQ .kLocal trivial, hQ .kGoto trivial, hQ th hth, -Bool.forall_bool]
  | .return_ es => by
    have ih1 := all_kEs es
    intro p h
    simp only [kE, kEs, kIts, kS, kI, kB, prE, prEs, prIts, prS, prI, prT, prB, allT_append, allT_t, allT_nl, allT_nil, allT_brk, sepEs_k, eqEs_k, sepIts_k] at h ⊢
    all_goals simp_all [hQ .comma trivial, hQ .eq trivial, hQ .lp trivial, hQ .rp trivial, hQ .lb trivial, hQ .rb trivial, hQ .lc trivial, hQ .rc trivial, hQ .dots trivial, hQ .semi trivial, hQ .dot trivial, hQ .colon trivial, hQ .dcolon trivial, hQ .quest trivial, hQ .kDo trivial, hQ .kIf trivial, hQ .kElse trivial, hQ .kElseif trivial, hQ .kEnd trivial, hQ .kWhile trivial, hQ .kRepeat trivial, hQ .kUntil trivial, hQ .kFor trivial, hQ .kIn trivial, hQ .kFunction trivial, hQ .kBreak trivial, hQ .kReturn trivial, hQ .kLocal trivial, hQ .kGoto trivial, hQ th hth, -Bool.forall_bool]
  | .local_ xs es => by
    have ih1 := all_kEs es
    intro p h
    simp only [kE, kEs, kIts, kS, kI, kB, prE, prEs, prIts, prS, prI, prT, prB, allT_append, allT_t, allT_nl, allT_nil, allT_brk, sepEs_k, eqEs_k, sepIts_k] at h ⊢
    all_goals simp_all [hQ .comma trivial, hQ .eq trivial, hQ .lp trivial, hQ .rp trivial, hQ .lb trivial, hQ .rb trivial, hQ .lc trivial, hQ .rc trivial, hQ .dots trivial, hQ .semi trivial, hQ .dot trivial, hQ .colon trivial, hQ .dcolon trivial, hQ .quest trivial, hQ .kDo trivial, hQ .kIf trivial, hQ .kElse trivial, hQ .kElseif trivial, hQ .kEnd trivial, hQ .kWhile trivial, hQ .kRepeat trivial, hQ .kUntil trivial, hQ .kFor trivial, hQ .kIn trivial, hQ .kFunction trivial, hQ .kBreak trivial, hQ .kReturn trivial, hQ .kLocal trivial, hQ .kGoto trivial, hQ th hth, -Bool.forall_bool]
  | .localfn x ps b => by
    have ih1 := all_kB b
    intro p h
    simp only [kE, kEs, kIts, kS, kI, kB, prE, prEs, prIts, prS, prI, prT, prB, allT_append, allT_t, allT_nl, allT_nil, allT_brk, sepEs_k, eqEs_k, sepIts_k] at h ⊢
    all_goals simp_all [hQ .comma trivial, hQ .eq trivial, hQ .lp trivial, hQ .rp trivial, hQ .lb trivial, hQ .rb trivial, hQ .lc trivial, hQ .rc trivial, hQ .dots trivial, hQ .semi trivial, hQ .dot trivial, hQ .colon trivial, hQ .dcolon trivial, hQ .quest trivial, hQ .kDo trivial, hQ .kIf trivial, hQ .kElse trivial, hQ .kElseif trivial, hQ .kEnd trivial, hQ .kWhile trivial, hQ .kRepeat trivial, hQ .kUntil trivial, hQ .kFor trivial, hQ .kIn trivial, hQ .kFunction trivial, hQ .kBreak trivial, hQ .kReturn trivial, hQ .kLocal trivial, hQ .kGoto trivial, hQ th hth, -Bool.forall_bool]
  | .goto_ x => by
    intro p h
    simp only [kE, kEs, kIts, kS, kI, kB, prE, prEs, prIts, prS, prI, prT, prB, allT_append, allT_t, allT_nl, allT_nil, allT_brk, sepEs_k, eqEs_k, sepIts_k] at h ⊢
    all_goals simp_all [hQ .comma trivial, hQ .eq trivial, hQ .lp trivial, hQ .rp trivial, hQ .lb trivial, hQ .rb trivial, hQ .lc trivial, hQ .rc trivial, hQ .dots trivial, hQ .semi trivial, hQ .dot trivial, hQ .colon trivial, hQ .dcolon trivial, hQ .quest trivial, hQ .kDo trivial, hQ .kIf trivial, hQ .kElse trivial, hQ .kElseif trivial, hQ .kEnd trivial, hQ .kWhile trivial, hQ .kRepeat trivial, hQ .kUntil trivial, hQ .kFor trivial, hQ .kIn trivial, hQ .kFunction trivial, hQ .kBreak trivial, hQ .kReturn trivial, hQ .kLocal trivial, hQ .kGoto trivial, hQ th hth, -Bool.forall_bool]
  | .label x => by
    intro p h
    simp only [kE, kEs, kIts, kS, kI, kB, prE, prEs, prIts, prS, prI, prT, prB, allT_append, allT_t, allT_nl, allT_nil, allT_brk, sepEs_k, eqEs_k, sepIts_k] at h ⊢
    all_goals simp_all [hQ .comma trivial, hQ .eq trivial, hQ .lp trivial, hQ .rp trivial, hQ .lb trivial, hQ .rb trivial, hQ .lc trivial, hQ .rc trivial, hQ .dots trivial, hQ .semi trivial, hQ .dot trivial, hQ .colon trivial, hQ .dcolon trivial, hQ .quest trivial, hQ .kDo trivial, hQ .kIf trivial, hQ .kElse trivial, hQ .kElseif trivial, hQ .kEnd trivial, hQ .kWhile trivial, hQ .kRepeat trivial, hQ .kUntil trivial, hQ .kFor trivial, hQ .kIn trivial, hQ .kFunction trivial, hQ .kBreak trivial, hQ .kReturn trivial, hQ .kLocal trivial, hQ .kGoto trivial, hQ th hth, -Bool.forall_bool]
  | .func f ps b => by
    have ih1 := all_kB b
    intro p h
    simp only [kE, kEs, kIts, kS, kI, kB, prE, prEs, prIts, prS, prI, prT, prB, allT_append, allT_t, allT_nl, allT_nil, allT_brk, sepEs_k, eqEs_k, sepIts_k] at h ⊢
    all_goals simp_all [hQ .comma trivial, hQ .eq trivial, hQ .lp trivial, hQ .rp trivial, hQ .lb trivial, hQ .rb trivial, hQ .lc trivial, hQ .rc trivial, hQ .dots trivial, hQ .semi trivial, hQ .dot trivial, hQ .colon trivial, hQ .dcolon trivial, hQ .quest trivial, hQ .kDo trivial, hQ .kIf trivial, hQ .kElse trivial, hQ .kElseif trivial, hQ .kEnd trivial, hQ .kWhile trivial, hQ .kRepeat trivial, hQ .kUntil trivial, hQ .kFor trivial, hQ .kIn trivial, hQ .kFunction trivial, hQ .kBreak trivial, hQ .kReturn trivial, hQ .kLocal trivial, hQ .kGoto trivial, hQ th hth, -Bool.forall_bool]
  | .assign ts es => by
    have ih1 := all_kEs ts
    have ih2 := all_kEs es
    intro p h
    simp only [kE, kEs, kIts, kS, kI, kB, prE, prEs, prIts, prS, prI, prT, prB, allT_append, allT_t, allT_nl, allT_nil, allT_brk, sepEs_k, eqEs_k, sepIts_k] at h ⊢
    all_goals simp_all [hQ .comma trivial, hQ .eq trivial, hQ .lp trivial, hQ .rp trivial, hQ .lb trivial, hQ .rb trivial, hQ .lc trivial, hQ .rc trivial, hQ .dots trivial, hQ .semi trivial, hQ .dot trivial, hQ .colon trivial, hQ .dcolon trivial, hQ .quest trivial, hQ .kDo trivial, hQ .kIf trivial, hQ .kElse trivial, hQ .kElseif trivial, hQ .kEnd trivial, hQ .kWhile trivial, hQ .kRepeat trivial, hQ .kUntil trivial, hQ .kFor trivial, hQ .kIn trivial, hQ .kFunction trivial, hQ .kBreak trivial, hQ .kReturn trivial, hQ .kLocal trivial, hQ .kGoto trivial, hQ th hth, -Bool.forall_bool]
  | .opassign o t e => by
    have ih1 := all_kE t
    have ih2 := all_kE e
    intro p h
    simp only [kE, kEs, kIts, kS, kI, kB, prE, prEs, prIts, prS, prI, prT, prB, allT_append, allT_t, allT_nl, allT_nil, allT_brk, sepEs_k, eqEs_k, sepIts_k] at h ⊢
    all_goals simp_all [hQ .comma trivial, hQ .eq trivial, hQ .lp trivial, hQ .rp trivial, hQ .lb trivial, hQ .rb trivial, hQ .lc trivial, hQ .rc trivial, hQ .dots trivial, hQ .semi trivial, hQ .dot trivial, hQ .colon trivial, hQ .dcolon trivial, hQ .quest trivial, hQ .kDo trivial, hQ .kIf trivial, hQ .kElse trivial, hQ .kElseif trivial, hQ .kEnd trivial, hQ .kWhile trivial, hQ .kRepeat trivial, hQ .kUntil trivial, hQ .kFor trivial, hQ .kIn trivial, hQ .kFunction trivial, hQ .kBreak trivial, hQ .kReturn trivial, hQ .kLocal trivial, hQ .kGoto trivial, hQ th hth, -Bool.forall_bool]
  | .call e => by
    have ih1 := all_kE e
    intro p h
    simp only [kS, prS] at h ⊢
    have h1 := ih1 p.mid h
    split_ifs with hm
    · obtain ⟨t, as, rfl⟩ := isPrint_iff.1 (may_print _ ((Bool.and_eq_true _ _).mp hm).2).1
      cases t <;> simp only [kE, argsOf, prS, prE, allT_append, allT_t, allT_nl, allT_nil, allT_brk, allT_shEs _ true] at h1 ⊢
      · exact ⟨hQ _ trivial, h1.2.2.1, trivial⟩
      · exact ⟨hQ _ trivial, h1.2, trivial⟩
    · exact h1
  | .print es => by
    have ih1 := all_kEs es
    intro p h
    simp only [kE, kEs, kIts, kS, kI, kB, prE, prEs, prIts, prS, prI, prT, prB, allT_append, allT_t, allT_nl, allT_nil, allT_brk, sepEs_k, eqEs_k, sepIts_k] at h ⊢
    simp only [allT_shEs _ true] at h ⊢
    simp_all [hQ .comma trivial, hQ .eq trivial, hQ .lp trivial, hQ .rp trivial, hQ .lb trivial, hQ .rb trivial, hQ .lc trivial, hQ .rc trivial, hQ .dots trivial, hQ .semi trivial, hQ .dot trivial, hQ .colon trivial, hQ .dcolon trivial, hQ .quest trivial, hQ .kDo trivial, hQ .kIf trivial, hQ .kElse trivial, hQ .kElseif trivial, hQ .kEnd trivial, hQ .kWhile trivial, hQ .kRepeat trivial, hQ .kUntil trivial, hQ .kFor trivial, hQ .kIn trivial, hQ .kFunction trivial, hQ .kBreak trivial, hQ .kReturn trivial, hQ .kLocal trivial, hQ .kGoto trivial, hQ th hth, -Bool.forall_bool]
theorem all_kI : ∀ (x : If), ∀ can p, AllT Q (prI th false x) → AllT Q (prI th false (kI O can p x))
  | .long e b .end_ => by
    have ih1 := all_kE e
    have ih2 := all_kB b
    intro can p h
    simp only [kE, kEs, kIts, kS, kI, kB, prE, prEs, prIts, prS, prI, prT, prB, allT_append, allT_t, allT_nl, allT_nil, allT_brk, sepEs_k, eqEs_k, sepIts_k] at h ⊢
    split_ifs <;> simp only [prE, prS, prI, prT, allT_append, allT_t, allT_nl, allT_nil, allT_brk]
    all_goals
      try simp only [allT_shE _ (_ || _), allT_shB _ (_ || _)] at h
      try simp only [allT_shE _ (_ || _), allT_shB _ (_ || _)]
      simp_all [allT_fill hQ hth, hQ .comma trivial, hQ .eq trivial, hQ .lp trivial, hQ .rp trivial, hQ .lb trivial, hQ .rb trivial, hQ .lc trivial, hQ .rc trivial, hQ .dots trivial, hQ .semi trivial, hQ .dot trivial, hQ .colon trivial, hQ .dcolon trivial, hQ .quest trivial, hQ .kDo trivial, hQ .kIf trivial, hQ .kElse trivial, hQ .kElseif trivial, hQ .kEnd trivial, hQ .kWhile trivial, hQ .kRepeat trivial, hQ .kUntil trivial, hQ .kFor trivial, hQ .kIn trivial, hQ .kFunction trivial, hQ .kBreak trivial, hQ .kReturn trivial, hQ .kLocal trivial, hQ .kGoto trivial, hQ th hth, -Bool.forall_bool]
  | .long e b (.else_ b') => by
    have ih1 := all_kE e
    have ih2 := all_kB b
    have ih3 := all_kB b'
    intro can p h
    simp only [kE, kEs, kIts, kS, kI, kB, prE, prEs, prIts, prS, prI, prT, prB, allT_append, allT_t, allT_nl, allT_nil, allT_brk, sepEs_k, eqEs_k, sepIts_k] at h ⊢
    split_ifs <;> simp only [prE, prS, prI, prT, allT_append, allT_t, allT_nl, allT_nil, allT_brk]
    all_goals
      try simp only [allT_shE _ (_ || _), allT_shB _ (_ || _)] at h
      try simp only [allT_shE _ (_ || _), allT_shB _ (_ || _)]
      simp_all [allT_fill hQ hth, hQ .comma trivial, hQ .eq trivial, hQ .lp trivial, hQ .rp trivial, hQ .lb trivial, hQ .rb trivial, hQ .lc trivial, hQ .rc trivial, hQ .dots trivial, hQ .semi trivial, hQ .dot trivial, hQ .colon trivial, hQ .dcolon trivial, hQ .quest trivial, hQ .kDo trivial, hQ .kIf trivial, hQ .kElse trivial, hQ .kElseif trivial, hQ .kEnd trivial, hQ .kWhile trivial, hQ .kRepeat trivial, hQ .kUntil trivial, hQ .kFor trivial, hQ .kIn trivial, hQ .kFunction trivial, hQ .kBreak trivial, hQ .kReturn trivial, hQ .kLocal trivial, hQ .kGoto trivial, hQ th hth, -Bool.forall_bool]
  | .long e b (.elseif_ i) => by
    have ih1 := all_kE e
    have ih2 := all_kB b
    have ih3 := all_kI i
    intro can p h
    simp only [kE, kEs, kIts, kS, kI, kB, prE, prEs, prIts, prS, prI, prT, prB, allT_append, allT_t, allT_nl, allT_nil, allT_brk, sepEs_k, eqEs_k, sepIts_k] at h ⊢
    all_goals simp_all [hQ .comma trivial, hQ .eq trivial, hQ .lp trivial, hQ .rp trivial, hQ .lb trivial, hQ .rb trivial, hQ .lc trivial, hQ .rc trivial, hQ .dots trivial, hQ .semi trivial, hQ .dot trivial, hQ .colon trivial, hQ .dcolon trivial, hQ .quest trivial, hQ .kDo trivial, hQ .kIf trivial, hQ .kElse trivial, hQ .kElseif trivial, hQ .kEnd trivial, hQ .kWhile trivial, hQ .kRepeat trivial, hQ .kUntil trivial, hQ .kFor trivial, hQ .kIn trivial, hQ .kFunction trivial, hQ .kBreak trivial, hQ .kReturn trivial, hQ .kLocal trivial, hQ .kGoto trivial, hQ th hth, -Bool.forall_bool]
  | .short e b d => by
    have ih1 := all_kE e
    have ih2 := all_kB b
    intro can p h
    simp only [kE, kEs, kIts, kS, kI, kB, prE, prEs, prIts, prS, prI, prT, prB, allT_append, allT_t, allT_nl, allT_nil, allT_brk, sepEs_k, eqEs_k, sepIts_k] at h ⊢
    split_ifs <;> simp only [prE, prS, prI, prT, allT_append, allT_t, allT_nl, allT_nil, allT_brk]
    all_goals
      try simp only [allT_shE _ (_ || _), allT_shB _ (_ || _)] at h
      try simp only [allT_shE _ (_ || _), allT_shB _ (_ || _)]
      simp_all [allT_fill hQ hth, hQ .comma trivial, hQ .eq trivial, hQ .lp trivial, hQ .rp trivial, hQ .lb trivial, hQ .rb trivial, hQ .lc trivial, hQ .rc trivial, hQ .dots trivial, hQ .semi trivial, hQ .dot trivial, hQ .colon trivial, hQ .dcolon trivial, hQ .quest trivial, hQ .kDo trivial, hQ .kIf trivial, hQ .kElse trivial, hQ .kElseif trivial, hQ .kEnd trivial, hQ .kWhile trivial, hQ .kRepeat trivial, hQ .kUntil trivial, hQ .kFor trivial, hQ .kIn trivial, hQ .kFunction trivial, hQ .kBreak trivial, hQ .kReturn trivial, hQ .kLocal trivial, hQ .kGoto trivial, hQ th hth, -Bool.forall_bool]
  | .shortElse e b b' d => by
    have ih1 := all_kE e
    have ih2 := all_kB b
    have ih3 := all_kB b'
    intro can p h
    simp only [kE, kEs, kIts, kS, kI, kB, prE, prEs, prIts, prS, prI, prT, prB, allT_append, allT_t, allT_nl, allT_nil, allT_brk, sepEs_k, eqEs_k, sepIts_k] at h ⊢
    split_ifs <;> simp only [prE, prS, prI, prT, allT_append, allT_t, allT_nl, allT_nil, allT_brk]
    all_goals
      try simp only [allT_shE _ (_ || _), allT_shB _ (_ || _)] at h
      try simp only [allT_shE _ (_ || _), allT_shB _ (_ || _)]
      simp_all [allT_fill hQ hth, hQ .comma trivial, hQ .eq trivial, hQ .lp trivial, hQ .rp trivial, hQ .lb trivial, hQ .rb trivial, hQ .lc trivial, hQ .rc trivial, hQ .dots trivial, hQ .semi trivial, hQ .dot trivial, hQ .colon trivial, hQ .dcolon trivial, hQ .quest trivial, hQ .kDo trivial, hQ .kIf trivial, hQ .kElse trivial, hQ .kElseif trivial, hQ .kEnd trivial, hQ .kWhile trivial, hQ .kRepeat trivial, hQ .kUntil trivial, hQ .kFor trivial, hQ .kIn trivial, hQ .kFunction trivial, hQ .kBreak trivial, hQ .kReturn trivial, hQ .kLocal trivial, hQ .kGoto trivial, hQ th hth, -Bool.forall_bool]
theorem all_kB : ∀ (x : Block), ∀ p, AllT Q (prB th false x) → AllT Q (prB th false (kB O p x))
  | .nil => by
    intro p h
    simp only [kE, kEs, kIts, kS, kI, kB, prE, prEs, prIts, prS, prI, prT, prB, allT_append, allT_t, allT_nl, allT_nil, allT_brk, sepEs_k, eqEs_k, sepIts_k] at h ⊢
    all_goals simp_all [hQ .comma trivial, hQ .eq trivial, hQ .lp trivial, hQ .rp trivial, hQ .lb trivial, hQ .rb trivial, hQ .lc trivial, hQ .rc trivial, hQ .dots trivial, hQ .semi trivial, hQ .dot trivial, hQ .colon trivial, hQ .dcolon trivial, hQ .quest trivial, hQ .kDo trivial, hQ .kIf trivial, hQ .kElse trivial, hQ .kElseif trivial, hQ .kEnd trivial, hQ .kWhile trivial, hQ .kRepeat trivial, hQ .kUntil trivial, hQ .kFor trivial, hQ .kIn trivial, hQ .kFunction trivial, hQ .kBreak trivial, hQ .kReturn trivial, hQ .kLocal trivial, hQ .kGoto trivial, hQ th hth, -Bool.forall_bool]
  | .semi b => by
    have ih1 := all_kB b
    intro p h
    simp only [kE, kEs, kIts, kS, kI, kB, prE, prEs, prIts, prS, prI, prT, prB, allT_append, allT_t, allT_nl, allT_nil, allT_brk, sepEs_k, eqEs_k, sepIts_k] at h ⊢
    all_goals simp_all [hQ .comma trivial, hQ .eq trivial, hQ .lp trivial, hQ .rp trivial, hQ .lb trivial, hQ .rb trivial, hQ .lc trivial, hQ .rc trivial, hQ .dots trivial, hQ .semi trivial, hQ .dot trivial, hQ .colon trivial, hQ .dcolon trivial, hQ .quest trivial, hQ .kDo trivial, hQ .kIf trivial, hQ .kElse trivial, hQ .kElseif trivial, hQ .kEnd trivial, hQ .kWhile trivial, hQ .kRepeat trivial, hQ .kUntil trivial, hQ .kFor trivial, hQ .kIn trivial, hQ .kFunction trivial, hQ .kBreak trivial, hQ .kReturn trivial, hQ .kLocal trivial, hQ .kGoto trivial, hQ th hth, -Bool.forall_bool]
  | .cons s .nil => by
    have ih1 := all_kS s
    intro p h
    simp only [kE, kEs, kIts, kS, kI, kB, prE, prEs, prIts, prS, prI, prT, prB, allT_append, allT_t, allT_nl, allT_nil, allT_brk, sepEs_k, eqEs_k, sepIts_k] at h ⊢
    all_goals simp_all [hQ .comma trivial, hQ .eq trivial, hQ .lp trivial, hQ .rp trivial, hQ .lb trivial, hQ .rb trivial, hQ .lc trivial, hQ .rc trivial, hQ .dots trivial, hQ .semi trivial, hQ .dot trivial, hQ .colon trivial, hQ .dcolon trivial, hQ .quest trivial, hQ .kDo trivial, hQ .kIf trivial, hQ .kElse trivial, hQ .kElseif trivial, hQ .kEnd trivial, hQ .kWhile trivial, hQ .kRepeat trivial, hQ .kUntil trivial, hQ .kFor trivial, hQ .kIn trivial, hQ .kFunction trivial, hQ .kBreak trivial, hQ .kReturn trivial, hQ .kLocal trivial, hQ .kGoto trivial, hQ th hth, -Bool.forall_bool]
  | .cons s (.semi b) => by
    have ih1 := all_kS s
    have ih2 := all_kB (.semi b)
    intro p h
    rw [show kB O p (.cons s (.semi b)) = .cons (kS O p.mid s) (kB O p (.semi b)) from rfl]
    rw [prB] at h ⊢
    simp only [allT_append] at h ⊢
    exact ⟨ih1 _ h.1, ih2 _ h.2⟩
  | .cons s (.cons r b) => by
    have ih1 := all_kS s
    have ih2 := all_kB (.cons r b)
    intro p h
    rw [show kB O p (.cons s (.cons r b)) = .cons (kS O p.mid s) (kB O p (.cons r b)) from rfl]
    rw [prB] at h ⊢
    simp only [allT_append] at h ⊢
    exact ⟨ih1 _ h.1, ih2 _ h.2⟩
end

end Verif.Mini
