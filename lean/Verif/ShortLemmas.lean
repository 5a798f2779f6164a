import Verif.ShortTree
import Verif.FineOf
import Mathlib.Tactic.SplitIfs
/-
Making and undoing shorthands keeps trees fine.
-/
set_option linter.unusedVariables false
set_option linter.unusedSimpArgs false
set_option linter.unusedSectionVars false
set_option linter.unusedTactic false
namespace Verif.Mini
open Syntax Tidy
open LuaGrammar (openEnd Binary unaryOps)
open Paren (Op Lang prec)

@[simp] theorem Pc.mid_mid (p : Pc) : p.mid.mid = p.mid := by cases p <;> rfl
@[simp] theorem Pc.mid_bad : Pc.bad.mid = .bad := rfl
@[simp] theorem Pc.body_bad (n : Bool) : Pc.bad.body n = .bad := rfl
@[simp] theorem Pc.first_bad (n : Bool) : Pc.bad.first n = .bad := rfl
theorem Pc.mid_ne {p : Pc} (h : p ≠ .free) : p.mid = .bad := by cases p <;> simp_all [Pc.mid]
theorem Pc.body_ne (n : Bool) (p : Pc) : p.body n ≠ .free := by cases p <;> cases n <;> simp [Pc.body]
theorem Pc.first_ne (n : Bool) (p : Pc) : p.first n ≠ .free := by cases p <;> cases n <;> simp [Pc.first]

variable (O : Sh)

theorem not_may_bad {c : Bool} {b : Block} {sb : Sm} {e : Option (Block × Sm)} : O.may .bad c b sb e = false := by simp [Sh.may, Pc.fits]
theorem mayIf_bad {e : Ex} {b : Block} {b' : Option Block} : mayIf O .bad e b b' = false := by cases b' <;> simp [mayIf, not_may_bad]
theorem mayPrint_bad {e : Ex} {a : Bool} : O.mayPrint .bad e a = false := by simp [Sh.mayPrint, Pc.fits]

/-! ### What stays the same -/

theorem semis_k (p : Pc) : ∀ b, semis (kB O p b) = semis b
  | .nil => rfl
  | .semi b => by rw [kB, semis, semis, semis_k p b]
  | .cons s .nil => by simp [kB, semis]
  | .cons s (.semi b) => by simp [kB, semis]
  | .cons s (.cons r b) => by simp [kB, semis]

theorem isNil_k (p : Pc) (b : Block) : isNil (kB O p b) = isNil b := by
  rcases b with _ | _ | ⟨s, _ | _ | _⟩ <;> simp [kB, isNil]

theorem nil_k (p : Pc) (b : Block) : (kB O p b = .nil) ↔ (b = .nil) := by
  rcases b with _ | _ | ⟨s, _ | _ | _⟩ <;> simp [kB]

theorem isRet0_k (p : Pc) (s : St) : isRet0 (kS O p s) = isRet0 s := by
  cases s <;> simp only [kS]
  case return_ es => cases es <;> simp [kEs, isRet0]
  all_goals first | rfl | (split_ifs <;> rfl)

theorem endsRet_k (p : Pc) : ∀ b, endsRet (kB O p b) = endsRet b
  | .nil => rfl
  | .semi b => by rw [kB, endsRet, endsRet, endsRet_k p b]
  | .cons s .nil => by simp [kB, endsRet, semis, isRet0_k]
  | .cons s (.semi b) => by
    have ih := endsRet_k p (.semi b)
    have ihs := semis_k O p (.semi b)
    rw [show kB O p (.cons s (.semi b)) = .cons (kS O p.mid s) (kB O p (.semi b)) from rfl, endsRet, endsRet, ih, ihs, isRet0_k]
  | .cons s (.cons r b) => by
    have ih := endsRet_k p (.cons r b)
    have ihs := semis_k O p (.cons r b)
    rw [show kB O p (.cons s (.cons r b)) = .cons (kS O p.mid s) (kB O p (.cons r b)) from rfl, endsRet, endsRet, ih, ihs, isRet0_k]

theorem leadLp_k (p : Pc) : ∀ e, leadLp (kE O p e) = leadLp e
  | .bin _ l _ => by simp only [kE, leadLp]; exact leadLp_k p l
  | .member b _ => by simp only [kE, leadLp]; exact leadLp_k p b
  | .index b _ => by simp only [kE, leadLp]; exact leadLp_k p b
  | .call b _ _ => by simp only [kE, leadLp]; exact leadLp_k p b
  | .method b _ _ _ => by simp only [kE, leadLp]; exact leadLp_k p b
  | .var _ | .num _ | .str _ | .cst _ | .vararg | .func _ _ | .group _ | .un _ _ | .table _ => by simp only [kE, leadLp]

theorem leadEs_k (p : Pc) (es : Exs) : leadEs (kEs O p es) = leadEs es := by cases es <;> simp [kEs, leadEs, leadLp_k]

theorem isPrint_iff {e : Ex} : isPrint e = true ↔ ∃ t as, e = .call (.var (nm "print")) t as := by
  constructor
  · intro h
    cases e <;> simp only [isPrint, Bool.false_eq_true] at h
    rename_i b t as
    cases b <;> simp only [isPrint, Bool.false_eq_true] at h
    exact ⟨t, as, by rw [of_decide_eq_true h]⟩
  · rintro ⟨t, as, rfl⟩; simp [isPrint]

theorem leadS_k (p : Pc) (s : St) : leadS (kS O p s) = leadS s := by
  cases s <;> simp only [kS, leadS, leadEs_k, leadLp_k]
  case call e =>
    split_ifs with h
    · simp only [Bool.and_eq_true, Sh.mayPrint] at h
      obtain ⟨t, as, rfl⟩ := isPrint_iff.1 h.2.1.1.2
      simp [leadLp]
    · simp [leadLp_k]
  all_goals first | rfl | (split_ifs <;> rfl)

theorem leadB_k (p : Pc) (b : Block) : leadB (kB O p b) = leadB b := by
  rcases b with _ | _ | ⟨s, _ | _ | _⟩ <;> simp [kB, leadB, leadS_k]

theorem isDo_k (p : Pc) (s : St) (b : Block) : doB (.cons (kS O p s) b) = doB (.cons s b) := by
  cases s <;> simp only [kS, doB]
  all_goals split_ifs <;> rfl

theorem doB_k (p : Pc) : ∀ b, doB (kB O p b) = doB b
  | .nil => rfl
  | .semi b => by rw [kB, doB, doB, doB_k p b]
  | .cons s .nil => by rw [kB, isDo_k]
  | .cons s (.semi b) => by rw [show kB O p (.cons s (.semi b)) = .cons (kS O p.mid s) (kB O p (.semi b)) from rfl, isDo_k]; cases s <;> rfl
  | .cons s (.cons r b) => by rw [show kB O p (.cons s (.cons r b)) = .cons (kS O p.mid s) (kB O p (.cons r b)) from rfl, isDo_k]; cases s <;> rfl

theorem lvl_k (p : Pc) (e : Ex) : lvl (kE O p e) = lvl e := by cases e <;> simp [kE, lvl]
theorem isPre_k (p : Pc) (e : Ex) : isPre (kE O p e) = isPre e := by cases e <;> simp [kE, isPre]
theorem isCall_k (p : Pc) (e : Ex) : isCall (kE O p e) = isCall e := by cases e <;> simp [kE, isCall]
theorem isGroup_k (p : Pc) (e : Ex) : isGroup (kE O p e) = isGroup e := by cases e <;> simp [kE, isGroup]
theorem isTarget_k (p : Pc) (e : Ex) : isTarget (kE O p e) = isTarget e := by cases e <;> simp [kE, isTarget]
theorem targets_k (p : Pc) : ∀ es, targets (kEs O p es) = targets es
  | .nil => rfl
  | .cons e es => by rw [kEs, targets, targets, isTarget_k, targets_k p es]
theorem bareArg_k (p : Pc) (es : Exs) : bareArg (kEs O p es) = bareArg es := by
  rcases es with _ | ⟨e, _ | _⟩
  · rfl
  · cases e <;> simp [kEs, kE, bareArg]
  · cases e <;> simp [kEs, kE, bareArg]
theorem nilEs_k (p : Pc) (es : Exs) : (kEs O p es = .nil) ↔ (es = .nil) := by cases es <;> simp [kEs]
theorem openEnd_k (p : Pc) : ∀ e, openEnd (kE O p e) = openEnd e
  | .bin _ _ r => by simp only [kE, openEnd]; exact openEnd_k p r
  | .un _ e => by simp only [kE, openEnd]; exact openEnd_k p e
  | .member _ _ | .index _ _ | .call _ _ _ | .method _ _ _ _
  | .var _ | .num _ | .str _ | .cst _ | .vararg | .func _ _ | .group _ | .table _ => by simp only [kE, openEnd]
theorem openEs_k (p : Pc) : ∀ es, openEs (kEs O p es) = openEs es
  | .nil => rfl
  | .cons e .nil => by simp only [kEs, openEs, openEnd_k]
  | .cons e (.cons f es) => by
    have ih := openEs_k p (.cons f es)
    rw [kEs, openEs, ih]
    · rfl
    · simp [kEs]

theorem isLong_k (p : Pc) {i : If} (h : isLong i = true) : isLong (kI O false p i) = true := by
  cases i with
  | long e b t => cases t <;> simp [kI, isLong]
  | _ => simp [isLong] at h

/-! ### The analysis -/

mutual
theorem sum_leS : ∀ (x : St), ∀ p, (smS O p x).any = false → (smS O p x).bad = false ∧ (smS O p x).noElse = false
  | .do_ b => by
    have ih1 := sum_leB b
    intros
    rename_i h
    simp only [smS, smI, smB, Sm.shut, Sm.or, Bool.or_eq_false_iff, Bool.true_or, Bool.true_eq_false, false_and, and_true, and_self] at *
    all_goals first | exact h | exact ⟨h, h⟩ | exact ⟨h.1, h⟩ | exact h.1 | simp
  | .if_ i => by
    have ih1 := sum_leI i
    intro p h
    simp only [smS] at *
    exact ih1 _ _ h
  | .while_ e b => by
    have ih1 := sum_leB b
    intros
    rename_i h
    simp only [smS, smI, smB, Sm.shut, Sm.or, Bool.or_eq_false_iff, Bool.true_or, Bool.true_eq_false, false_and, and_true, and_self] at *
    all_goals first | exact h | exact ⟨h, h⟩ | exact ⟨h.1, h⟩ | exact h.1 | simp
  | .whileShort e b d => by
    have ih1 := sum_leB b
    intros
    rename_i h
    simp only [smS, smI, smB, Sm.shut, Sm.or, Bool.or_eq_false_iff, Bool.true_or, Bool.true_eq_false, false_and, and_true, and_self] at *
    all_goals first | exact h | exact ⟨h, h⟩ | exact ⟨h.1, h⟩ | exact h.1 | simp
  | .repeat_ b e => by
    have ih1 := sum_leB b
    intros
    rename_i h
    simp only [smS, smI, smB, Sm.shut, Sm.or, Bool.or_eq_false_iff, Bool.true_or, Bool.true_eq_false, false_and, and_true, and_self] at *
    all_goals first | exact h | exact ⟨h, h⟩ | exact ⟨h.1, h⟩ | exact h.1 | simp
  | .fornum x a b s d => by
    have ih1 := sum_leB d
    intros
    rename_i h
    simp only [smS, smI, smB, Sm.shut, Sm.or, Bool.or_eq_false_iff, Bool.true_or, Bool.true_eq_false, false_and, and_true, and_self] at *
    all_goals first | exact h | exact ⟨h, h⟩ | exact ⟨h.1, h⟩ | exact h.1 | simp
  | .forin xs es d => by
    have ih1 := sum_leB d
    intros
    rename_i h
    simp only [smS, smI, smB, Sm.shut, Sm.or, Bool.or_eq_false_iff, Bool.true_or, Bool.true_eq_false, false_and, and_true, and_self] at *
    all_goals first | exact h | exact ⟨h, h⟩ | exact ⟨h.1, h⟩ | exact h.1 | simp
  | .break_ => by
    intros
    rename_i h
    simp only [smS, smI, smB, Sm.shut, Sm.or, Bool.or_eq_false_iff, Bool.true_or, Bool.true_eq_false, false_and, and_true, and_self] at *
    all_goals first | exact h | exact ⟨h, h⟩ | exact ⟨h.1, h⟩ | exact h.1 | simp
  | .return_ es => by
    intros
    rename_i h
    simp only [smS, smI, smB, Sm.shut, Sm.or, Bool.or_eq_false_iff, Bool.true_or, Bool.true_eq_false, false_and, and_true, and_self] at *
    all_goals first | exact h | exact ⟨h, h⟩ | exact ⟨h.1, h⟩ | exact h.1 | simp
  | .local_ xs es => by
    intros
    rename_i h
    simp only [smS, smI, smB, Sm.shut, Sm.or, Bool.or_eq_false_iff, Bool.true_or, Bool.true_eq_false, false_and, and_true, and_self] at *
    all_goals first | exact h | exact ⟨h, h⟩ | exact ⟨h.1, h⟩ | exact h.1 | simp
  | .localfn x ps b => by
    have ih1 := sum_leB b
    intros
    rename_i h
    simp only [smS, smI, smB, Sm.shut, Sm.or, Bool.or_eq_false_iff, Bool.true_or, Bool.true_eq_false, false_and, and_true, and_self] at *
    all_goals first | exact h | exact ⟨h, h⟩ | exact ⟨h.1, h⟩ | exact h.1 | simp
  | .goto_ x => by
    intros
    rename_i h
    simp only [smS, smI, smB, Sm.shut, Sm.or, Bool.or_eq_false_iff, Bool.true_or, Bool.true_eq_false, false_and, and_true, and_self] at *
    all_goals first | exact h | exact ⟨h, h⟩ | exact ⟨h.1, h⟩ | exact h.1 | simp
  | .label x => by
    intros
    rename_i h
    simp only [smS, smI, smB, Sm.shut, Sm.or, Bool.or_eq_false_iff, Bool.true_or, Bool.true_eq_false, false_and, and_true, and_self] at *
    all_goals first | exact h | exact ⟨h, h⟩ | exact ⟨h.1, h⟩ | exact h.1 | simp
  | .func f ps b => by
    have ih1 := sum_leB b
    intros
    rename_i h
    simp only [smS, smI, smB, Sm.shut, Sm.or, Bool.or_eq_false_iff, Bool.true_or, Bool.true_eq_false, false_and, and_true, and_self] at *
    all_goals first | exact h | exact ⟨h, h⟩ | exact ⟨h.1, h⟩ | exact h.1 | simp
  | .assign ts es => by
    intros
    rename_i h
    simp only [smS, smI, smB, Sm.shut, Sm.or, Bool.or_eq_false_iff, Bool.true_or, Bool.true_eq_false, false_and, and_true, and_self] at *
    all_goals first | exact h | exact ⟨h, h⟩ | exact ⟨h.1, h⟩ | exact h.1 | simp
  | .opassign o t e => by
    intros
    rename_i h
    simp only [smS, smI, smB, Sm.shut, Sm.or, Bool.or_eq_false_iff, Bool.true_or, Bool.true_eq_false, false_and, and_true, and_self] at *
    all_goals first | exact h | exact ⟨h, h⟩ | exact ⟨h.1, h⟩ | exact h.1 | simp
  | .call e => by
    intros
    rename_i h
    simp only [smS, smI, smB, Sm.shut, Sm.or, Bool.or_eq_false_iff, Bool.true_or, Bool.true_eq_false, false_and, and_true, and_self] at *
    all_goals first | exact h | exact ⟨h, h⟩ | exact ⟨h.1, h⟩ | exact h.1 | simp
  | .print es => by
    intros
    rename_i h
    simp only [smS, smI, smB, Sm.shut, Sm.or, Bool.or_eq_false_iff, Bool.true_or, Bool.true_eq_false, false_and, and_true, and_self] at *
    all_goals first | exact h | exact ⟨h, h⟩ | exact ⟨h.1, h⟩ | exact h.1 | simp
theorem sum_leI : ∀ (x : If), ∀ can p, (smI O can p x).any = false → (smI O can p x).bad = false ∧ (smI O can p x).noElse = false
  | .long e b .end_ => by
    have ih1 := sum_leB b
    intros
    rename_i h
    simp only [smS, smI, smB, Sm.shut, Sm.or, Bool.or_eq_false_iff, Bool.true_or, Bool.true_eq_false, false_and, and_true, and_self] at *
    all_goals first | exact h | exact ⟨h, h⟩ | exact ⟨h.1, h⟩ | exact h.1 | simp
  | .long e b (.else_ b') => by
    have ih1 := sum_leB b
    have ih2 := sum_leB b'
    intros
    rename_i h
    simp only [smS, smI, smB, Sm.shut, Sm.or, Bool.or_eq_false_iff, Bool.true_or, Bool.true_eq_false, false_and, and_true, and_self] at *
    all_goals first | exact h | exact ⟨h, h⟩ | exact ⟨h.1, h⟩ | exact h.1 | simp
  | .long e b (.elseif_ i) => by
    have ih1 := sum_leB b
    have ih2 := sum_leI i
    intros
    rename_i h
    simp only [smS, smI, smB, Sm.shut, Sm.or, Bool.or_eq_false_iff, Bool.true_or, Bool.true_eq_false, false_and, and_true, and_self] at *
    all_goals first | exact h | exact ⟨h, h⟩ | exact ⟨h.1, h⟩ | exact h.1 | simp
  | .short e b d => by
    have ih1 := sum_leB b
    intros
    rename_i h
    simp only [smS, smI, smB, Sm.shut, Sm.or, Bool.or_eq_false_iff, Bool.true_or, Bool.true_eq_false, false_and, and_true, and_self] at *
    all_goals first | exact h | exact ⟨h, h⟩ | exact ⟨h.1, h⟩ | exact h.1 | simp
  | .shortElse e b b' d => by
    have ih1 := sum_leB b
    have ih2 := sum_leB b'
    intros
    rename_i h
    simp only [smS, smI, smB, Sm.shut, Sm.or, Bool.or_eq_false_iff, Bool.true_or, Bool.true_eq_false, false_and, and_true, and_self] at *
    all_goals first | exact h | exact ⟨h, h⟩ | exact ⟨h.1, h⟩ | exact h.1 | simp
theorem sum_leB : ∀ (x : Block), ∀ p, (smB O p x).any = false → (smB O p x).bad = false ∧ (smB O p x).noElse = false
  | .nil => by
    intros
    rename_i h
    simp only [smS, smI, smB, Sm.shut, Sm.or, Bool.or_eq_false_iff, Bool.true_or, Bool.true_eq_false, false_and, and_true, and_self] at *
    all_goals first | exact h | exact ⟨h, h⟩ | exact ⟨h.1, h⟩ | exact h.1 | simp
  | .semi b => by
    have ih1 := sum_leB b
    intro p h
    simp only [smB] at *
    exact ih1 _ h
  | .cons s .nil => by
    have ih1 := sum_leS s
    intro p h
    simp only [smB] at *
    exact ih1 _ h
  | .cons s (.semi b) => by
    have ih1 := sum_leS s
    have ih2 := sum_leB (.semi b)
    intro p h
    rw [smB] at *
    · simp only [Sm.or, Sm.shut, Bool.or_eq_false_iff] at *
      have := ih2 p h.2
      simp [*]
    all_goals simp
  | .cons s (.cons r b) => by
    have ih1 := sum_leS s
    have ih2 := sum_leB (.cons r b)
    intro p h
    rw [smB] at *
    · simp only [Sm.or, Sm.shut, Bool.or_eq_false_iff] at *
      have := ih2 p h.2
      simp [*]
    all_goals simp
end

theorem ok_bad {n els : Bool} {s : Sm} (hs : s.any = false → s.bad = false ∧ s.noElse = false) (h : s.ok n els = true) :
    s.bad = false ∧ (els = true → s.noElse = false) := by
  cases n
  · simp only [Sm.ok, Bool.false_eq_true, if_false] at h
    exact ⟨(hs (by simpa using h)).1, fun _ => (hs (by simpa using h)).2⟩
  · simp only [Sm.ok, if_true] at h
    cases els <;> simp_all

/-- What follows from the permission to make a shorthand. -/
theorem may_none {p : Pc} {e : Ex} {b : Block} (h : mayIf O p e b none = true) :
    p.fits false = true ∧ smE O p.mid e = false ∧ (smB O p.mid b).bad = false ∧ startsDo b = false := by
  simp only [mayIf, Sh.may, Bool.and_eq_true, Bool.not_eq_true'] at h
  exact ⟨h.1.1.1.1.1, h.1.1.1.1.2, (ok_bad (sum_leB O b _) h.1.1.1.2).1, h.2⟩

theorem may_some {p : Pc} {e : Ex} {b b' : Block} (h : mayIf O p e b (some b') = true) :
    p.fits true = true ∧ smE O p.mid e = false ∧ ((smB O p.mid b).bad = false ∧ (smB O p.mid b).noElse = false) ∧ (smB O p.mid b').bad = false ∧
      startsDo b = false := by
  simp only [mayIf, Sh.may, Bool.and_eq_true, Bool.not_eq_true', Option.all_some, Option.isSome_some] at h
  have h1 := ok_bad (sum_leB O b _) h.1.1.1.2
  exact ⟨h.1.1.1.1.1, h.1.1.1.1.2, ⟨h1.1, h1.2 rfl⟩, (ok_bad (sum_leB O b' _) h.1.1.2).1, h.2⟩

theorem may_print {p : Pc} {e : Ex} {a : Bool} (h : O.mayPrint p e a = true) : isPrint e = true ∧ p.fits false = true ∧ a = false := by
  simp only [Sh.mayPrint, Bool.and_eq_true, Bool.not_eq_true'] at h
  exact ⟨h.1.1.2, h.1.2, h.2⟩

theorem semis_fill {b b' : Block} (h : semis b' = semis b) : semis (fill b b') = semis b := by
  cases b with
  | nil => rfl
  | semi b =>
    rw [fill]
    by_cases hb : semis (.semi b) = true
    · rw [semis] at hb; simp [isNil, hb, semis]
    · simp [isNil, hb, h]
  | cons s b => simp [fill, isNil, semis, h]

theorem leadB_fill {b b' : Block} (h : leadB b' = leadB b) (hb : leadB b = false) : leadB (fill b b') = false := by
  unfold fill
  split
  · rfl
  · split
    · rfl
    · rw [h, hb]

theorem doB_fill {b b' : Block} (h : doB b' = doB b) (hb : doB b = false) : doB (fill b b') = false := by
  unfold fill
  split
  · rfl
  · split
    · rfl
    · rw [h, hb]

theorem dangle_fill {sh : Bool} {b b' : Block} (h : dangleB sh b' = false) : dangleB sh (fill b b') = false := by
  unfold fill
  split
  · simp [dangleB]
  · split
    · simp [dangleB]
    · exact h

theorem fB_fill {x : Bool} {L : Lang} {sh c : Bool} {b b' : Block} (h : fB x L sh c b') : fB x L sh c (fill b b') := by
  unfold fill
  split
  · simp [fB]
  · split
    · simp [fB]
    · exact h

theorem starts_do {b : Block} (h1 : startsDo b = false) (h2 : ∀ b', b = .semi b' → doB b' = false) : doB b = false := by
  cases b with
  | nil => rfl
  | semi b => exact h2 b rfl
  | cons s b => cases s <;> simp_all [startsDo, doB]

/-! ### Shorthands that take an `else` -/

mutual
theorem dangle_fS : ∀ (x : St), ∀ p sh, dangleS false (kS O p x) = true → dangleS sh x = true
  | .do_ b => by
    have ih1 := dangle_fB b
    intro p sh h
    simp_all [-Bool.forall_bool, kS, kI, kB, dangleS, dangleI, dangleB]
  | .if_ i => by
    have ih1 := dangle_fI i
    intro p sh h
    simp only [kS, dangleS] at *
    exact ih1 _ _ _ h
  | .while_ e b => by
    have ih1 := dangle_fB b
    intro p sh h
    simp only [kS] at h
    split_ifs at h <;> simp [dangleS] at h
  | .whileShort e b d => by
    have ih1 := dangle_fB b
    intro p sh h
    simp only [kS] at h
    split_ifs at h
    · simp [dangleS] at h
    · simp only [dangleS, Bool.false_or, Bool.and_eq_true, Bool.or_eq_true] at *
      exact ⟨.inr h.1, ih1 _ _ h.2⟩
  | .repeat_ b e => by
    have ih1 := dangle_fB b
    intro p sh h
    simp_all [-Bool.forall_bool, kS, kI, kB, dangleS, dangleI, dangleB]
  | .fornum x a b s d => by
    have ih1 := dangle_fB d
    intro p sh h
    simp_all [-Bool.forall_bool, kS, kI, kB, dangleS, dangleI, dangleB]
  | .forin xs es d => by
    have ih1 := dangle_fB d
    intro p sh h
    simp_all [-Bool.forall_bool, kS, kI, kB, dangleS, dangleI, dangleB]
  | .break_ => by
    intro p sh h
    simp_all [-Bool.forall_bool, kS, kI, kB, dangleS, dangleI, dangleB]
  | .return_ es => by
    intro p sh h
    simp_all [-Bool.forall_bool, kS, kI, kB, dangleS, dangleI, dangleB]
  | .local_ xs es => by
    intro p sh h
    simp_all [-Bool.forall_bool, kS, kI, kB, dangleS, dangleI, dangleB]
  | .localfn x ps b => by
    have ih1 := dangle_fB b
    intro p sh h
    simp_all [-Bool.forall_bool, kS, kI, kB, dangleS, dangleI, dangleB]
  | .goto_ x => by
    intro p sh h
    simp_all [-Bool.forall_bool, kS, kI, kB, dangleS, dangleI, dangleB]
  | .label x => by
    intro p sh h
    simp_all [-Bool.forall_bool, kS, kI, kB, dangleS, dangleI, dangleB]
  | .func f ps b => by
    have ih1 := dangle_fB b
    intro p sh h
    simp_all [-Bool.forall_bool, kS, kI, kB, dangleS, dangleI, dangleB]
  | .assign ts es => by
    intro p sh h
    simp_all [-Bool.forall_bool, kS, kI, kB, dangleS, dangleI, dangleB]
  | .opassign o t e => by
    intro p sh h
    simp_all [-Bool.forall_bool, kS, kI, kB, dangleS, dangleI, dangleB]
  | .call e => by
    intro p sh h
    simp only [kS] at h
    split_ifs at h <;> simp [dangleS] at h
  | .print es => by
    intro p sh h
    simp_all [-Bool.forall_bool, kS, kI, kB, dangleS, dangleI, dangleB]
theorem dangle_fI : ∀ (x : If), ∀ can p sh, dangleI false (kI O can p x) = true → dangleI sh x = true
  | .long e b .end_ => by
    have ih1 := dangle_fB b
    intro can p sh h
    simp only [kI] at h
    try split_ifs at h
    all_goals simp [dangleI] at h
  | .long e b (.else_ b') => by
    have ih1 := dangle_fB b
    have ih2 := dangle_fB b'
    intro can p sh h
    simp only [kI] at h
    try split_ifs at h
    all_goals simp [dangleI] at h
  | .long e b (.elseif_ i) => by
    have ih1 := dangle_fB b
    have ih2 := dangle_fI i
    intro can p sh h
    simp only [kI] at h
    try split_ifs at h
    all_goals simp [dangleI] at h
  | .short e b d => by
    have ih1 := dangle_fB b
    intro can p sh h
    simp only [kI] at h
    split_ifs at h
    · simp [dangleI] at h
    · simp_all [dangleI]
  | .shortElse e b b' d => by
    have ih1 := dangle_fB b
    have ih2 := dangle_fB b'
    intro can p sh h
    simp only [kI] at h
    split_ifs at h
    · simp [dangleI] at h
    · simp only [dangleI, Bool.false_or, Bool.and_eq_true, Bool.or_eq_true] at *
      exact ⟨.inr h.1, ih2 _ _ h.2⟩
theorem dangle_fB : ∀ (x : Block), ∀ p sh, dangleB false (kB O p x) = true → dangleB sh x = true
  | .nil => by
    intro p sh h
    simp [kB, dangleB] at h
  | .semi b => by
    have ih1 := dangle_fB b
    intro p sh h
    simp only [kB, dangleB] at *
    exact ih1 _ _ h
  | .cons s .nil => by
    have ih1 := dangle_fS s
    intro p sh h
    simp only [kB, dangleB, semis, if_true] at *
    exact ih1 _ _ h
  | .cons s (.semi b) => by
    have ih1 := dangle_fS s
    have ih2 := dangle_fB (.semi b)
    intro p sh h
    have hs := semis_k O p (.semi b)
    rw [show kB O p (.cons s (.semi b)) = .cons (kS O p.mid s) (kB O p (.semi b)) from rfl, dangleB, hs] at h
    rw [dangleB]
    by_cases hb : semis (.semi b) = true
    · rw [if_pos hb] at *
      exact ih1 _ _ h
    · rw [if_neg hb] at *
      exact ih2 _ _ h
  | .cons s (.cons r b) => by
    have ih1 := dangle_fS s
    have ih2 := dangle_fB (.cons r b)
    intro p sh h
    have hs := semis_k O p (.cons r b)
    rw [show kB O p (.cons s (.cons r b)) = .cons (kS O p.mid s) (kB O p (.cons r b)) from rfl, dangleB, hs] at h
    rw [dangleB]
    by_cases hb : semis (.cons r b) = true
    · rw [if_pos hb] at *
      exact ih1 _ _ h
    · rw [if_neg hb] at *
      exact ih2 _ _ h
end

mutual
theorem dangle_badS : ∀ (x : St), dangleS true (kS O .bad x) = true → dangleS true x = true
  | .do_ b => by
    have ih1 := dangle_badB b
    intro h
    simp_all [-Bool.forall_bool, kS, kI, kB, dangleS, dangleI, dangleB]
  | .if_ i => by
    have ih1 := dangle_badI i
    intro h
    simp only [kS, dangleS] at *
    exact ih1 _ h
  | .while_ e b => by
    have ih1 := dangle_badB b
    intro h
    simp [kS, mayIf_bad, dangleS] at h
  | .whileShort e b d => by
    have ih1 := dangle_badB b
    intro h
    simp only [kS] at h
    split_ifs at h
    · simp [dangleS] at h
    · simp only [dangleS, Bool.true_or, Bool.true_and, Pc.body_bad] at *
      exact ih1 h
  | .repeat_ b e => by
    have ih1 := dangle_badB b
    intro h
    simp_all [-Bool.forall_bool, kS, kI, kB, dangleS, dangleI, dangleB]
  | .fornum x a b s d => by
    have ih1 := dangle_badB d
    intro h
    simp_all [-Bool.forall_bool, kS, kI, kB, dangleS, dangleI, dangleB]
  | .forin xs es d => by
    have ih1 := dangle_badB d
    intro h
    simp_all [-Bool.forall_bool, kS, kI, kB, dangleS, dangleI, dangleB]
  | .break_ => by
    intro h
    simp_all [-Bool.forall_bool, kS, kI, kB, dangleS, dangleI, dangleB]
  | .return_ es => by
    intro h
    simp_all [-Bool.forall_bool, kS, kI, kB, dangleS, dangleI, dangleB]
  | .local_ xs es => by
    intro h
    simp_all [-Bool.forall_bool, kS, kI, kB, dangleS, dangleI, dangleB]
  | .localfn x ps b => by
    have ih1 := dangle_badB b
    intro h
    simp_all [-Bool.forall_bool, kS, kI, kB, dangleS, dangleI, dangleB]
  | .goto_ x => by
    intro h
    simp_all [-Bool.forall_bool, kS, kI, kB, dangleS, dangleI, dangleB]
  | .label x => by
    intro h
    simp_all [-Bool.forall_bool, kS, kI, kB, dangleS, dangleI, dangleB]
  | .func f ps b => by
    have ih1 := dangle_badB b
    intro h
    simp_all [-Bool.forall_bool, kS, kI, kB, dangleS, dangleI, dangleB]
  | .assign ts es => by
    intro h
    simp_all [-Bool.forall_bool, kS, kI, kB, dangleS, dangleI, dangleB]
  | .opassign o t e => by
    intro h
    simp_all [-Bool.forall_bool, kS, kI, kB, dangleS, dangleI, dangleB]
  | .call e => by
    intro h
    simp [kS, mayPrint_bad, dangleS] at h
  | .print es => by
    intro h
    simp_all [-Bool.forall_bool, kS, kI, kB, dangleS, dangleI, dangleB]
theorem dangle_badI : ∀ (x : If), ∀ can, dangleI true (kI O can .bad x) = true → dangleI true x = true
  | .long e b .end_ => by
    have ih1 := dangle_badB b
    intro can h
    simp [kI, mayIf_bad, dangleI] at h
  | .long e b (.else_ b') => by
    have ih1 := dangle_badB b
    have ih2 := dangle_badB b'
    intro can h
    simp [kI, mayIf_bad, dangleI] at h
  | .long e b (.elseif_ i) => by
    have ih1 := dangle_badB b
    have ih2 := dangle_badI i
    intro can h
    simp [kI, mayIf_bad, dangleI] at h
  | .short e b d => by
    have ih1 := dangle_badB b
    intro can h
    simp [dangleI]
  | .shortElse e b b' d => by
    have ih1 := dangle_badB b
    have ih2 := dangle_badB b'
    intro can h
    simp only [kI] at h
    split_ifs at h
    · simp [dangleI] at h
    · simp only [dangleI, Bool.true_or, Bool.true_and, Pc.body_bad] at *
      exact ih2 h
theorem dangle_badB : ∀ (x : Block), dangleB true (kB O .bad x) = true → dangleB true x = true
  | .nil => by
    intro h
    simp [kB, dangleB] at h
  | .semi b => by
    have ih1 := dangle_badB b
    intro h
    simp only [kB, dangleB] at *
    exact ih1 h
  | .cons s .nil => by
    have ih1 := dangle_badS s
    intro h
    simp only [kB, dangleB, semis, if_true] at *
    exact ih1 h
  | .cons s (.semi b) => by
    have ih1 := dangle_badS s
    have ih2 := dangle_badB (.semi b)
    intro h
    have hs := semis_k O .bad (.semi b)
    rw [show kB O .bad (.cons s (.semi b)) = .cons (kS O .bad s) (kB O .bad (.semi b)) from rfl, dangleB, hs] at h
    rw [dangleB]
    by_cases hb : semis (.semi b) = true
    · rw [if_pos hb] at *
      exact ih1 h
    · rw [if_neg hb] at *
      exact ih2 h
  | .cons s (.cons r b) => by
    have ih1 := dangle_badS s
    have ih2 := dangle_badB (.cons r b)
    intro h
    have hs := semis_k O .bad (.cons r b)
    rw [show kB O .bad (.cons s (.cons r b)) = .cons (kS O .bad s) (kB O .bad (.cons r b)) from rfl, dangleB, hs] at h
    rw [dangleB]
    by_cases hb : semis (.cons r b) = true
    · rw [if_pos hb] at *
      exact ih1 h
    · rw [if_neg hb] at *
      exact ih2 h
end

mutual
theorem dangle_kS : ∀ (x : St), ∀ p, (smS O p x).bad = false → (smS O p x).noElse = false → dangleS true (kS O p x) = false
  | .do_ b => by
    have ih1 := dangle_kB b
    intros
    simp [kS, kI, kB, dangleS, dangleI, dangleB]
  | .if_ i => by
    have ih1 := dangle_kI i
    intro p h1 h2
    simp only [kS, dangleS, smS] at *
    exact ih1 _ _ h1 h2
  | .while_ e b => by
    have ih1 := dangle_kB b
    intro p h1 h2
    simp only [smS, Sm.or, Sm.shut, Bool.or_eq_false_iff] at h1 h2
    have hm : (O.makeWhile && mayIf O p e b none) = false := by simp [mayIf, h2.2]
    simp [kS, hm, dangleS]
  | .whileShort e b d => by
    have ih1 := dangle_kB b
    intro p h1 h2
    simp [smS, Sm.or] at h2
  | .repeat_ b e => by
    have ih1 := dangle_kB b
    intros
    simp [kS, kI, kB, dangleS, dangleI, dangleB]
  | .fornum x a b s d => by
    have ih1 := dangle_kB d
    intros
    simp [kS, kI, kB, dangleS, dangleI, dangleB]
  | .forin xs es d => by
    have ih1 := dangle_kB d
    intros
    simp [kS, kI, kB, dangleS, dangleI, dangleB]
  | .break_ => by
    intros
    simp [kS, kI, kB, dangleS, dangleI, dangleB]
  | .return_ es => by
    intros
    simp [kS, kI, kB, dangleS, dangleI, dangleB]
  | .local_ xs es => by
    intros
    simp [kS, kI, kB, dangleS, dangleI, dangleB]
  | .localfn x ps b => by
    have ih1 := dangle_kB b
    intros
    simp [kS, kI, kB, dangleS, dangleI, dangleB]
  | .goto_ x => by
    intros
    simp [kS, kI, kB, dangleS, dangleI, dangleB]
  | .label x => by
    intros
    simp [kS, kI, kB, dangleS, dangleI, dangleB]
  | .func f ps b => by
    have ih1 := dangle_kB b
    intros
    simp [kS, kI, kB, dangleS, dangleI, dangleB]
  | .assign ts es => by
    intros
    simp [kS, kI, kB, dangleS, dangleI, dangleB]
  | .opassign o t e => by
    intros
    simp [kS, kI, kB, dangleS, dangleI, dangleB]
  | .call e => by
    intro p h1 h2
    simp only [kS]
    split_ifs <;> simp [dangleS]
  | .print es => by
    intros
    simp [kS, kI, kB, dangleS, dangleI, dangleB]
theorem dangle_kI : ∀ (x : If), ∀ can p, (smI O can p x).bad = false → (smI O can p x).noElse = false → dangleI true (kI O can p x) = false
  | .long e b .end_ => by
    have ih1 := dangle_kB b
    intro can p h1 h2
    simp only [smI, Sm.or, Sm.shut, Bool.or_eq_false_iff] at h1 h2
    have hm : (can && O.makeIf && mayIf O p e b none) = false := by
      have := h2.2
      cases can <;> simp_all [mayIf]
    simp [kI, hm, dangleI]
  | .long e b (.else_ b') => by
    have ih1 := dangle_kB b
    have ih2 := dangle_kB b'
    intro can p h1 h2
    simp only [smI, Sm.or, Sm.shut, Bool.or_eq_false_iff] at h1 h2
    simp only [kI]
    split_ifs
    · have := sum_leB O b' p.mid h1.1.2.2
      simp only [dangleI, Bool.true_or, Bool.true_and]
      exact dangle_fill (ih2 _ this.1 this.2)
    · simp [dangleI]
  | .long e b (.elseif_ i) => by
    have ih1 := dangle_kB b
    have ih2 := dangle_kI i
    intros
    simp [kS, kI, kB, dangleS, dangleI, dangleB]
  | .short e b d => by
    have ih1 := dangle_kB b
    intro can p h1 h2
    simp [smI, Sm.or] at h2
  | .shortElse e b b' d => by
    have ih1 := dangle_kB b
    have ih2 := dangle_kB b'
    intro can p h1 h2
    simp [smI, Sm.or] at h2
theorem dangle_kB : ∀ (x : Block), ∀ p, (smB O p x).bad = false → (smB O p x).noElse = false → dangleB true (kB O p x) = false
  | .nil => by
    intros
    simp [kS, kI, kB, dangleS, dangleI, dangleB]
  | .semi b => by
    have ih1 := dangle_kB b
    intro p h1 h2
    simp only [kB, dangleB, smB] at *
    exact ih1 _ h1 h2
  | .cons s .nil => by
    have ih1 := dangle_kS s
    intro p h1 h2
    simp only [kB, dangleB, smB, semis, if_true] at *
    exact ih1 _ h1 h2
  | .cons s (.semi b) => by
    have ih1 := dangle_kS s
    have ih2 := dangle_kB (.semi b)
    intro p h1 h2
    have hs := semis_k O p (.semi b)
    rw [smB] at h1 h2
    · simp only [Sm.or, Sm.shut, Bool.or_eq_false_iff] at h1 h2
      rw [show kB O p (.cons s (.semi b)) = .cons (kS O p.mid s) (kB O p (.semi b)) from rfl, dangleB, hs]
      have := sum_leS O s _ h1.1
      split
      · exact ih1 _ this.1 this.2
      · exact ih2 _ h1.2 h2.2
    all_goals simp
  | .cons s (.cons r b) => by
    have ih1 := dangle_kS s
    have ih2 := dangle_kB (.cons r b)
    intro p h1 h2
    have hs := semis_k O p (.cons r b)
    rw [smB] at h1 h2
    · simp only [Sm.or, Sm.shut, Bool.or_eq_false_iff] at h1 h2
      rw [show kB O p (.cons s (.cons r b)) = .cons (kS O p.mid s) (kB O p (.cons r b)) from rfl, dangleB, hs]
      have := sum_leS O s _ h1.1
      split
      · exact ih1 _ this.1 this.2
      · exact ih2 _ h1.2 h2.2
    all_goals simp
end

/-! ### What parentheses go on with -/

mutual
theorem open_kS : ∀ (x : St), ∀ p, newS O p x = false → openS (kS O p x) = true → openS x = true
  | .do_ b => by
    have ih1 := open_kB b
    intro p hn h
    simpa [kS, openS, openEs_k, openEnd_k] using h
  | .if_ i => by
    have ih1 := open_kI i
    intro p hn h
    simp only [kS, openS, newS] at *
    exact ih1 _ _ hn h
  | .while_ e b => by
    have ih1 := open_kB b
    intro p hn h
    rw [newS] at hn
    simp [kS, hn, openS] at h
  | .whileShort e b d => by
    have ih1 := open_kB b
    intro p hn h
    simp only [newS, Bool.and_eq_false_iff, Bool.not_eq_false'] at hn
    simp only [kS] at h
    split_ifs at h with hu
    · simp [openS] at h
    · rw [openS] at *
      exact ih1 _ _ (hn.resolve_left hu) h
  | .repeat_ b e => by
    have ih1 := open_kB b
    intro p hn h
    simpa [kS, openS, openEs_k, openEnd_k] using h
  | .fornum x a b s d => by
    have ih1 := open_kB d
    intro p hn h
    simpa [kS, openS, openEs_k, openEnd_k] using h
  | .forin xs es d => by
    have ih1 := open_kB d
    intro p hn h
    simpa [kS, openS, openEs_k, openEnd_k] using h
  | .break_ => by
    intro p hn h
    simpa [kS, openS, openEs_k, openEnd_k] using h
  | .return_ es => by
    intro p hn h
    simpa [kS, openS, openEs_k, openEnd_k] using h
  | .local_ xs es => by
    intro p hn h
    simpa [kS, openS, openEs_k, openEnd_k] using h
  | .localfn x ps b => by
    have ih1 := open_kB b
    intro p hn h
    simpa [kS, openS, openEs_k, openEnd_k] using h
  | .goto_ x => by
    intro p hn h
    simpa [kS, openS, openEs_k, openEnd_k] using h
  | .label x => by
    intro p hn h
    simpa [kS, openS, openEs_k, openEnd_k] using h
  | .func f ps b => by
    have ih1 := open_kB b
    intro p hn h
    simpa [kS, openS, openEs_k, openEnd_k] using h
  | .assign ts es => by
    intro p hn h
    simpa [kS, openS, openEs_k, openEnd_k] using h
  | .opassign o t e => by
    intro p hn h
    simpa [kS, openS, openEs_k, openEnd_k] using h
  | .call e => by
    intro p hn h
    simp [openS]
  | .print es => by
    intro p hn h
    simpa [kS, openS, openEs_k, openEnd_k] using h
theorem open_kI : ∀ (x : If), ∀ can p, newI O can p x = false → openI (kI O can p x) = true → openI x = true
  | .long e b .end_ => by
    have ih1 := open_kB b
    intro can p hn h
    rw [newI] at hn
    simp [kI, hn, openI] at h
  | .long e b (.else_ b') => by
    have ih1 := open_kB b
    have ih2 := open_kB b'
    intro can p hn h
    rw [newI] at hn
    simp [kI, hn, openI] at h
  | .long e b (.elseif_ i) => by
    have ih1 := open_kB b
    have ih2 := open_kI i
    intro can p hn h
    simp [kI, openI] at h
  | .short e b d => by
    have ih1 := open_kB b
    intro can p hn h
    simp only [newI, Bool.and_eq_false_iff, Bool.not_eq_false'] at hn
    simp only [kI] at h
    split_ifs at h with hu
    · simp [openI] at h
    · rw [openI] at *
      exact ih1 _ _ (hn.resolve_left hu) h
  | .shortElse e b b' d => by
    have ih1 := open_kB b
    have ih2 := open_kB b'
    intro can p hn h
    simp only [newI, Bool.and_eq_false_iff, Bool.not_eq_false'] at hn
    simp only [kI] at h
    split_ifs at h with hu
    · simp [openI] at h
    · rw [openI] at *
      exact ih2 _ _ (hn.resolve_left hu) h
theorem open_kB : ∀ (x : Block), ∀ p d, newB O p x = false → openB d (kB O p x) = true → openB d x = true
  | .nil => by
    intro p d hn h
    rw [kB] at h; exact h
  | .semi b => by
    have ih1 := open_kB b
    intro p d hn h
    rw [kB, openB] at h; rw [newB] at hn; rw [openB]; exact ih1 _ _ hn h
  | .cons s .nil => by
    have ih1 := open_kS s
    intro p d hn h
    rw [newB] at hn
    simp only [kB, openB] at *
    exact ih1 _ hn h
  | .cons s (.semi b) => by
    have ih1 := open_kS s
    have ih2 := open_kB (.semi b)
    intro p d hn h
    have ih := ih2 p false
    rw [newB] at hn
    · rw [show kB O p (.cons s (.semi b)) = .cons (kS O p.mid s) (.semi (kB O p b)) from rfl, openB, openB] at h
      rw [openB, openB]
      simp only [kB, openB] at ih
      exact ih hn h
    · simp
  | .cons s (.cons r b) => by
    have ih1 := open_kS s
    have ih2 := open_kB (.cons r b)
    intro p d hn h
    have ih := ih2 p d
    rw [newB] at hn
    · rw [show kB O p (.cons s (.cons r b)) = .cons (kS O p.mid s) (kB O p (.cons r b)) from rfl, openB] at h
      rw [openB]
      have e : ∀ d d', openB d (kB O p (.cons r b)) = openB d' (kB O p (.cons r b)) := by
        intro d d'
        cases b <;> simp [kB, openB]
      have e' : ∀ d d', openB d (.cons r b) = openB d' (.cons r b) := by intro d d'; simp [openB]
      rw [e' _ d]
      rw [e _ d] at h
      exact ih hn h
    · simp
end

/-! ### The whole -/

/-- What allows something to end up in a shorthand: it was in one already, or the analysis has found no shorthand that goes on. -/
def Up (p : Pc) (sh sh' bad : Bool) : Prop := sh' = true → (sh = true ∧ p ≠ .free) ∨ bad = false

/-- What follows on the line. -/
def Follow (sh c sh' c' : Bool) : Prop := sh' = false → sh = true ∨ c = true → c' = true

variable {O} {L : Lang}

theorem Up.mono {p q : Pc} {sh sh' s s' b b' : Bool} (h : Up p sh sh' b) (hs : sh = true → p ≠ .free → s = true ∧ q ≠ .free) (hs' : s' = true → sh' = true)
    (hb : b = false → b' = false) : Up q s s' b' := fun e => (h (hs' e)).imp (fun h => hs h.1 h.2) hb

theorem Pc.mid_ne_free {p : Pc} (h : p ≠ .free) : p.mid ≠ .free := by rw [Pc.mid_ne h]; simp

theorem Up.mid {p : Pc} {sh sh' b b' : Bool} (h : Up p sh sh' b) (hb : b = false → b' = false) : Up p.mid sh sh' b' :=
  h.mono (fun h1 h2 => ⟨h1, Pc.mid_ne_free h2⟩) id hb

theorem Up.of {p : Pc} {sh sh' : Bool} : Up p sh sh' false := fun _ => .inr rfl

theorem follow_t {sh c sh' : Bool} : Follow sh c sh' true := fun _ _ => rfl

/-- The parts of a sum of which nothing is bad. -/
theorem shut_or {a : Bool} {s : Sm} (h : ((Sm.shut a).or s).bad = false) : a = false ∧ s.bad = false := by
  simpa [Sm.or, Sm.shut] using h


theorem short_bad {a : Bool} {s : Sm} (h : ((Sm.mk true false true).or ((Sm.shut a).or s)).bad = false) : a = false ∧ s.bad = false := by
  simpa [Sm.or, Sm.shut] using h

theorem short_bad2 {a a' : Bool} {s : Sm} (h : ((Sm.mk true false true).or ((Sm.shut a).or ((Sm.shut a').or s))).bad = false) :
    a = false ∧ a' = false ∧ s.bad = false := by
  simpa [Sm.or, Sm.shut] using h

/-- Parts of a shorthand that was there already. -/
theorem up_short {p q : Pc} {sh sh' s b b' : Bool} {d : Nested} (hq : q ≠ .free) (hs : s = sh' ∨ s = (sh' || !d)) (hu : Up p sh sh' b)
    (hb : b = false → b' = false) : Up q (sh || !d) s b' := by
  intro e
  cases d
  · exact .inl ⟨by simp, hq⟩
  · simp only [Bool.not_true, Bool.or_false, or_self] at *
    exact (hu (hs ▸ e)).imp (fun h => ⟨h.1, hq⟩) hb

theorem okFlag_k {sh sh' c c' : Bool} {d : Nested} (hc : Follow sh c sh' c') (h : okFlag false sh c d) : okFlag false sh' c' d := by
  refine ⟨nofun, fun h1 h2 => hc h1 ?_⟩
  cases sh
  · exact .inr (h.2 rfl h2)
  · exact .inl rfl

theorem follow_d (sh sh' : Bool) (d : Nested) : Follow (sh || !d) d (sh' || !d) d := by
  intro h _
  cases d
  · simp at h
  · rfl

/-- The first block of a long `if` with `else` ends with no shorthand that takes the `else`. -/
theorem dangle_long {p : Pc} {sh sh' : Bool} {b : Block} (hu : Up p sh sh' (smB O p.mid b).any) (h : dangleB sh b = false) : dangleB sh' (kB O p.mid b) = false := by
  cases sh'
  · cases hd : dangleB false (kB O p.mid b)
    · rfl
    · rw [dangle_fB O b _ sh hd] at h; cases h
  · rcases hu rfl with ⟨rfl, hp⟩ | hu
    · rw [Pc.mid_ne hp]
      cases hd : dangleB true (kB O .bad b)
      · rfl
      · rw [dangle_badB O b hd] at h; cases h
    · have := sum_leB O b _ hu
      exact dangle_kB O b _ this.1 this.2


/-- A shorthand is the last statement of its block. -/
theorem flag_k {p : Pc} {sh sh' : Bool} {s : St} {d : Nested} (hu : Up p sh sh' (smS O p.mid s).any) (hd : flag (kS O p.mid s) = some d) (hs : sh' = true ∨ d = true)
    (hf : ∀ d, flag s = some d → ¬ (sh = true ∨ d = true)) : False := by
  -- the state of a shorthand that has been there before
  have old : ∀ d, flag s = some d → (sh' = true ∨ d = true) → (smS O p.mid s).any = true → False := by
    intro d h1 h2 h3
    have hn := hf d h1
    rcases h2 with h2 | h2
    · rcases hu h2 with h | h
      · exact hn (.inl h.1)
      · rw [h3] at h; cases h
    · exact hn (.inr h2)
  -- a new one
  have new : ∀ els, p.mid.fits els = true → (smS O p.mid s).any = true → sh' = true → False := by
    intro els h1 h2 h3
    rcases hu h3 with h | h
    · rw [Pc.mid_ne h.2] at h1; simp [Pc.fits] at h1
    · rw [h2] at h; cases h
  cases s
  all_goals first
    | (simp only [kS, flag] at hd; cases hd; done)
    | skip
  case if_ i =>
    rw [kS, flag] at hd
    cases i with
    | long e b t =>
      cases t with
      | end_ =>
        simp only [kI] at hd
        split_ifs at hd with hm
        · simp only [flagI, Option.some.injEq] at hd
          subst hd
          have hm := (Bool.and_eq_true _ _).mp hm
          have hc := ((Bool.and_eq_true _ _).mp hm.1).1
          refine new false (may_none _ hm.2).1 ?_ (hs.resolve_right nofun)
          have := hm.2
          rw [mayIf] at this
          simp only [Pc.mid_mid] at this
          simp [smS, smI, Sm.or, this]
        · simp [flagI] at hd
      | else_ b' =>
        simp only [kI] at hd
        split_ifs at hd with hm
        · simp only [flagI, Option.some.injEq] at hd
          subst hd
          have hm := (Bool.and_eq_true _ _).mp hm
          refine new true (may_some _ hm.2).1 ?_ (hs.resolve_right nofun)
          have := hm.2
          rw [mayIf] at this
          simp only [Pc.mid_mid] at this
          simp [smS, smI, Sm.or, this]
        · simp [flagI] at hd
      | elseif_ i => simp [kI, flagI] at hd
    | short e b d' =>
      simp only [kI] at hd
      split_ifs at hd
      · simp [flagI] at hd
      · exact old d hd hs (by simp [smS, smI, Sm.or])
    | shortElse e b b' d' =>
      simp only [kI] at hd
      split_ifs at hd
      · simp [flagI] at hd
      · exact old d hd hs (by simp [smS, smI, Sm.or])
  case while_ e b =>
    rw [kS] at hd
    split_ifs at hd with hm
    · simp only [flag, Option.some.injEq] at hd
      subst hd
      have hm := (Bool.and_eq_true _ _).mp hm
      refine new false (may_none _ hm.2).1 ?_ (hs.resolve_right nofun)
      have := hm.2
      rw [mayIf] at this
      simp only [Pc.mid_mid] at this
      simp [smS, Sm.or, this]
    · simp [flag] at hd
  case whileShort e b d' =>
    rw [kS] at hd
    split_ifs at hd
    · simp [flag] at hd
    · exact old d hd hs (by simp [smS, Sm.or])
  case call e => rw [kS] at hd; split_ifs at hd <;> simp [flag] at hd

mutual
theorem fine_kE : ∀ (x : Ex), ∀ p sh sh', Up p sh sh' (smE O p x) → aptE O L p sh' x → fE false L sh x → fE false L sh' (kE O p x)
  | .var x => by
    intros
    simp only [kE, kEs, kIts, fE, fEs, fIts]
  | .num x => by
    intros
    simp only [kE, kEs, kIts, fE, fEs, fIts]
  | .str x => by
    intros
    simp only [kE, kEs, kIts, fE, fEs, fIts]
  | .cst x => by
    intros
    simp only [kE, kEs, kIts, fE, fEs, fIts]
  | .vararg => by
    intros
    simp only [kE, kEs, kIts, fE, fEs, fIts]
  | .func ps b => by
    have ih1 := fine_kB b
    intro p sh sh' hu ha hf
    simp only [kE, fE, smE, aptE, lvl_k, isPre_k, bareArg_k] at *
    
    exact ih1 _ _ _ _ _ (hu.mid fun h => (sum_leB _ b _ h).1) follow_t ha hf
  | .group e => by
    have ih1 := fine_kE e
    intro p sh sh' hu ha hf
    simp only [kE, fE, smE, aptE, lvl_k, isPre_k, bareArg_k] at *
    exact ih1 _ _ _ hu ha hf
  | .un o e => by
    have ih1 := fine_kE e
    intro p sh sh' hu ha hf
    simp only [kE, fE, smE, aptE, lvl_k, isPre_k, bareArg_k] at *
    exact ⟨hf.1, hf.2.1, ih1 _ _ _ hu ha hf.2.2⟩
  | .bin o l r => by
    have ih1 := fine_kE l
    have ih2 := fine_kE r
    intro p sh sh' hu ha hf
    simp only [kE, fE, smE, aptE, lvl_k, isPre_k, bareArg_k] at *
    have hu1 := hu.mono (fun a b => ⟨a, b⟩) id fun h => (Bool.or_eq_false_iff.1 h).1
    have hu2 := hu.mono (fun a b => ⟨a, b⟩) id fun h => (Bool.or_eq_false_iff.1 h).2
    exact ⟨hf.1, hf.2.1, hf.2.2.1, ih1 _ _ _ hu1 ha.1 hf.2.2.2.1, ih2 _ _ _ hu2 ha.2 hf.2.2.2.2⟩
  | .member b x => by
    have ih1 := fine_kE b
    intro p sh sh' hu ha hf
    simp only [kE, fE, smE, aptE, lvl_k, isPre_k, bareArg_k] at *
    exact ⟨hf.1, ih1 _ _ _ hu ha hf.2⟩
  | .index b k => by
    have ih1 := fine_kE b
    have ih2 := fine_kE k
    intro p sh sh' hu ha hf
    simp only [kE, fE, smE, aptE, lvl_k, isPre_k, bareArg_k] at *
    have hu1 := hu.mono (fun a b => ⟨a, b⟩) id fun h => (Bool.or_eq_false_iff.1 h).1
    have hu2 := hu.mono (fun a b => ⟨a, b⟩) id fun h => (Bool.or_eq_false_iff.1 h).2
    exact ⟨hf.1, ih1 _ _ _ hu1 ha.1 hf.2.1, ih2 _ _ _ hu2 ha.2 hf.2.2⟩
  | .call b t as => by
    have ih1 := fine_kE b
    have ih2 := fine_kEs as
    intro p sh sh' hu ha hf
    simp only [kE, fE, smE, aptE, lvl_k, isPre_k, bareArg_k] at *
    have hu1 := hu.mono (fun a b => ⟨a, b⟩) id fun h => (Bool.or_eq_false_iff.1 h).1
    have hu2 := hu.mono (fun a b => ⟨a, b⟩) id fun h => (Bool.or_eq_false_iff.1 h).2
    exact ⟨hf.1, ih1 _ _ _ hu1 ha.1 hf.2.1, ih2 _ _ _ hu2 ha.2 hf.2.2.1, hf.2.2.2⟩
  | .method b x t as => by
    have ih1 := fine_kE b
    have ih2 := fine_kEs as
    intro p sh sh' hu ha hf
    simp only [kE, fE, smE, aptE, lvl_k, isPre_k, bareArg_k] at *
    have hu1 := hu.mono (fun a b => ⟨a, b⟩) id fun h => (Bool.or_eq_false_iff.1 h).1
    have hu2 := hu.mono (fun a b => ⟨a, b⟩) id fun h => (Bool.or_eq_false_iff.1 h).2
    exact ⟨hf.1, ih1 _ _ _ hu1 ha.1 hf.2.1, ih2 _ _ _ hu2 ha.2 hf.2.2.1, hf.2.2.2⟩
  | .table its => by
    have ih1 := fine_kIts its
    intro p sh sh' hu ha hf
    simp only [kE, fE, smE, aptE, lvl_k, isPre_k, bareArg_k] at *
    exact ih1 _ _ _ hu ha hf
theorem fine_kEs : ∀ (x : Exs), ∀ p sh sh', Up p sh sh' (smEs O p x) → aptEs O L p sh' x → fEs false L sh x → fEs false L sh' (kEs O p x)
  | .nil => by
    intros
    simp only [kE, kEs, kIts, fE, fEs, fIts]
  | .cons e es => by
    have ih1 := fine_kE e
    have ih2 := fine_kEs es
    intro p sh sh' hu ha hf
    simp only [kEs, fEs, smEs, aptEs, kE, fE, lvl_k, isPre_k, bareArg_k] at *
    have hu1 := hu.mono (fun a b => ⟨a, b⟩) id fun h => (Bool.or_eq_false_iff.1 h).1
    have hu2 := hu.mono (fun a b => ⟨a, b⟩) id fun h => (Bool.or_eq_false_iff.1 h).2
    exact ⟨ih1 _ _ _ hu1 ha.1 hf.1, ih2 _ _ _ hu2 ha.2 hf.2⟩
theorem fine_kIts : ∀ (x : Its), ∀ p sh sh', Up p sh sh' (smIts O p x) → aptIts O L p sh' x → fIts false L sh x → fIts false L sh' (kIts O p x)
  | .nil => by
    intros
    simp only [kE, kEs, kIts, fE, fEs, fIts]
  | .pos e its => by
    have ih1 := fine_kE e
    have ih2 := fine_kIts its
    intro p sh sh' hu ha hf
    simp only [kIts, fIts, smIts, aptIts, lvl_k, isPre_k, bareArg_k] at *
    have hu1 := hu.mono (fun a b => ⟨a, b⟩) id fun h => (Bool.or_eq_false_iff.1 h).1
    have hu2 := hu.mono (fun a b => ⟨a, b⟩) id fun h => (Bool.or_eq_false_iff.1 h).2
    exact ⟨ih1 _ _ _ hu1 ha.1 hf.1, ih2 _ _ _ hu2 ha.2 hf.2⟩
  | .named x e its => by
    have ih1 := fine_kE e
    have ih2 := fine_kIts its
    intro p sh sh' hu ha hf
    simp only [kIts, fIts, smIts, aptIts, lvl_k, isPre_k, bareArg_k] at *
    have hu1 := hu.mono (fun a b => ⟨a, b⟩) id fun h => (Bool.or_eq_false_iff.1 h).1
    have hu2 := hu.mono (fun a b => ⟨a, b⟩) id fun h => (Bool.or_eq_false_iff.1 h).2
    exact ⟨ih1 _ _ _ hu1 ha.1 hf.1, ih2 _ _ _ hu2 ha.2 hf.2⟩
  | .keyed k e its => by
    have ih1 := fine_kE k
    have ih2 := fine_kE e
    have ih3 := fine_kIts its
    intro p sh sh' hu ha hf
    simp only [kIts, fIts, smIts, aptIts, lvl_k, isPre_k, bareArg_k] at *
    have hu1 := hu.mono (fun a b => ⟨a, b⟩) id fun h => (Bool.or_eq_false_iff.1 h).1
    have hu2 := hu.mono (fun a b => ⟨a, b⟩) id fun h => (Bool.or_eq_false_iff.1 h).2
    have hu3 := hu2.mono (fun a b => ⟨a, b⟩) id fun h => (Bool.or_eq_false_iff.1 h).1
    have hu4 := hu2.mono (fun a b => ⟨a, b⟩) id fun h => (Bool.or_eq_false_iff.1 h).2
    exact ⟨ih1 _ _ _ hu1 ha.1 hf.1, ih2 _ _ _ hu3 ha.2.1 hf.2.1, ih3 _ _ _ hu4 ha.2.2 hf.2.2⟩
theorem fine_kS : ∀ (x : St), ∀ p sh sh' c c', Up p sh sh' (smS O p x).bad → Follow sh c sh' c' → aptS O L p sh' x → fS false L sh c x → fS false L sh' c' (kS O p x)
  | .do_ b => by
    have ih1 := fine_kB b
    intro p sh sh' c c' hu hc ha hf
    simp only [kS, fS, smS, Sm.shut, aptS, targets_k, isTarget_k, isCall_k, nilEs_k, ne_eq] at *
    exact ih1 _ _ _ _ _ (hu.mid fun h => (sum_leB _ b _ h).1) follow_t ha hf
  | .if_ i => by
    have ih1 := fine_kI i
    intro p sh sh' c c' hu hc ha hf
    simp only [kS, fS, smS, Sm.shut, aptS, targets_k, isTarget_k, isCall_k, nilEs_k, ne_eq] at *
    exact ih1 _ _ _ _ _ _ hu hc ha hf
  | .while_ e b => by
    have ih1 := fine_kE e
    have ih2 := fine_kB b
    intro p sh sh' c c' hu hc ha hf
    simp only [kS, fS, smS, aptS] at *
    by_cases hm : (O.makeWhile && mayIf O p e b none) = true
    · rw [if_pos hm]
      rw [hm, Bool.or_true] at ha
      have hm' := may_none _ ((Bool.and_eq_true _ _).mp hm).2
      simp only [fS, isGroup, fE, Bool.not_false, Bool.or_true]
      refine ⟨⟨nofun, nofun⟩, trivial, ih1 _ _ _ (by rw [hm'.2.1]; exact .of) ha.1 hf.1,
        fB_fill (ih2 _ _ _ _ _ (by rw [hm'.2.2.1]; exact .of) nofun ha.2.1 hf.2), by simp, ?_, ?_⟩
      · exact leadB_fill (leadB_k _ _ _) (ha.2.2 rfl).1
      · exact doB_fill (doB_k _ _ _) (starts_do hm'.2.2.2 ((ha.2.2 rfl).2 trivial))
    · rw [if_neg hm]
      rw [Bool.not_eq_true] at hm
      rw [hm, Bool.or_false] at ha
      have hu' := hu.mono (fun a b => ⟨a, b⟩) id fun h => (shut_or h).1
      rw [fS]
      exact ⟨ih1 _ _ _ (hu'.mid fun h => (Bool.or_eq_false_iff.1 h).1) ha.1 hf.1,
        ih2 _ _ _ _ _ (hu'.mid fun h => (sum_leB _ b _ (Bool.or_eq_false_iff.1 h).2).1) follow_t ha.2.1 hf.2⟩
  | .whileShort e b d => by
    have ih1 := fine_kE e
    have ih2 := fine_kB b
    intro p sh sh' c c' hu hc ha hf
    simp only [kS, fS, smS, aptS] at *
    have hu1 : ∀ s, s = sh' ∨ s = (sh' || !d) → Up .bad (sh || !d) s (smE O .bad e) := fun s hs => up_short (by simp) hs hu fun h => (short_bad h).1
    have hu2 : ∀ s, s = sh' ∨ s = (sh' || !d) → Up (p.body O.nest) (sh || !d) s (smB O (p.body O.nest) b).bad :=
      fun s hs => up_short (Pc.body_ne _ _) hs hu fun h => (short_bad h).2
    by_cases hun : O.undoWhile = true
    · rw [if_pos hun] at ha ⊢
      rw [fS]
      exact ⟨ih1 _ _ _ (hu1 _ (.inl rfl)) ha.1 hf.2.2.1, ih2 _ _ _ _ _ (hu2 _ (.inl rfl)) follow_t ha.2.1 hf.2.2.2.1⟩
    · rw [if_neg hun] at ha ⊢
      rw [Bool.not_eq_true] at hun
      rw [fS]
      simp only [isGroup_k, leadB_k, doB_k]
      exact ⟨okFlag_k hc hf.1, hf.2.1, ih1 _ _ _ (hu1 _ (.inr rfl)) ha.1 hf.2.2.1,
        ih2 _ _ _ _ _ (hu2 _ (.inr rfl)) (follow_d _ _ _) ha.2.1 hf.2.2.2.1, ha.2.2 hun, hf.2.2.2.2.2⟩
  | .repeat_ b e => by
    have ih1 := fine_kB b
    have ih2 := fine_kE e
    intro p sh sh' c c' hu hc ha hf
    simp only [kS, fS, smS, Sm.shut, aptS, targets_k, isTarget_k, isCall_k, nilEs_k, ne_eq] at *
    have hu1 := hu.mono (fun a b => ⟨a, b⟩) id fun h => (Bool.or_eq_false_iff.1 h).1
    have hu2 := hu.mono (fun a b => ⟨a, b⟩) id fun h => (Bool.or_eq_false_iff.1 h).2
    exact ⟨ih1 _ _ _ _ _ (hu1.mid fun h => (sum_leB _ b _ h).1) follow_t ha.1 hf.1, ih2 _ _ _ (hu2.mid id) ha.2 hf.2⟩
  | .fornum x a b s d => by
    have ih1 := fine_kE a
    have ih2 := fine_kE b
    have ih3 := fine_kEs s
    have ih4 := fine_kB d
    intro p sh sh' c c' hu hc ha hf
    simp only [kS, fS, smS, Sm.shut, aptS, targets_k, isTarget_k, isCall_k, nilEs_k, ne_eq] at *
    have hu1 := hu.mid fun h => (Bool.or_eq_false_iff.1 h).1
    have hu' := hu.mid fun h => (Bool.or_eq_false_iff.1 h).2
    have hu2 := hu'.mono (fun a b => ⟨a, b⟩) id fun h => (Bool.or_eq_false_iff.1 h).1
    have hu'' := hu'.mono (fun a b => ⟨a, b⟩) id fun h => (Bool.or_eq_false_iff.1 h).2
    have hu3 := hu''.mono (fun a b => ⟨a, b⟩) id fun h => (Bool.or_eq_false_iff.1 h).1
    have hu4 := hu''.mono (fun a b => ⟨a, b⟩) id fun h => (sum_leB _ _ _ (Bool.or_eq_false_iff.1 h).2).1
    refine ⟨ih1 _ _ _ hu1 ha.1 hf.1, ih2 _ _ _ hu2 ha.2.1 hf.2.1, ih3 _ _ _ hu3 ha.2.2.1 hf.2.2.1, ?_, ih4 _ _ _ _ _ hu4 follow_t ha.2.2.2 hf.2.2.2.2⟩
    rcases hf.2.2.2.1 with rfl | ⟨e, rfl⟩
    · exact .inl rfl
    · exact .inr ⟨_, rfl⟩
  | .forin xs es d => by
    have ih1 := fine_kEs es
    have ih2 := fine_kB d
    intro p sh sh' c c' hu hc ha hf
    simp only [kS, fS, smS, Sm.shut, aptS, targets_k, isTarget_k, isCall_k, nilEs_k, ne_eq] at *
    have hu1 := hu.mono (fun a b => ⟨a, b⟩) id fun h => (Bool.or_eq_false_iff.1 h).1
    have hu2 := hu.mono (fun a b => ⟨a, b⟩) id fun h => (Bool.or_eq_false_iff.1 h).2
    exact ⟨hf.1, hf.2.1, ih1 _ _ _ (hu1.mid id) ha.1 hf.2.2.1, ih2 _ _ _ _ _ (hu2.mid fun h => (sum_leB _ _ _ h).1) follow_t ha.2 hf.2.2.2⟩
  | .break_ => by
    intros
    simp only [kS, fS]
  | .return_ es => by
    have ih1 := fine_kEs es
    intro p sh sh' c c' hu hc ha hf
    simp only [kS, fS, smS, Sm.shut, aptS, targets_k, isTarget_k, isCall_k, nilEs_k, ne_eq] at *
    exact ih1 _ _ _ (hu.mid id) ha hf
  | .local_ xs es => by
    have ih1 := fine_kEs es
    intro p sh sh' c c' hu hc ha hf
    simp only [kS, fS, smS, Sm.shut, aptS, targets_k, isTarget_k, isCall_k, nilEs_k, ne_eq] at *
    exact ⟨hf.1, hf.2.1, ih1 _ _ _ (hu.mid id) ha hf.2.2⟩
  | .localfn x ps b => by
    have ih1 := fine_kB b
    intro p sh sh' c c' hu hc ha hf
    simp only [kS, fS, smS, Sm.shut, aptS, targets_k, isTarget_k, isCall_k, nilEs_k, ne_eq] at *
    exact ih1 _ _ _ _ _ (hu.mid fun h => (sum_leB _ b _ h).1) follow_t ha hf
  | .goto_ x => by
    intros
    simp only [kS, fS]
  | .label x => by
    intros
    simp only [kS, fS]
  | .func f ps b => by
    have ih1 := fine_kB b
    intro p sh sh' c c' hu hc ha hf
    simp only [kS, fS, smS, Sm.shut, aptS, targets_k, isTarget_k, isCall_k, nilEs_k, ne_eq] at *
    exact ih1 _ _ _ _ _ (hu.mid fun h => (sum_leB _ b _ h).1) follow_t ha hf
  | .assign ts es => by
    have ih1 := fine_kEs ts
    have ih2 := fine_kEs es
    intro p sh sh' c c' hu hc ha hf
    simp only [kS, fS, smS, Sm.shut, aptS, targets_k, isTarget_k, isCall_k, nilEs_k, ne_eq] at *
    have hu1 := hu.mono (fun a b => ⟨a, b⟩) id fun h => (Bool.or_eq_false_iff.1 h).1
    have hu2 := hu.mono (fun a b => ⟨a, b⟩) id fun h => (Bool.or_eq_false_iff.1 h).2
    exact ⟨hf.1, hf.2.1, hf.2.2.1, ih1 _ _ _ (hu1.mid id) ha.1 hf.2.2.2.1, ih2 _ _ _ (hu2.mid id) ha.2 hf.2.2.2.2⟩
  | .opassign o t e => by
    have ih1 := fine_kE t
    have ih2 := fine_kE e
    intro p sh sh' c c' hu hc ha hf
    simp only [kS, fS, smS, Sm.shut, aptS, targets_k, isTarget_k, isCall_k, nilEs_k, ne_eq] at *
    have hu1 := hu.mono (fun a b => ⟨a, b⟩) id fun h => (Bool.or_eq_false_iff.1 h).1
    have hu2 := hu.mono (fun a b => ⟨a, b⟩) id fun h => (Bool.or_eq_false_iff.1 h).2
    exact ⟨hf.1, ih1 _ _ _ (hu1.mid id) ha.1 hf.2.1, ih2 _ _ _ (hu2.mid id) ha.2 hf.2.2⟩
  | .call e => by
    have ih1 := fine_kE e
    intro p sh sh' c c' hu hc ha hf
    simp only [kS, fS, smS, aptS] at *
    by_cases hm : (O.makePrint && O.mayPrint p e (smE O p.mid e)) = true
    · rw [if_pos hm]
      rw [hm, Bool.or_true] at ha
      have hm' := may_print _ ((Bool.and_eq_true _ _).mp hm).2
      obtain ⟨t, as, rfl⟩ := isPrint_iff.1 hm'.1
      have h1 := ih1 _ _ _ (by rw [hm'.2.2]; exact .of) ha.1 hf.2
      simp only [kE, fE] at h1
      simp only [kE, argsOf, fS, ne_eq, nilEs_k] at *
      exact ⟨ha.2 trivial, h1.2.2.1⟩
    · rw [if_neg hm]
      rw [Bool.not_eq_true] at hm
      rw [hm, Bool.or_false] at ha
      rw [fS, isCall_k]
      exact ⟨hf.1, ih1 _ _ _ ((hu.mono (fun a b => ⟨a, b⟩) id fun h => (shut_or h).1).mid id) ha.1 hf.2⟩
  | .print es => by
    have ih1 := fine_kEs es
    intro p sh sh' c c' hu hc ha hf
    simp only [kS, fS, smS, aptS, ne_eq, nilEs_k] at *
    exact ⟨hf.1, ih1 _ _ _ (fun _ => .inl ⟨rfl, by simp⟩) ha hf.2⟩
theorem fine_kI : ∀ (x : If), ∀ can p sh sh' c c', Up p sh sh' (smI O can p x).bad → Follow sh c sh' c' → aptI O L can p sh' x → fI false L sh c x → fI false L sh' c' (kI O can p x)
  | .long e b .end_ => by
    have ih1 := fine_kE e
    have ih2 := fine_kB b
    intro can p sh sh' c c' hu hc ha hf
    simp only [kI, fI, smI, aptI] at *
    by_cases hm : (can && O.makeIf && mayIf O p e b none) = true
    · rw [if_pos hm]
      rw [hm, Bool.or_true] at ha
      have hm' := may_none _ ((Bool.and_eq_true _ _).mp hm).2
      simp only [fI, isGroup, fE, Bool.not_false, Bool.or_true]
      refine ⟨⟨nofun, nofun⟩, trivial, ih1 _ _ _ (by rw [hm'.2.1]; exact .of) ha.1 hf.1,
        fB_fill (ih2 _ _ _ _ _ (by rw [hm'.2.2.1]; exact .of) nofun ha.2.1 hf.2.1), by simp, ?_, fun hL => ?_⟩
      · exact leadB_fill (leadB_k _ _ _) (ha.2.2 rfl).1
      · exact doB_fill (doB_k _ _ _) (starts_do hm'.2.2.2 ((ha.2.2 rfl).2 hL))
    · rw [if_neg hm]
      rw [Bool.not_eq_true] at hm
      rw [hm, Bool.or_false] at ha
      have hu' := hu.mono (fun a b => ⟨a, b⟩) id fun h => (shut_or h).1
      simp only [fI, fT, Tidy.isElse]
      exact ⟨ih1 _ _ _ (hu'.mid fun h => (Bool.or_eq_false_iff.1 h).1) ha.1 hf.1,
        ih2 _ _ _ _ _ (hu'.mid fun h => (sum_leB _ b _ (Bool.or_eq_false_iff.1 h).2).1) follow_t ha.2.1 hf.2.1, trivial, nofun⟩
  | .long e b (.else_ b') => by
    have ih1 := fine_kE e
    have ih2 := fine_kB b
    have ih3 := fine_kB b'
    intro can p sh sh' c c' hu hc ha hf
    simp only [kI, fI, smI, aptI, fT, Tidy.isElse] at *
    by_cases hm : (can && O.makeIf && mayIf O p e b (some b')) = true
    · rw [if_pos hm]
      rw [hm, Bool.or_true] at ha
      have hm' := may_some _ ((Bool.and_eq_true _ _).mp hm).2
      simp only [fI, isGroup, fE, Bool.not_false, Bool.or_true]
      refine ⟨⟨nofun, nofun⟩, trivial, ih1 _ _ _ (by rw [hm'.2.1]; exact .of) ha.1 hf.1,
        fB_fill (ih2 _ _ _ _ _ (by rw [hm'.2.2.1.1]; exact .of) nofun ha.2.1 hf.2.1), 
        fB_fill (ih3 _ _ _ _ _ (by rw [hm'.2.2.2.1]; exact .of) nofun ha.2.2.1 hf.2.2.1), by simp, ?_, fun hL => ?_, ?_⟩
      · exact leadB_fill (leadB_k _ _ _) (ha.2.2.2 rfl).1
      · exact doB_fill (doB_k _ _ _) (starts_do hm'.2.2.2.2 ((ha.2.2.2 rfl).2 hL))
      · exact dangle_fill (dangle_kB _ _ _ hm'.2.2.1.1 hm'.2.2.1.2)
    · rw [if_neg hm]
      rw [Bool.not_eq_true] at hm
      rw [hm, Bool.or_false] at ha
      have hu' := hu.mono (fun a b => ⟨a, b⟩) id fun h => (shut_or h).1
      have hu2 : Up p sh sh' (smB O p.mid b).any := hu'.mono (fun a b => ⟨a, b⟩) id fun h => (Bool.or_eq_false_iff.1 (Bool.or_eq_false_iff.1 h).2).1
      simp only [fI, fT, Tidy.isElse]
      exact ⟨ih1 _ _ _ (hu'.mid fun h => (Bool.or_eq_false_iff.1 h).1) ha.1 hf.1,
        ih2 _ _ _ _ _ (hu2.mid fun h => (sum_leB _ b _ h).1) follow_t ha.2.1 hf.2.1,
        ih3 _ _ _ _ _ (hu'.mid fun h => (sum_leB _ b' _ (Bool.or_eq_false_iff.1 (Bool.or_eq_false_iff.1 h).2).2).1) follow_t ha.2.2.1 hf.2.2.1,
        fun _ => dangle_long hu2 (hf.2.2.2 trivial)⟩
  | .long e b (.elseif_ i) => by
    have ih1 := fine_kE e
    have ih2 := fine_kB b
    have ih3 := fine_kI i
    intro can p sh sh' c c' hu hc ha hf
    simp only [kI, fI, smI, aptI, fT, Tidy.isElse, Sm.shut] at *
    exact ⟨ih1 _ _ _ (hu.mid fun h => (Bool.or_eq_false_iff.1 h).1) ha.1 hf.1,
      ih2 _ _ _ _ _ (hu.mid fun h => (sum_leB _ b _ (Bool.or_eq_false_iff.1 (Bool.or_eq_false_iff.1 h).2).1).1) follow_t ha.2.1 hf.2.1,
      ⟨isLong_k _ _ hf.2.2.1.1, ih3 _ _ _ _ _ _ (hu.mid fun h => (sum_leI _ i _ _ (Bool.or_eq_false_iff.1 (Bool.or_eq_false_iff.1 h).2).2).1) follow_t ha.2.2 hf.2.2.1.2⟩, nofun⟩
  | .short e b d => by
    have ih1 := fine_kE e
    have ih2 := fine_kB b
    intro can p sh sh' c c' hu hc ha hf
    simp only [kI, fI, smI, aptI] at *
    have hu1 : ∀ s, s = sh' ∨ s = (sh' || !d) → Up .bad (sh || !d) s (smE O .bad e) := fun s hs => up_short (by simp) hs hu fun h => (short_bad h).1
    have hu2 : ∀ s, s = sh' ∨ s = (sh' || !d) → Up (p.body O.nest) (sh || !d) s (smB O (p.body O.nest) b).bad :=
      fun s hs => up_short (Pc.body_ne _ _) hs hu fun h => (short_bad h).2
    by_cases hun : (can && O.undoIf) = true
    · rw [if_pos hun] at ha ⊢
      simp only [fI, fT, Tidy.isElse]
      exact ⟨ih1 _ _ _ (hu1 _ (.inl rfl)) ha.1 hf.2.2.1, ih2 _ _ _ _ _ (hu2 _ (.inl rfl)) follow_t ha.2.1 hf.2.2.2.1, trivial, nofun⟩
    · rw [if_neg hun] at ha ⊢
      rw [Bool.not_eq_true] at hun
      rw [fI]
      simp only [isGroup_k, leadB_k, doB_k]
      exact ⟨okFlag_k hc hf.1, hf.2.1, ih1 _ _ _ (hu1 _ (.inr rfl)) ha.1 hf.2.2.1,
        ih2 _ _ _ _ _ (hu2 _ (.inr rfl)) (follow_d _ _ _) ha.2.1 hf.2.2.2.1, ha.2.2 hun, hf.2.2.2.2.2⟩
  | .shortElse e b b' d => by
    have ih1 := fine_kE e
    have ih2 := fine_kB b
    have ih3 := fine_kB b'
    intro can p sh sh' c c' hu hc ha hf
    simp only [kI, fI, smI, aptI] at *
    have hu1 : ∀ s, s = sh' ∨ s = (sh' || !d) → Up .bad (sh || !d) s (smE O .bad e) := fun s hs => up_short (by simp) hs hu fun h => (short_bad2 h).1
    have hu2 : ∀ s, s = sh' ∨ s = (sh' || !d) → Up (p.first O.nest) (sh || !d) s (smB O (p.first O.nest) b).bad :=
      fun s hs => up_short (Pc.first_ne _ _) hs hu fun h => (sum_leB _ b _ (short_bad2 h).2.1).1
    have hu3 : ∀ s, s = sh' ∨ s = (sh' || !d) → Up (p.body O.nest) (sh || !d) s (smB O (p.body O.nest) b').bad :=
      fun s hs => up_short (Pc.body_ne _ _) hs hu fun h => (short_bad2 h).2.2
    by_cases hun : (can && O.undoIf) = true
    · rw [if_pos hun] at ha ⊢
      simp only [fI, fT, Tidy.isElse]
      exact ⟨ih1 _ _ _ (hu1 _ (.inl rfl)) ha.1 hf.2.2.1, ih2 _ _ _ _ _ (hu2 _ (.inl rfl)) follow_t ha.2.1 hf.2.2.2.1,
        ih3 _ _ _ _ _ (hu3 _ (.inl rfl)) follow_t ha.2.2.1 hf.2.2.2.2.1, fun _ => ha.2.2.2.2⟩
    · rw [if_neg hun] at ha ⊢
      rw [Bool.not_eq_true] at hun
      rw [fI]
      simp only [isGroup_k, leadB_k, doB_k]
      exact ⟨okFlag_k hc hf.1, hf.2.1, ih1 _ _ _ (hu1 _ (.inr rfl)) ha.1 hf.2.2.1,
        ih2 _ _ _ _ _ (hu2 _ (.inr rfl)) follow_t ha.2.1 hf.2.2.2.1,
        ih3 _ _ _ _ _ (hu3 _ (.inr rfl)) (follow_d _ _ _) ha.2.2.1 hf.2.2.2.2.1, ha.2.2.2.1 hun, hf.2.2.2.2.2.2.1, hf.2.2.2.2.2.2.2.1, ha.2.2.2.2⟩
theorem fine_kB : ∀ (x : Block), ∀ p sh sh' c c', Up p sh sh' (smB O p x).bad → Follow sh c sh' c' → aptB O L p sh' x → fB false L sh c x → fB false L sh' c' (kB O p x)
  | .nil => by
    intros
    simp only [kB, fB]
  | .semi b => by
    have ih1 := fine_kB b
    intro p sh sh' c c' hu hc ha hf
    simp only [kB, fB, smB, aptB] at *
    exact ih1 _ _ _ _ _ hu hc ha hf
  | .cons s .nil => by
    have ih1 := fine_kS s
    intro p sh sh' c c' hu hc ha hf
    simp only [kB, fB, smB, aptB] at *
    exact ⟨ih1 _ _ _ _ _ hu hc ha hf.1, trivial, fun _ => rfl, fun _ _ _ => trivial, fun _ => rfl, fun _ => rfl⟩
  | .cons s (.semi b) => by
    have ih1 := fine_kS s
    have ih2 := fine_kB (.semi b)
    intro p sh sh' c c' hu hc ha hf
    rw [show kB O p (.cons s (.semi b)) = .cons (kS O p.mid s) (kB O p (.semi b)) from rfl]
    rw [fB] at hf ⊢
    rw [aptB] at ha
    · rw [smB] at hu
      · have hu1 : Up p sh sh' (smS O p.mid s).any := hu.mono (fun a b => ⟨a, b⟩) id fun h => (shut_or h).1
        have hu2 := hu.mono (fun a b => ⟨a, b⟩) id fun h => (shut_or h).2
        refine ⟨ih1 _ _ _ _ _ (hu1.mid fun h => (sum_leS _ s _ h).1) hc ha.1 hf.1, ih2 _ _ _ _ _ hu2 hc ha.2.1 hf.2.1, fun ho => ?_, fun d hd hs => ?_, fun h => ?_, fun h => ?_⟩
        · rw [leadB_k]
          cases hn : newS O p.mid s
          · exact hf.2.2.1 (open_kS _ s _ hn ho)
          · exact ha.2.2.1 hn
        · exact (flag_k hu1 hd hs (fun d hd hs => by have := hf.2.2.2.1 d hd hs; simp at this)).elim
        · rw [semis_k]; rw [isRet0_k] at h; exact hf.2.2.2.2.1 h
        · rw [doB_k]; exact ha.2.2.2 h
      · simp
    · simp
  | .cons s (.cons r b) => by
    have ih1 := fine_kS s
    have ih2 := fine_kB (.cons r b)
    intro p sh sh' c c' hu hc ha hf
    rw [show kB O p (.cons s (.cons r b)) = .cons (kS O p.mid s) (kB O p (.cons r b)) from rfl]
    rw [fB] at hf ⊢
    rw [aptB] at ha
    · rw [smB] at hu
      · have hu1 : Up p sh sh' (smS O p.mid s).any := hu.mono (fun a b => ⟨a, b⟩) id fun h => (shut_or h).1
        have hu2 := hu.mono (fun a b => ⟨a, b⟩) id fun h => (shut_or h).2
        refine ⟨ih1 _ _ _ _ _ (hu1.mid fun h => (sum_leS _ s _ h).1) hc ha.1 hf.1, ih2 _ _ _ _ _ hu2 hc ha.2.1 hf.2.1, fun ho => ?_, fun d hd hs => ?_, fun h => ?_, fun h => ?_⟩
        · rw [leadB_k]
          cases hn : newS O p.mid s
          · exact hf.2.2.1 (open_kS _ s _ hn ho)
          · exact ha.2.2.1 hn
        · exact (flag_k hu1 hd hs (fun d hd hs => by have := hf.2.2.2.1 d hd hs; simp at this)).elim
        · rw [semis_k]; rw [isRet0_k] at h; exact hf.2.2.2.2.1 h
        · rw [doB_k]; exact ha.2.2.2 h
      · simp
    · simp
end

/-- Making and undoing shorthands keeps programs fine. -/
theorem fine_k {b : Block} (ha : Apt O L b) (h : Fine false L b) : Fine false L (kB O .free b) :=
  ⟨fine_kB b .free false false false false nofun (fun _ h => h.elim (fun h => nomatch h) id) ha h.1, by rw [endsRet_k]; exact h.2⟩

end Verif.Mini
