import Verif.Fine
import Verif.SyntaxSound
/-
Fine trees can be printed and parsed again.
-/
set_option linter.unusedVariables false
set_option linter.unusedSimpArgs false
namespace Verif.Mini
open Syntax Tidy
open LuaGrammar hiding Name
open Paren (Op Lang prec)

/-! ### Lines -/

def nls : List M → Nat
  | [] => 0
  | .nl :: ms => nls ms + 1
  | .t _ :: ms => nls ms

theorem nls_append (a b : List M) : nls (a ++ b) = nls a + nls b := by
  induction a with
  | nil => simp [nls]
  | cons m a ih => cases m <;> simp [nls, ih]; omega

theorem lay_lines : ∀ (ms : List M) (n : Nat), ∀ t ∈ lay n ms, n ≤ t.line
  | [], _ => by simp [lay]
  | .t k :: ms, n => by
    intro t h
    rcases List.mem_cons.1 h with rfl | h
    · exact Nat.le_refl _
    · exact lay_lines ms n t h
  | .nl :: ms, n => fun t h => Nat.le_trans (Nat.le_succ n) (lay_lines ms (n + 1) t h)

theorem lay_later (n : Nat) (w : List M) : Later (some n) (lay (n + 1) w) :=
  ⟨n, rfl, fun t r' h => lay_lines w (n + 1) t (by rw [h]; exact List.mem_cons_self)⟩

theorem lay_not_on (n : Nat) (w : List M) : ¬ OnLine n (lay (n + 1) w) := by
  rintro ⟨t, r, h, hl⟩
  have := lay_lines w (n + 1) t (by rw [h]; exact List.mem_cons_self)
  omega

theorem not_later {n : Nat} {k : K} {r : List T} {v : Option Nat} (hv : v = none ∨ v = some n) : ¬ Later v (⟨k, n⟩ :: r) := by
  rintro ⟨l, rfl, h⟩
  rcases hv with hv | hv <;> cases hv
  have := h _ _ rfl
  exact absurd this (Nat.lt_irrefl _)

theorem E_le {L : Lang} {j k : Nat} {i r : List T} {e : Ex} (hjk : j ≤ k) (h : E L k i r e) : E L j i r e := by
  induction k with
  | zero => have : j = 0 := by omega
            subst this; exact h
  | succ k ih =>
    by_cases hj : j = k + 1
    · subst hj; exact h
    · exact ih (by omega) (.up h)

theorem bin_lvl {L : Lang} {o : Op} (h : Binary L o) : inLang L o = true ∧ 1 ≤ prec o ∧
    (o = .concat ∨ o = .caret ∨ (o ∈ leftOps (prec o) ∧ lo o = prec o ∧ hi o = prec o + 1)) := by
  have h := binary_iff.2 h
  revert h
  cases L <;> cases o <;> simp [Paren.isBin, inLang, leftOps, prec, lo, hi]

theorem lvl_pos {L : Lang} {sh : Bool} {x : Bool} {e : Ex} (h : fE x L sh e) : 1 ≤ lvl e := by
  cases e <;> try simp [lvl]
  rename_i o l r
  rw [fE] at h
  exact (bin_lvl h.1).2.1

theorem E_table' {L : Lang} {k : Nat} {i r : List T} {e : Ex} (h : E L k i r e) (t : Its) (he : e = .table t) :
    ∃ l m, i = ⟨.lc, l⟩ :: m ∧ Items L m r t := by
  match h with
  | .up h => exact E_table' h t he
  | .table h => cases he; exact ⟨_, _, rfl, h⟩
  | .left .. | .concat .. | .un .. | .pow .. | .cst | .num | .str | .dots | .func _ => cases he
  | .pre h => subst he; cases h

theorem E_table {L : Lang} {k : Nat} {i r : List T} {t : Its} (h : E L k i r (.table t)) : ∃ l m, i = ⟨.lc, l⟩ :: m ∧ Items L m r t :=
  E_table' h t rfl

theorem E_str' {L : Lang} {k : Nat} {i r : List T} {e : Ex} (h : E L k i r e) (t : String) (he : e = .str t) : ∃ l, i = ⟨.str t, l⟩ :: r := by
  match h with
  | .up h => exact E_str' h t he
  | .str => cases he; exact ⟨_, rfl⟩
  | .left .. | .concat .. | .un .. | .pow .. | .cst | .num | .table _ | .dots | .func _ => cases he
  | .pre h => subst he; cases h

theorem E_str {L : Lang} {k : Nat} {i r : List T} {t : String} (h : E L k i r (.str t)) : ∃ l, i = ⟨.str t, l⟩ :: r := E_str' h t rfl

theorem bare_of {L : Lang} {i r : List T} {as : Exs} (h : Es L i r as) (hb : bareArg as = true) : ∃ e, as = .cons e .nil ∧ Bare L i r e := by
  unfold bareArg at hb
  split at hb
  · cases h with
    | one h => obtain ⟨l, rfl⟩ := E_str h; exact ⟨_, rfl, .str⟩
    | cons _ h => cases h
  · cases h with
    | one h => obtain ⟨l, m, rfl, h'⟩ := E_table h; exact ⟨_, rfl, .table h'⟩
    | cons _ h => cases h
  · cases hb

/-! ### Small parts -/

theorem pNames : ∀ (xs : List Nm) (n : Nat) (w : List M), xs ≠ [] → Names (lay n (prNames xs ++ w)) (lay n w) xs
  | [], _, _, h => absurd rfl h
  | [x], n, w, _ => .one
  | x :: y :: xs, n, w, _ => .cons (pNames (y :: xs) n w (by simp))

theorem nls_names : ∀ xs : List Nm, nls (prNames xs) = 0
  | [] => rfl
  | [x] => rfl
  | x :: y :: xs => nls_names (y :: xs)

theorem pAttr {L : Lang} (a : Option Nm) (n : Nat) (w : List M) (h : okAttr L a) (hw : ¬ Next (· = .op .lt) (lay n w)) :
    Attr L (lay n (prAttr a ++ w)) (lay n w) a := by
  cases a with
  | none => exact .none fun _ => hw
  | some a => exact .some (h a rfl).1 (h a rfl).2

theorem nls_attr (a : Option Nm) : nls (prAttr a) = 0 := by cases a <;> rfl

theorem pLocals {L : Lang} : ∀ (xs : List (Nm × Option Nm)) (n : Nat) (w : List M), xs ≠ [] → (∀ p ∈ xs, okAttr L p.2) →
    ¬ Next (· = .op .lt) (lay n w) → ¬ Next (· = .comma) (lay n w) → Locals L (lay n (prLocals xs ++ w)) (lay n w) xs
  | [], _, _, h, _, _, _ => absurd rfl h
  | [x], n, w, _, h, h1, h2 => .one (pAttr x.2 n w (h x (by simp)) h1) h2
  | x :: y :: xs, n, w, _, h, h1, h2 => by
    simp only [prLocals, List.append_assoc, List.cons_append, lay]
    refine .cons (l' := n) (m := lay n (prLocals (y :: xs) ++ w)) ?_ (pLocals (y :: xs) n w (by simp) (fun p hp => h p (List.mem_cons_of_mem _ hp)) h1 h2)
    have := pAttr (L := L) x.2 n (.t .comma :: (prLocals (y :: xs) ++ w)) (h x (by simp)) (by simp [lay, next_cons])
    simpa only [lay] using this

theorem nls_locals : ∀ xs : List (Nm × Option Nm), nls (prLocals xs) = 0
  | [] => rfl
  | [x] => by simp only [prLocals, nls, nls_attr]
  | x :: y :: xs => by simp only [prLocals, nls, nls_append, nls_attr, nls_locals (y :: xs)]

theorem pPar (p : Param) (n : Nat) (r : List T) : Par (⟨prPar p, n⟩ :: r) r p := by cases p <;> constructor

theorem pPars : ∀ (ps : List Param) (n : Nat) (w : List M), ps ≠ [] → Pars (lay n (prParams ps ++ w)) (lay n w) ps
  | [], _, _, h => absurd rfl h
  | [p], n, w, _ => .one (pPar p n _)
  | p :: q :: ps, n, w, _ => .cons (pPar p n _) (pPars (q :: ps) n w (by simp))

theorem pParams (ps : List Param) (n : Nat) (w : List M) : Params (lay n (prParams ps ++ w)) (lay n w) ps := by
  cases ps with
  | nil => exact .nil
  | cons p ps => exact .some (pPars _ n w (by simp))

theorem nls_params : ∀ ps : List Param, nls (prParams ps) = 0
  | [] => rfl
  | [x] => rfl
  | x :: y :: xs => nls_params (y :: xs)

theorem pKeys : ∀ (xs : List Nm) (n : Nat) (w : List M), ¬ Next (· = .dot) (lay n w) →
    Keys (lay n (xs.flatMap (fun x => [.t .dot, .t (.id x)]) ++ w)) (lay n w) xs
  | [], n, w, h => .nil h
  | x :: xs, n, w, h => .cons (pKeys xs n w h)

theorem pName (f : FnName) (n : Nat) (w : List M) :
    LuaGrammar.Name (lay n (prName f ++ .t .lp :: w)) (lay n (.t .lp :: w)) f := by
  obtain ⟨b, ks, m⟩ := f
  cases m with
  | none =>
    simp only [prName, Option.toList, List.flatMap_nil, List.append_nil, List.cons_append, lay]
    exact .func (pKeys ks n (.t .lp :: w) (by simp [lay, next_cons])) (by simp [lay, next_cons])
  | some m =>
    simp only [prName, Option.toList, List.flatMap_cons, List.flatMap_nil, List.append_nil, List.cons_append, List.append_assoc, List.nil_append, lay]
    exact .method (pKeys ks n (.t .colon :: .t (.id m) :: .t .lp :: w) (by simp [lay, next_cons]))

theorem nls_name (f : FnName) : nls (prName f) = 0 := by
  obtain ⟨b, ks, m⟩ := f
  have : ∀ (k : K) (xs : List Nm), nls (xs.flatMap fun x => [.t k, .t (.id x)]) = 0 := by
    intro k xs
    induction xs with
    | nil => rfl
    | cons x xs ih => simpa [nls, List.flatMap_cons] using ih
  simp only [prName, nls, nls_append, this]

/-! ### No line breaks inside of shorthands -/

theorem nls_brk {sh : Bool} {d : Bool} (h : sh = true ∨ d = true) : nls (brk sh d) = 0 := by
  rcases h with rfl | rfl <;> simp [brk, nls]

theorem nls_sepEs (es : Exs) : nls (sepEs es) = 0 := by cases es <;> rfl
theorem nls_eqEs (es : Exs) : nls (eqEs es) = 0 := by cases es <;> rfl
theorem nls_sepIts (es : Its) : nls (sepIts es) = 0 := by cases es <;> rfl

section
variable (th : K)
mutual
theorem zE : ∀ (e : Ex) (sh : Bool), sh = true ∨ calmE e = true → nls (prE th sh e) = 0
  | .var _, _, _ | .num _, _, _ | .str _, _, _ | .cst _, _, _ | .vararg, _, _ => by simp only [prE, nls]
  | .func ps b, sh, h => by
    simp only [calmE] at h
    simp only [prE, nls, nls_append, nls_params, zB b sh h]
  | .group e, sh, h => by
    simp only [calmE] at h
    simp only [prE, nls, nls_append, zE e sh h]
  | .un _ e, sh, h => by
    simp only [calmE] at h
    simp only [prE, nls, zE e sh h]
  | .bin _ l r, sh, h => by
    simp only [calmE, Bool.and_eq_true] at h
    simp only [prE, nls, nls_append, zE l sh (h.imp_right (·.1)), zE r sh (h.imp_right (·.2))]
  | .member b _, sh, h => by
    simp only [calmE] at h
    simp only [prE, nls, nls_append, zE b sh h]
  | .index b k, sh, h => by
    simp only [calmE, Bool.and_eq_true] at h
    simp only [prE, nls, nls_append, zE b sh (h.imp_right (·.1)), zE k sh (h.imp_right (·.2))]
  | .call b t as, sh, h => by
    simp only [calmE, Bool.and_eq_true] at h
    cases t <;> simp only [prE, nls, nls_append, zE b sh (h.imp_right (·.1)), zEs as sh (h.imp_right (·.2))]
  | .method b _ t as, sh, h => by
    simp only [calmE, Bool.and_eq_true] at h
    cases t <;> simp only [prE, nls, nls_append, zE b sh (h.imp_right (·.1)), zEs as sh (h.imp_right (·.2))]
  | .table its, sh, h => by
    simp only [calmE] at h
    simp only [prE, nls, nls_append, zIts its sh h]
theorem zEs : ∀ (e : Exs) (sh : Bool), sh = true ∨ calmEs e = true → nls (prEs th sh e) = 0
  | .nil, _, _ => by simp only [prEs, nls]
  | .cons e es, sh, h => by
    simp only [calmEs, Bool.and_eq_true] at h
    simp only [prEs, nls_append, nls_sepEs, zE e sh (h.imp_right (·.1)), zEs es sh (h.imp_right (·.2))]
theorem zIts : ∀ (e : Its) (sh : Bool), sh = true ∨ calmIts e = true → nls (prIts th sh e) = 0
  | .nil, _, _ => by simp only [prIts, nls]
  | .pos e es, sh, h => by
    simp only [calmIts, Bool.and_eq_true] at h
    simp only [prIts, nls_append, nls_sepIts, zE e sh (h.imp_right (·.1)), zIts es sh (h.imp_right (·.2))]
  | .named _ e es, sh, h => by
    simp only [calmIts, Bool.and_eq_true] at h
    simp only [prIts, nls, nls_append, nls_sepIts, zE e sh (h.imp_right (·.1)), zIts es sh (h.imp_right (·.2))]
  | .keyed k e es, sh, h => by
    simp only [calmIts, Bool.and_eq_true] at h
    simp only [prIts, nls, nls_append, nls_sepIts, zE k sh (h.imp_right (·.1)), zE e sh (h.imp_right (·.2.1)), zIts es sh (h.imp_right (·.2.2))]
theorem zS : ∀ (s : St) (sh : Bool), sh = true ∨ calmS s = true → nls (prS th sh s) = 0
  | .do_ b, sh, h => by
    simp only [calmS] at h
    simp only [prS, nls, nls_append, zB b sh h]
  | .if_ i, sh, h => by
    simp only [calmS] at h
    simp only [prS, nls, zI i sh h]
  | .while_ c b, sh, h => by
    simp only [calmS, Bool.and_eq_true] at h
    simp only [prS, nls, nls_append, zE c sh (h.imp_right (·.1)), zB b sh (h.imp_right (·.2))]
  | .whileShort c b d, sh, h => by
    simp only [calmS, Bool.and_eq_true] at h
    simp only [prS, nls, nls_append, nls_brk (h.imp_right (·.1)),
      zE c (sh || !d) (h.imp (by rintro rfl; rfl) (·.2.1)), zB b (sh || !d) (h.imp (by rintro rfl; rfl) (·.2.2))]
  | .repeat_ b c, sh, h => by
    simp only [calmS, Bool.and_eq_true] at h
    simp only [prS, nls, nls_append, zB b sh (h.imp_right (·.1)), zE c sh (h.imp_right (·.2))]
  | .fornum _ a b s d, sh, h => by
    simp only [calmS, Bool.and_eq_true] at h
    simp only [prS, nls, nls_append, nls_sepEs, zE a sh (h.imp_right (·.1)), zE b sh (h.imp_right (·.2.1)), zEs s sh (h.imp_right (·.2.2.1)),
      zB d sh (h.imp_right (·.2.2.2))]
  | .forin xs es d, sh, h => by
    simp only [calmS, Bool.and_eq_true] at h
    simp only [prS, nls, nls_append, nls_names, zEs es sh (h.imp_right (·.1)), zB d sh (h.imp_right (·.2))]
  | .break_, _, _ | .goto_ _, _, _ | .label _, _, _ => by simp only [prS, nls]
  | .return_ es, sh, h => by
    simp only [calmS] at h
    simp only [prS, nls, zEs es sh h]
  | .local_ xs es, sh, h => by
    simp only [calmS] at h
    simp only [prS, nls, nls_append, nls_locals, nls_eqEs, zEs es sh h]
  | .localfn _ ps b, sh, h => by
    simp only [calmS] at h
    simp only [prS, nls, nls_append, nls_params, zB b sh h]
  | .func f ps b, sh, h => by
    simp only [calmS] at h
    simp only [prS, nls, nls_append, nls_name, nls_params, zB b sh h]
  | .assign ts es, sh, h => by
    simp only [calmS, Bool.and_eq_true] at h
    simp only [prS, nls, nls_append, zEs ts sh (h.imp_right (·.1)), zEs es sh (h.imp_right (·.2))]
  | .opassign _ t e, sh, h => by
    simp only [calmS, Bool.and_eq_true] at h
    simp only [prS, nls, nls_append, zE t sh (h.imp_right (·.1)), zE e sh (h.imp_right (·.2))]
  | .call e, sh, h => by
    simp only [calmS] at h
    simp only [prS, zE e sh h]
  | .print es, sh, h => by
    simp only [calmS, Bool.false_eq_true, or_false] at h
    simp only [prS, nls, nls_append, zEs es true (.inl rfl), nls_brk (.inl h)]
theorem zI : ∀ (s : If) (sh : Bool), sh = true ∨ calmI s = true → nls (prI th sh s) = 0
  | .long c b t, sh, h => by
    simp only [calmI, Bool.and_eq_true] at h
    simp only [prI, nls, nls_append, zE c sh (h.imp_right (·.1)), zB b sh (h.imp_right (·.2.1)), zT t sh (h.imp_right (·.2.2))]
  | .short c b d, sh, h => by
    simp only [calmI, Bool.and_eq_true] at h
    simp only [prI, nls_append, nls_brk (h.imp_right (·.1)),
      zE c (sh || !d) (h.imp (by rintro rfl; rfl) (·.2.1)), zB b (sh || !d) (h.imp (by rintro rfl; rfl) (·.2.2))]
  | .shortElse c b e d, sh, h => by
    simp only [calmI, Bool.and_eq_true] at h
    simp only [prI, nls, nls_append, nls_brk (h.imp_right (·.1)), zE c (sh || !d) (h.imp (by rintro rfl; rfl) (·.2.1)),
      zB b (sh || !d) (h.imp (by rintro rfl; rfl) (·.2.2.1)), zB e (sh || !d) (h.imp (by rintro rfl; rfl) (·.2.2.2))]
theorem zT : ∀ (s : Tail) (sh : Bool), sh = true ∨ calmT s = true → nls (prT th sh s) = 0
  | .end_, _, _ => by simp only [prT, nls]
  | .else_ b, sh, h => by
    simp only [calmT] at h
    simp only [prT, nls, nls_append, zB b sh h]
  | .elseif_ i, sh, h => by
    simp only [calmT] at h
    simp only [prT, nls, zI i sh h]
theorem zB : ∀ (s : Block) (sh : Bool), sh = true ∨ calmB s = true → nls (prB th sh s) = 0
  | .nil, _, _ => by simp only [prB, nls]
  | .semi b, sh, h => by
    simp only [calmB] at h
    simp only [prB, nls, zB b sh h]
  | .cons s b, sh, h => by
    simp only [calmB, Bool.and_eq_true] at h
    simp only [prB, nls_append, zS s sh (h.imp_right (·.1)), zB b sh (h.imp_right (·.2))]
end
end

/-! ### What follows a statement -/

/-- Tokens that start statements. -/
def StmtStart (k : K) : Prop :=
  (∃ x, k = .id x) ∨ k = .lp ∨ k = .dcolon ∨ k = .quest ∨ k = .kDo ∨ k = .kIf ∨ k = .kWhile ∨ k = .kRepeat ∨ k = .kFor ∨ k = .kBreak ∨ k = .kReturn ∨
    k = .kLocal ∨ k = .kGoto ∨ k = .kFunction

/-- A statement can end here. -/
def Bd (r : List T) : Prop := r = [] ∨ Next (fun k => Closes k ∨ k = .semi ∨ StmtStart k) r

theorem Bd.no {r : List T} (h : Bd r) {P : K → Prop} (hP : ∀ k, (Closes k ∨ k = .semi ∨ StmtStart k) → ¬ P k) : ¬ Next P r := by
  rcases h with rfl | ⟨t, r', rfl, h⟩
  · exact not_next_nil
  · rw [next_cons]; exact hP _ h

theorem Bd.noBin {L : Lang} {r : List T} (h : Bd r) : ¬ Next (fun k => ∃ o, k = .op o ∧ Binary L o) r :=
  h.no (by rintro k hk ⟨o, rfl, -⟩; simp [Closes, StmtStart] at hk)

theorem Bd.noMisc {r : List T} (h : Bd r) : ¬ Next (fun k => k = .comma ∨ k = .eq ∨ ∃ o, k = .opeq o) r :=
  h.no (by rintro k hk (rfl | rfl | ⟨o, rfl⟩) <;> simp [Closes, StmtStart] at hk)

theorem Bd.noComma {r : List T} (h : Bd r) : ¬ Next (· = .comma) r := h.no (by rintro k hk rfl; simp [Closes, StmtStart] at hk)
theorem Bd.noEq {r : List T} (h : Bd r) : ¬ Next (· = .eq) r := h.no (by rintro k hk rfl; simp [Closes, StmtStart] at hk)
theorem Bd.noLt {r : List T} (h : Bd r) : ¬ Next (· = .op .lt) r := h.no (by rintro k hk rfl; simp [Closes, StmtStart] at hk)

theorem Bd.noSuffix {r : List T} (h : Bd r) (hl : ¬ Next (· = .lp) r) : ¬ Next Suffix r := by
  rcases h with rfl | ⟨t, r', rfl, h⟩
  · exact not_next_nil
  · rw [next_cons] at *
    rintro (hs | hs | hs | hs | hs | ⟨s, hs⟩) <;> first | exact hl hs | (rw [hs] at h; simp [Closes, StmtStart] at h)

theorem Bd.done {L : Lang} {r : List T} {e : Ex} (h : Bd r) (ho : openEnd e = true → ¬ Next (· = .lp) r) : Done L e r :=
  ⟨h.noBin, fun he => h.noSuffix (ho he)⟩

theorem Bd.doneList {L : Lang} {r : List T} (h : Bd r) : ∀ es : Exs, (openEs es = true → ¬ Next (· = .lp) r) → DoneList L es r
  | .nil, _ => trivial
  | .cons e .nil, ho => ⟨h.done ho, h.noComma⟩
  | .cons e (.cons f es), ho => by rw [DoneList]; exact h.doneList (.cons f es) ho; intro hc; cases hc

theorem Bd.closes {k : K} {l : Nat} {r : List T} (h : Closes k) : Bd (⟨k, l⟩ :: r) := .inr (next_cons.2 (.inl h))

/-- Prefix expressions start with a name or a parenthesis. -/
theorem pre_start {x : Bool} {L : Lang} (th : K) : ∀ (e : Ex) (sh : Bool) (n : Nat) (w : List M), isPre e = true → fE x L sh e →
    ∃ k r, lay n (prE th sh e ++ w) = ⟨k, n⟩ :: r ∧ ((∃ x, k = .id x) ∨ k = .lp) ∧ (k = .lp ↔ leadLp e = true)
  | .var v, sh, n, w, _, _ => ⟨_, _, rfl, .inl ⟨_, rfl⟩, by simp [leadLp]⟩
  | .group e, sh, n, w, _, _ => ⟨.lp, _, by simp only [prE, List.cons_append, lay]; rfl, .inr rfl, by simp [leadLp]⟩
  | .member b m, sh, n, w, _, h => by
    rw [fE] at h
    simp only [prE, List.append_assoc, leadLp]; exact pre_start th b sh n _ h.1 h.2
  | .index b m, sh, n, w, _, h => by
    rw [fE] at h
    simp only [prE, List.append_assoc, leadLp]; exact pre_start th b sh n _ h.1 h.2.1
  | .call b t as, sh, n, w, _, h => by
    rw [fE] at h
    cases t <;> simp only [prE, List.append_assoc, leadLp] <;> exact pre_start th b sh n _ h.1 h.2.1
  | .method b m t as, sh, n, w, _, h => by
    rw [fE] at h
    cases t <;> simp only [prE, List.append_assoc, leadLp] <;> exact pre_start th b sh n _ h.1 h.2.1
  | .num _, _, _, _, h, _ | .str _, _, _, _, h, _ | .cst _, _, _, _, h, _ | .vararg, _, _, _, h, _ | .func _ _, _, _, _, h, _
  | .un _ _, _, _, _, h, _ | .bin _ _ _, _, _, _, h, _ | .table _, _, _, _, h, _ => by simp [isPre] at h

theorem target_pre {e : Ex} (h : isTarget e = true) : isPre e = true := by cases e <;> simp_all [isTarget, isPre]
theorem call_pre {e : Ex} (h : isCall e = true) : isPre e = true := by cases e <;> simp_all [isCall, isPre]

/-- The first token of a statement. -/
theorem stmt_start {x : Bool} {L : Lang} {th : K} {s : St} {sh c : Bool} (n : Nat) (w : List M) (h : fS x L sh c s) :
    ∃ k r, lay n (prS th sh s ++ w) = ⟨k, n⟩ :: r ∧ StmtStart k ∧ (k = .lp ↔ leadS s = true) ∧ (k = .kDo → ∃ b, s = .do_ b) := by
  have pre : ∀ (e : Ex) (w : List M), isPre e = true → fE x L sh e → ∃ k r, lay n (prE th sh e ++ w) = ⟨k, n⟩ :: r ∧ StmtStart k ∧
      (k = .lp ↔ leadLp e = true) ∧ (k = .kDo → ∃ b, s = .do_ b) := by
    intro e w h1 h2
    obtain ⟨k, r, h3, h4, h5⟩ := pre_start th e sh n w h1 h2
    refine ⟨k, r, h3, ?_, h5, ?_⟩
    · rcases h4 with h4 | h4
      · exact .inl h4
      · exact .inr (.inl h4)
    · rintro rfl; simp at h4
  cases s with
  | assign ts es =>
    rw [fS] at h
    obtain ⟨h1, h2, -, h4, -⟩ := h
    cases ts with
    | nil => exact absurd rfl h2
    | cons e ts =>
      rw [fEs] at h4
      simp only [targets, Bool.and_eq_true] at h1
      simp only [prS, prEs, List.append_assoc, leadS, leadEs]
      exact pre e _ (target_pre h1.1) h4.1
  | opassign o t e =>
    rw [fS] at h
    simp only [prS, List.append_assoc, leadS]
    exact pre t _ (target_pre h.1) h.2.1
  | call e =>
    rw [fS] at h
    simp only [prS, leadS]
    exact pre e _ (call_pre h.1) h.2
  | do_ b => exact ⟨.kDo, _, by simp only [prS, List.cons_append, lay]; rfl, by simp [StmtStart], by simp [leadS], fun _ => ⟨_, rfl⟩⟩
  | if_ i => exact ⟨.kIf, _, by simp only [prS, List.cons_append, lay]; rfl, by simp [StmtStart], by simp [leadS], nofun⟩
  | while_ => exact ⟨.kWhile, _, by simp only [prS, List.cons_append, lay]; rfl, by simp [StmtStart], by simp [leadS], nofun⟩
  | whileShort => exact ⟨.kWhile, _, by simp only [prS, List.cons_append, lay]; rfl, by simp [StmtStart], by simp [leadS], nofun⟩
  | repeat_ => exact ⟨.kRepeat, _, by simp only [prS, List.cons_append, lay]; rfl, by simp [StmtStart], by simp [leadS], nofun⟩
  | fornum => exact ⟨.kFor, _, by simp only [prS, List.cons_append, lay]; rfl, by simp [StmtStart], by simp [leadS], nofun⟩
  | forin => exact ⟨.kFor, _, by simp only [prS, List.cons_append, lay]; rfl, by simp [StmtStart], by simp [leadS], nofun⟩
  | break_ => exact ⟨.kBreak, _, by simp only [prS, List.cons_append, lay]; rfl, by simp [StmtStart], by simp [leadS], nofun⟩
  | return_ => exact ⟨.kReturn, _, by simp only [prS, List.cons_append, lay]; rfl, by simp [StmtStart], by simp [leadS], nofun⟩
  | local_ => exact ⟨.kLocal, _, by simp only [prS, List.cons_append, lay]; rfl, by simp [StmtStart], by simp [leadS], nofun⟩
  | localfn => exact ⟨.kLocal, _, by simp only [prS, List.cons_append, lay]; rfl, by simp [StmtStart], by simp [leadS], nofun⟩
  | goto_ => exact ⟨.kGoto, _, by simp only [prS, List.cons_append, lay]; rfl, by simp [StmtStart], by simp [leadS], nofun⟩
  | label => exact ⟨.dcolon, _, by simp only [prS, List.cons_append, lay]; rfl, by simp [StmtStart], by simp [leadS], nofun⟩
  | func => exact ⟨.kFunction, _, by simp only [prS, List.cons_append, lay]; rfl, by simp [StmtStart], by simp [leadS], nofun⟩
  | print => exact ⟨.quest, _, by simp only [prS, List.cons_append, lay]; rfl, by simp [StmtStart], by simp [leadS], nofun⟩

/-- What a block starts with. -/
theorem block_start {x : Bool} {L : Lang} {th : K} {b : Block} {sh c : Bool} (n : Nat) (w : List M) (h : fB x L sh c b) (hb : b ≠ .nil) :
    ∃ k r, lay n (prB th sh b ++ w) = ⟨k, n⟩ :: r ∧ (k = .semi ∨ StmtStart k) ∧ (k = .lp ↔ leadB b = true) ∧ (k = .kDo → doB b = true) ∧
      (semis b = true → k = .semi) := by
  cases b with
  | nil => exact absurd rfl hb
  | semi b => exact ⟨.semi, _, by simp only [prB, List.cons_append, lay]; rfl, .inl rfl, by simp [leadB], nofun, fun _ => rfl⟩
  | cons s b =>
    rw [fB] at h
    obtain ⟨k, r, h1, h2, h3, h4⟩ := stmt_start (th := th) n (prB th sh b ++ w) h.1
    refine ⟨k, r, by simp only [prB, List.append_assoc]; exact h1, .inr h2, by simpa only [leadB] using h3, ?_, by simp [semis]⟩
    intro hk
    obtain ⟨b', rfl⟩ := h4 hk
    rfl

end Verif.Mini
